import Verif.Model.Point
import Verif.Model.Group

/-!
`crypto/ed25519.Verify` and `crypto/ed25519.GenerateKey` of the Go standard library, which users of the repository call on the results of `ToEd25519`
(pkg/eddsa/signature.go:23-29, pkg/eddsa/public_key.go:38-41; README).  They are not part of the repository; the tests of pkg/eddsa call both.
-/

namespace Verif

/-- `recv.SetBytesWithClamping(x)` of `edwards25519`, called in pkg/eddsa/public_key_test.go:20 (dependency contract): clears the three low bits
and the top bit, sets the bit below, and reduces; on any length but 32 the receiver is unchanged. -/
def Scalar.setBytesWithClamping (recv : Scalar) (x : Bytes) : Scalar :=
  if x.length ≠ 32 then recv
  else
    let wideBytes := x.set 0 (x.getD 0 0 &&& 248)
    let wideBytes := wideBytes.set 31 (wideBytes.getD 31 0 &&& 63 ||| 64)
    (leNat wideBytes : Scalar)

end Verif

namespace Verif.Ed25519

open Verif

/-- `Verify(publicKey, message, sig)`: panics on a key of the wrong length. -/
def verify (sha : Sha512) (publicKey message sig : Bytes) : GoRes Bool :=
  if publicKey.length ≠ 32 then .panic
  else if sig.length ≠ 64 || sig.getD 63 0 &&& 224 ≠ 0 then .ok false
  else match Point.setBytes publicKey with
    | none => .ok false
    | some A =>
      let digest := sha.sum (sig.take 32 ++ publicKey ++ message)
      let hReduced : Scalar := (leNat digest : Scalar)
      match Scalar.setCanonicalBytes (sig.drop 32) with
      | none => .ok false
      | some s => .ok (decide (sig.take 32 = Point.bytes (Point.doubleScalarBaseMult hReduced (Point.negate A) s)))

/-- `GenerateKey(rand)`, called in pkg/eddsa/public_key_test.go:27 and pkg/eddsa/signature_test.go:16, for the 32 bytes `seed` that are read: the
public key, and the private key, which is the seed and then the public key. -/
def generateKey (sha : Sha512) (seed : Bytes) : Bytes × Bytes :=
  let s := Scalar.setBytesWithClamping 0 ((sha.sum seed).take 32)
  let publicKey := Point.bytes (Point.scalarBaseMult s)
  (publicKey, seed ++ publicKey)

end Verif.Ed25519
