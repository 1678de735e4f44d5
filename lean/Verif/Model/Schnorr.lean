import Verif.Model.Group
import Verif.Model.Party

/-!
`pkg/internal/zk/schnorr.go`: the proof of knowledge sent in the first key generation round.
-/

namespace Verif

variable {G : Type} [RGroup G]

/-- `type Schnorr struct` (pkg/internal/zk/schnorr.go:21-25). -/
structure Schnorr where
  S : Scalar
  R : Scalar
  deriving DecidableEq

namespace Schnorr

/-- `challenge(partyID, context, public, M)` (pkg/internal/zk/schnorr.go:76-90).  `h.Sum(buffer)` appends the digest to the
64-byte `buffer` and returns 128 bytes; the error of `SetUniformBytes` is dropped; `S` starts as the zero scalar.
Simplified: the capacity of `context` is taken to be its length. -/
def challenge (sha : Sha512) (partyID : ID) (context : Bytes) (pub M : G) : GoRes Scalar := do
  let ctx ← sliceTo context 32
  let digest := sha.sum (partyID.bytes ++ ctx ++ RGroup.bytes pub ++ RGroup.bytes M)
  let buffer : Bytes := List.replicate 64 0
  return (Scalar.setUniformBytes 0 (buffer ++ digest)).1

/-- `NewSchnorrProof(partyID, public, context, private)` (pkg/internal/zk/schnorr.go:38-53); `k` is the sampled nonce. -/
def new (sha : Sha512) (partyID : ID) (pub : G) (context : Bytes) (priv k : Scalar) : GoRes Schnorr := do
  let M : G := k • base
  let S ← challenge sha partyID context pub M
  return ⟨S, priv * S + k⟩

/-- `Verify(partyID, public, context)` (pkg/internal/zk/schnorr.go:59-69). -/
def verify (sha : Sha512) (proof : Schnorr) (partyID : ID) (pub : G) (context : Bytes) : GoRes Bool := do
  let publicNeg := -pub
  let MPrime := proof.S • publicNeg + proof.R • (base : G)
  let SPrime ← challenge sha partyID context pub MPrime
  return decide (proof.S = SPrime)

/-- `BytesAppend(existing)` (pkg/internal/zk/schnorr.go:119-123): never fails. -/
def bytesAppend (proof : Schnorr) (existing : Bytes) : Bytes := existing ++ proof.S.bytes ++ proof.R.bytes

/-- `MarshalBinary()` (pkg/internal/zk/schnorr.go:97-100). -/
def marshalBinary (proof : Schnorr) : Bytes := bytesAppend proof []

/-- `UnmarshalBinary(data)` (pkg/internal/zk/schnorr.go:103-117).  On an error only the error is kept; see
`Schnorr.unmarshalInto` of `Model/Receiver`. -/
def unmarshalBinary (data : Bytes) : GoRes Schnorr := do
  Outcome.failIf (data.length < 64) .tooShort
  let b ← sliceTo data 32
  let S ← Outcome.orErr (Scalar.setCanonicalBytes b) .nonCanonical
  let b ← sliceFrom data 32
  let R ← Outcome.orErr (Scalar.setCanonicalBytes b) .nonCanonical
  return ⟨S, R⟩

/-- `Size()` (pkg/internal/zk/schnorr.go:125-127). -/
def size (_ : Schnorr) : Nat := 64

/-- `Equal(other)` for a `*Schnorr` argument (pkg/internal/zk/schnorr.go:129-141). -/
def equal (proof other : Schnorr) : Bool :=
  if other.S ≠ proof.S then false else if other.R ≠ proof.R then false else true

end Schnorr

end Verif
