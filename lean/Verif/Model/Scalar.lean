import Verif.Model.Bytes
import Verif.Lemmas.Primes

/-!
`ristretto.Scalar = edwards25519.Scalar` (pkg/ristretto/ristretto.go:24): an integer modulo the group order `q`, always
kept reduced by `filippo.io/edwards25519` v1.0.0-rc.1.  The arithmetic methods `Add`, `Multiply`, `MultiplyAdd`, `Subtract`,
`Negate`, `Invert` (with `Invert(0) = 0`), `Equal`, `Set` are the field operations of `ZMod q`.
-/

namespace Verif

abbrev Scalar := ZMod q

namespace Scalar

/-- `Scalar.Bytes`: canonical 32-byte little-endian encoding (dependency contract). -/
def bytes (s : Scalar) : Bytes := natLE 32 s.val

/-- `Scalar.SetCanonicalBytes`: error unless 32 bytes long and less than `q`; on error the receiver is unchanged
(dependency contract), so the result is an option. -/
def setCanonicalBytes (b : Bytes) : Option Scalar :=
  if b.length ≠ 32 then none
  else if leNat b < q then some (leNat b : Scalar)
  else none

/-- `recv.SetUniformBytes(b)`: reduces a 64-byte little-endian integer; on any other length returns an error and leaves the
receiver unchanged (dependency contract).  The Boolean tells whether an error was returned. -/
def setUniformBytes (recv : Scalar) (b : Bytes) : Scalar × Bool :=
  if b.length ≠ 64 then (recv, true) else ((leNat b : Scalar), false)

/-- `scalar.SetScalarUInt32` and `NewScalarUInt32` (pkg/internal/scalar/scalar.go:29-52): writes the four little-endian bytes of `x` in a 32-byte
buffer and calls `SetCanonicalBytes`; panics if that fails. -/
def setScalarUInt32 (x : UInt32) : GoRes Scalar :=
  let bytes : Bytes := x.toUInt8 :: (x >>> 8).toUInt8 :: (x >>> 16).toUInt8 :: (x >>> 24).toUInt8 :: List.replicate 28 0
  Outcome.deref (setCanonicalBytes bytes)

end Scalar

/-- Randomness drawn during one call, one scalar per draw: `scalar.SetScalarRandom`
and `NewScalarRandom` (pkg/internal/scalar/scalar.go:11-27) and `polynomial.NewPolynomial` (pkg/internal/polynomial/polynomial.go:26-32) read
64 bytes and reduce them.  The reader, and what happens when it fails, is in `Model/Random`. -/
abbrev Coins := Nat → Scalar

end Verif
