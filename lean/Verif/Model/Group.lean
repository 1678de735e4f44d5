import Verif.Model.Scalar
import Mathlib.Algebra.Module.Defs

/-!
The interface of `pkg/ristretto` used by the rest of the code.

`Element` values are modelled as elements of a group `G`: `Add`, `Subtract`, `Negate`, `ScalarMult`, `ScalarBaseMult`,
`MultiScalarMult`, `VarTimeDoubleScalarBaseMult` (pkg/ristretto/ristretto.go:353-420) are the operations of a module over the
scalar field, `Equal` (lines 106-121) is equality, `Set` (pkg/ristretto/ristretto.go:97-101) and `NewScalar` (pkg/ristretto/ristretto.go:26-28) are assignment and 0.  `Verif/Curve` proves that the concrete edwards25519/ristretto255 code
implements this interface: `instance : RGroup RG` in `Verif/Curve/Group.lean`, and property C68.
-/

namespace Verif

class RGroup (G : Type) extends AddCommGroup G, Module Scalar G where
  /-- `Element.Equal`, lines 106-121 -/
  decEq : DecidableEq G
  /-- `NewGeneratorElement`, lines 91-95 -/
  base : G
  base_ne_zero : base ≠ 0
  base_gen : ∀ g : G, ∃ k : Scalar, k • base = g
  /-- `Element.Bytes`, lines 211-276 -/
  bytes : G → Bytes
  /-- `Element.SetCanonicalBytes`, lines 283-351; `none` is the error, after which the receiver is unchanged -/
  setCanonicalBytes : Bytes → Option G
  bytes_length : ∀ g, (bytes g).length = 32
  set_bytes : ∀ g, setCanonicalBytes (bytes g) = some g
  bytes_set : ∀ b g, setCanonicalBytes b = some g → bytes g = b
  /-- `Element.BytesEd25519`, lines 448-464 -/
  bytesEd25519 : G → Bytes
  bytesEd25519_length : ∀ g, (bytesEd25519 g).length = 32
  bytesEd25519_injective : ∀ g h, bytesEd25519 g = bytesEd25519 h → g = h

instance (G : Type) [RGroup G] : DecidableEq G := RGroup.decEq

export RGroup (base)

/-- `crypto/sha512.Sum512`: any function with 64-byte results. -/
structure Sha512 where
  sum : Bytes → Bytes
  length_sum : ∀ b, (sum b).length = 64

end Verif
