import Verif.Model.Group
import Verif.Lemmas.Bytes
import Mathlib.Algebra.Field.ZMod

/-!
A small instance of the group interface (the scalars themselves, with generator 1), used to show that hypotheses about an
arbitrary group can be met with concrete values.  The real instance is in `Verif/Curve`.
-/

namespace Verif

/-- The additive group of scalars. -/
def Toy : Type := Scalar

instance : AddCommGroup Toy := inferInstanceAs (AddCommGroup Scalar)
instance : Module Scalar Toy := inferInstanceAs (Module Scalar Scalar)

instance : RGroup Toy where
  decEq := inferInstanceAs (DecidableEq Scalar)
  base := (1 : Scalar)
  base_ne_zero := (one_ne_zero : (1 : Scalar) ≠ 0)
  base_gen g := ⟨(show Scalar from g), @mul_one Scalar _ g⟩
  bytes := Scalar.bytes
  setCanonicalBytes := Scalar.setCanonicalBytes
  bytes_length := Scalar.bytes_length
  set_bytes := Scalar.set_bytes
  bytes_set _ _ := Scalar.bytes_set
  bytesEd25519 := Scalar.bytes
  bytesEd25519_length := Scalar.bytes_length
  bytesEd25519_injective _ _ := Scalar.bytes_injective

/-- The element `n`. -/
def Toy.of (n : Scalar) : Toy := n

/-- A constant function with 64-byte results, as a concrete `Sha512`. -/
def toySha : Sha512 := ⟨fun _ => 5 :: List.replicate 63 0, fun _ => by simp⟩

end Verif
