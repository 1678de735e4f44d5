import Verif.Model.Group
import Mathlib.Algebra.Field.ZMod
import Mathlib.Algebra.Module.Torsion.Field

/-!
Consequences of the group interface.
-/

namespace Verif

variable {G : Type} [RGroup G]

theorem base_ne_zero' : (base : G) ≠ 0 := RGroup.base_ne_zero

theorem smul_base_injective {a b : Scalar} (h : a • (base : G) = b • base) : a = b := by
  have h1 : (a - b) • (base : G) = 0 := by rw [sub_smul, h, sub_self]
  rcases smul_eq_zero.mp h1 with h2 | h2
  · exact sub_eq_zero.mp h2
  · exact absurd h2 base_ne_zero'

theorem smul_base_eq_zero {a : Scalar} : a • (base : G) = 0 ↔ a = 0 := by
  constructor
  · intro h; exact smul_base_injective (G := G) (by rw [h, zero_smul])
  · rintro rfl; exact zero_smul _ _

theorem bytes_injective {a b : G} (h : RGroup.bytes a = RGroup.bytes b) : a = b := by
  have := RGroup.set_bytes a
  rw [h, RGroup.set_bytes] at this
  exact (Option.some.inj this).symm

/-- The discrete logarithm to the base point. -/
noncomputable def dlog (g : G) : Scalar := (RGroup.base_gen g).choose

theorem dlog_spec (g : G) : dlog g • (base : G) = g := (RGroup.base_gen g).choose_spec

end Verif
