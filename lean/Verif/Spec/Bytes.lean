import Mathlib.Algebra.BigOperators.Group.Finset.Basic
import Mathlib.Algebra.BigOperators.Ring.Finset
import Mathlib.Algebra.Ring.Nat
import Mathlib.Tactic.Ring

/-!
Byte strings as integers, from the textbook definition.
-/

namespace Verif.Spec

/-- `∑ bᵢ 256ⁱ`: the integer a byte string stands for in little-endian order. -/
def leValue (b : List UInt8) : Nat := ∑ i ∈ Finset.range b.length, (b.getD i 0).toNat * 256 ^ i

theorem leValue_nil : leValue [] = 0 := rfl

theorem leValue_cons (a : UInt8) (b : List UInt8) : leValue (a :: b) = a.toNat + 256 * leValue b := by
  unfold leValue
  rw [List.length_cons, Finset.sum_range_succ']
  simp only [List.getD_cons_succ, List.getD_cons_zero, pow_zero, mul_one, pow_succ]
  rw [add_comm, Finset.mul_sum]
  congr 1
  apply Finset.sum_congr rfl
  intro i _
  ring

end Verif.Spec
