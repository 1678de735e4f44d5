import Mathlib.Data.Real.Basic
import Mathlib.SetTheory.Cardinal.Finite
import Verif.Spec.Bytes
import Verif.Model.Scalar
import Verif.Model.Random

/-!
Counting probabilities over what a source of random bytes gives, for `Props/Random`.
-/

namespace Verif.Spec

/-- What one full read of 64 bytes gives. -/
abbrev Block := {b : Bytes // b.length = 64}

/-- The number that 64 bytes stand for, modulo the order of the group. -/
def scalarOf (b : Block) : Scalar := (leValue b.1 : Scalar)

/-- The fraction of the elements of a finite type that satisfy `E`: the probability of `E` for an element chosen uniformly. -/
noncomputable def prob {Ω : Type} (E : Ω → Prop) : ℝ := Nat.card {ω // E ω} / Nat.card Ω

/-- The source never fails, and gives 64 bytes when asked for 64: `β k` in its call number `k`. -/
def Delivers (src : Random.Source) (β : Nat → Block) : Prop := ∀ k, src k 64 = ((β k).1, false)

/-- The scalars read from call number `k` on. -/
def coinsFrom (β : Nat → Block) (k : Nat) : Coins := fun i => scalarOf (β (k + i))

end Verif.Spec
