import Verif.Model.Go

/-!
Inversion lemmas for results of Go functions.
-/

namespace Verif.Outcome

variable {ε α β : Type}

theorem bind_eq_ok {x : Outcome ε α} {f : α → Outcome ε β} {b : β} : (x >>= f) = .ok b ↔ ∃ a, x = .ok a ∧ f a = .ok b := by
  cases x <;> simp

theorem bind_eq_err {x : Outcome ε α} {f : α → Outcome ε β} {e : ε} :
    (x >>= f) = .err e ↔ x = .err e ∨ ∃ a, x = .ok a ∧ f a = .err e := by
  cases x <;> simp

theorem bind_eq_panic {x : Outcome ε α} {f : α → Outcome ε β} :
    (x >>= f) = .panic ↔ x = .panic ∨ ∃ a, x = .ok a ∧ f a = .panic := by
  cases x <;> simp

@[simp] theorem deref_eq_ok {x : Option α} {a : α} : (deref x : Outcome ε α) = .ok a ↔ x = some a := by
  cases x <;> simp

@[simp] theorem deref_eq_err {x : Option α} {e : ε} : (deref x : Outcome ε α) = .err e ↔ False := by
  cases x <;> simp

@[simp] theorem deref_eq_panic {x : Option α} : (deref x : Outcome ε α) = .panic ↔ x = none := by
  cases x <;> simp

@[simp] theorem failIf_eq_ok {c : Prop} [Decidable c] {e : ε} {u : Unit} : failIf c e = .ok u ↔ ¬ c := by
  unfold failIf; split <;> simp [*]

@[simp] theorem failIf_eq_err {c : Prop} [Decidable c] {e e' : ε} : failIf c e = .err e' ↔ c ∧ e = e' := by
  unfold failIf; split <;> simp [*]

@[simp] theorem failIf_eq_panic {c : Prop} [Decidable c] {e : ε} : failIf c e = .panic ↔ False := by
  unfold failIf; split <;> simp

/-- The function does not return an error. -/
def NoErr (x : Outcome ε α) : Prop := ∀ e, x ≠ .err e

theorem NoErr.bind {x : Outcome ε α} {f : α → Outcome ε β} (hx : NoErr x) (hf : ∀ a, x = .ok a → NoErr (f a)) :
    NoErr (x >>= f) := by
  intro e h
  rcases bind_eq_err.mp h with h | ⟨a, h1, h2⟩
  · exact hx e h
  · exact hf a h1 e h2

theorem noErr_ok (a : α) : NoErr (.ok a : Outcome ε α) := fun _ h => by cases h
theorem noErr_panic : NoErr (.panic : Outcome ε α) := fun _ h => by cases h
theorem noErr_deref (x : Option α) : NoErr (deref x : Outcome ε α) := fun e h => by simp at h

end Verif.Outcome
