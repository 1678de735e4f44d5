import Verif.Props.Forger
import Verif.Cases.Life

/-!
For each theorem of `Props/Forger.lean` that has hypotheses, a concrete case that meets them.
-/

namespace Verif.Cases

open Props Props.Demo Verif.Spec

/-- Somebody who knows the secret 21 of the key and signs `[1, 2, 3]` with the nonce 5. -/
def owner : Forger Toy where
  ask _ := challengeInput (Toy.of 5) (Toy.of 21) [1, 2, 3]
  say answers := ([1, 2, 3], ⟨Toy.of 5, 5 + (leValue (answers.getD 0 []) : Scalar) * 21⟩)

/-- With the challenge 3 it says the signature `5 + 3 * 21`, which verifies. -/
example : (owner.said (Toy.of 21) 1 fun _ => ⟨hashOf 3, by decide⟩) = ([1, 2, 3], ⟨Toy.of 5, 5 + 3 * 21⟩) := by decide +kernel
example : owner.Wins sumSha (Toy.of 21) 1 fun _ => ⟨hashOf 3, by decide⟩ := by unfold Forger.Wins; decide +kernel

/-- Run again with another answer, it gives the secret. -/
example : owner.extract (Toy.of 21) 1 (fun _ => ⟨hashOf 3, by decide⟩) (fun _ => ⟨hashOf 4, by decide⟩) = 21 := by decide +kernel

/-- `extract_spec` for these two runs. -/
example : owner.extract (Toy.of 21) 1 (fun _ => ⟨hashOf 3, by decide⟩) (fun _ => ⟨hashOf 4, by decide⟩) • (base : Toy) = Toy.of 21 :=
  extract_spec (sha := sumSha) owner (Toy.of 21) 1 _ _ 0 (by unfold Forger.Wins; decide +kernel) (by decide +kernel) (by unfold Forger.Wins; decide +kernel)
    (by decide +kernel) (by decide +kernel)

/-- Somebody who always says the same. -/
def dull : Forger Toy where
  ask _ := []
  say _ := ([1, 2, 3], ⟨Toy.of 0, 0⟩)

/-- `C101_forgery_bound`: it is successful with a probability of at most `8 / 2^252`, because it does not give the secret. -/
example : (prob fun x : Unit × (Fin (7 + 1) → Block) => dull.Wins sumSha (Toy.of 21) 7 x.2) ≤ Real.sqrt ((7 + 1) * 0) + (7 + 1) / 2 ^ 252 := by
  have := C101_forgery_bound (T := Unit) sumSha (Toy.of 21) (fun _ => dull) 7 0 (by
    unfold prob
    have : IsEmpty {x : Unit × (Fin (7 + 1) → Block) × (Fin (7 + 1) → Block) // dull.extract (Toy.of 21) 7 x.2.1 x.2.2 • (base : Toy) = Toy.of 21} := by
      constructor
      rintro ⟨x, hx⟩
      have h0 : dull.extract (Toy.of 21) 7 x.2.1 x.2.2 = 0 := by
        unfold Forger.extract
        have hs : ∀ h, dull.said (Toy.of 21) 7 h = ([1, 2, 3], ⟨Toy.of 0, 0⟩) := fun _ => rfl
        simp only [hs, sub_self, zero_div]
      rw [h0] at hx
      exact absurd hx (by decide +kernel)
    rw [Nat.card_of_isEmpty]
    simp)
  exact_mod_cast this

/-- `C101_coalition`: the parties 3 and 7 of threshold 2, who put their shares together as if these were all that is needed. -/
example := C101_coalition (G := Toy) (C := Unit) sumSha (t := 2) (fun j => if j.val = 0 then (3 : ID) else 7) (by decide +kernel) (by decide +kernel) 21
  (fun s C _ => {
    ask := fun _ => challengeInput (Toy.of 5) (C.getD 0 (Toy.of 0)) [1, 2, 3]
    say := fun answers => ([1, 2, 3], ⟨Toy.of 5, 5 + (leValue (answers.getD 0 []) : Scalar) * (s ⟨0, by decide⟩ + s ⟨1, by decide⟩)⟩) }) 1

end Verif.Cases
