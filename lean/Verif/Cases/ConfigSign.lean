import Verif.Props.ConfigSign

/-!
The theorems of `Props/ConfigSign` applied to parties 1 and 2 that sign different messages.
-/

namespace Verif.Cases

open Verif State Props Props.Demo

theorem skey_pub (i : ID) (hi : i ∈ ids) : key.shares.get? (skey i).id = some ((skey i).secret • (RGroup.base : Toy)) := by
  have : i = 1 ∨ i = 2 ∨ i = 3 := by simpa [ids] using hi
  rcases this with rfl | rfl | rfl <;> decide +kernel

/-- Whether a step succeeded. -/
def went {ε α : Type} : Outcome ε α → Bool
  | .ok _ => true
  | _ => false

/-- The share of party 1 reaches party 2 in round 2, with the hash function of `C123_blamed_refuted`. -/
example : ∃ s₁ h₁ t₁ s₂ h₂ t₂ er, Sign.newSignState sumSha [1, 2] (skey 1) key [1, 2, 3] 10 0 = .ok s₁ ∧
    Sign.newSignState sumSha [1, 2] (skey 2) key [9] 10 0 = .ok s₂ ∧ Hist (Sign.impl sumSha) s₁ h₁ t₁ ∧ Hist (Sign.impl sumSha) s₂ h₂ t₂ ∧
    Message.newSign2 1 20163 ∈ Spec.emitted h₁ ∧ (Sign.impl sumSha).processMessage t₂.round (some (Message.newSign2 1 20163)) = .err (er, t₂.round) ∧
    er.partyID = 1 := by
  obtain ⟨s₁, h₁, t₁, a1, a2, a3⟩ := sign2_of_run sumSha 1 [1, 2, 3] [.processAll .insertion (coins [13, 14]),
    .handle (Message.newSign1 2 (Toy.of 15) (Toy.of 16)), .processAll .insertion (coins [])]
    (fun h _ => decide (Spec.emitted h = [Message.newSign1 1 (Toy.of 13) (Toy.of 14), Message.newSign2 1 20163])) (by decide +kernel)
  obtain ⟨s₂, h₂, t₂, b1, b2, b3⟩ := sign2_of_run sumSha 2 [9] [.processAll .insertion (coins [15, 16]),
    .handle (Message.newSign1 1 (Toy.of 13) (Toy.of 14)), .processAll .insertion (coins [])]
    (fun h s => decide ((s.done = false ∧ s.roundNumber = 2) ∧ takenIn 1 [Message.newSign1 1 (Toy.of 13) (Toy.of 14), Message.newSign2 1 20163] h = true ∧
      went ((Sign.impl sumSha).processMessage s.round (some (Message.newSign2 1 20163))) = false)) (by decide +kernel)
  simp only [decide_eq_true_eq] at a3 b3
  have hm : Message.newSign2 1 20163 ∈ Spec.emitted h₁ := by rw [a3]; simp
  obtain ⟨_, _, _, _, _, _, _, _, hall⟩ := C123_accepted_iff a1 b1 (by decide) (by decide) _ (skey_pub 1 (by decide)) a2 b2 (by decide) (by decide)
    (authentic_of (a3 ▸ b3.2.1)) _ ⟨20163⟩ hm rfl b3.1.1 b3.1.2
  have hall := hall [] t₂.round (by constructor)
  obtain ⟨er, h1, h2⟩ := hall.2 fun hok => by
    obtain ⟨r', hr'⟩ := hall.1 hok
    have := b3.2.2
    rw [hr'] at this
    cases this
  exact ⟨s₁, h₁, t₁, s₂, h₂, t₂, er, a1, b1, a2, b2, hm, h1, h2⟩

/-- With a hash function under which everything collides, party 2 gets a signature of 9 from party 1, which is signing 1, 2, 3. -/
example : ∃ s₁ h₁ t₁ s₂ h₂ t₂, Sign.newSignState toySha [1, 2] (skey 1) key [1, 2, 3] 10 0 = .ok s₁ ∧
    Sign.newSignState toySha [1, 2] (skey 2) key [9] 10 0 = .ok s₂ ∧ Hist (Sign.impl toySha) s₁ h₁ t₁ ∧ Hist (Sign.impl toySha) s₂ h₂ t₂ ∧
    (t₂.done = true ∧ t₂.err = none) ∧ ∃ z, Message.newSign2 1 z ∈ Spec.emitted h₁ := by
  obtain ⟨s₁, h₁, t₁, a1, a2, a3⟩ := sign2_of_run toySha 1 [1, 2, 3] [.processAll .insertion (coins [13, 14]),
    .handle (Message.newSign1 2 (Toy.of 15) (Toy.of 16)), .processAll .insertion (coins [])]
    (fun h _ => decide (Spec.emitted h = [Message.newSign1 1 (Toy.of 13) (Toy.of 14), Message.newSign2 1 533])) (by decide +kernel)
  obtain ⟨s₂, h₂, t₂, b1, b2, b3⟩ := sign2_of_run toySha 2 [9] [.processAll .insertion (coins [15, 16]),
    .handle (Message.newSign1 1 (Toy.of 13) (Toy.of 14)), .processAll .insertion (coins []), .handle (Message.newSign2 1 533), .processAll .insertion (coins [])]
    (fun h s => decide ((s.done = true ∧ s.err = none) ∧ takenIn 1 [Message.newSign1 1 (Toy.of 13) (Toy.of 14), Message.newSign2 1 533] h = true))
    (by decide +kernel)
  simp only [decide_eq_true_eq] at a3 b3
  obtain ⟨hz, _⟩ := C123_success a1 b1 (by decide) (by decide) _ (skey_pub 1 (by decide)) a2 b2 (by decide) (by decide)
    (authentic_of (a3 ▸ b3.2)) b3.1
  exact ⟨s₁, h₁, t₁, s₂, h₂, t₂, a1, b1, a2, b2, b3.1, hz⟩

/-- The messages 1, 2, 3 and 9 under the key of the examples. -/
example (D E D' E' : ID → Toy) (e w : Scalar) := C123_chance toySha [1, 2] [1, 2] [1, 2, 3] [9] key.groupKey key.groupKey D E D' E' 1 e w 1 one_ne_zero (by decide)
  (fun h => absurd (congrArg List.length h) (by simp [Spec.challengeInput, RGroup.bytesEd25519_length])) (by decide +kernel) (by decide +kernel)

end Verif.Cases
