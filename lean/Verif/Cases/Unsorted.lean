import Verif.Props.Unsorted
import Verif.Props.Demo

/-!
The theorems of `Props/Unsorted` applied to sessions with the list 2, 1, 3.
-/

namespace Verif.Cases

open Verif State Props Props.Demo

/-- The parties 1 to 3, not in order. -/
def disorder : IDSlice := [2, 1, 3]

/-- `Contains` finds 3 only. -/
example : IDSlice.contains disorder 1 = false ∧ IDSlice.contains disorder 2 = false ∧ IDSlice.contains disorder 3 = true := by decide +kernel
example : ¬ ∀ id ∈ disorder, IDSlice.contains disorder id = true := fun h => absurd ((C121_contains_iff disorder (by decide)).mp h) (by decide)
example : ∀ id ∈ ids, IDSlice.contains ids id = true := (C121_contains_iff ids (by decide)).mpr (by decide)

example := C121_accepted (G := Toy) (sha := toySha) 9 [2, 8, 1, 5] 3 10 0 (by decide) (by decide) (by decide) (by decide)

theorem disorder_session : Keygen.newKeygenState toySha 3 disorder 1 10 0 = .ok (session disorder 1 3) := session_ok (by decide) (by decide) (by decide +kernel)

/-- Party 3 gets everything the others send and still waits, until its timer goes off. -/
example : ∃ h s π c, Hist (Keygen.impl toySha) (session disorder 1 3) h s ∧ Spec.emitted h = [Message.newKeyGen1 3 π c] ∧ s.done = true ∧ s.err = some ⟨0, 1, .timeout⟩ := by
  obtain ⟨h, s, h1, h2⟩ := of_run (impl := Keygen.impl toySha) (s := session disorder 1 3) (ops := [.processAll .insertion (coins [5, 6, 7]),
    .handle (Message.newKeyGen1 1 ⟨0, 1⟩ [Toy.of 7, Toy.of 8]), .handle (Message.newKeyGen1 2 ⟨0, 1⟩ [Toy.of 7, Toy.of 8]), .processAll .insertion (coins []),
    .advance 10, .fire, .callback]) (p := fun h s => decide (s.done = true ∧ Spec.emitted h ≠ [])) (by decide +kernel)
  have h2 : s.done = true ∧ Spec.emitted h ≠ [] := by simpa using h2
  obtain ⟨_, h3, _, _, h4, _⟩ := C121_keygen disorder_session (by decide) (by decide) h1
  obtain ⟨π, c, h3⟩ := h3.resolve_left h2.2
  exact ⟨h, s, π, c, h1, h3, h2.1, h4 h2.1⟩

/-- A run that does succeed, and one that has sent its shares, have a sorted list. -/
example : ∃ h s, Hist (Keygen.impl toySha) (session ids 1 1) h s ∧ s.done = true ∧ ids.Pairwise (· < ·) ∧ (0 : ID) ∉ ids := by
  obtain ⟨h, s, h1, h2, h3, _⟩ := keygen_succeeds
  exact ⟨h, s, h1, h2, C121_keygen_list session1 (by decide) h1 (Or.inl ⟨h2, h3⟩)⟩

/-- The first round of signing by 3 with the signers in this order. -/
def signDisorder : Option (Sign.Round Toy) := match Sign.newRound disorder ⟨3, 93, Toy.of 93⟩ key [1, 2, 3] with
  | .ok r => some r
  | _ => none

theorem signDisorder_ok : ∃ r, Sign.newRound disorder ⟨3, 93, Toy.of 93⟩ key [1, 2, 3] = .ok r ∧ signDisorder = some r := by
  have h : signDisorder.isSome = true := by decide +kernel
  unfold signDisorder at h ⊢
  split at h
  · rename_i r hr
    exact ⟨r, hr, by simp [hr]⟩
  · cases h

/-- Party 3 gets all commitments and still sends no share; a message without payload does not crash it. -/
example : ∃ s₀ h s D E, Sign.newSignState toySha disorder ⟨3, 93, Toy.of 93⟩ key [1, 2, 3] 10 0 = .ok s₀ ∧ Hist (Sign.impl toySha) s₀ h s ∧ s.roundNumber = 1 ∧
    Spec.emitted h = [Message.newSign1 3 D E] ∧ ∀ op, step (Sign.impl toySha) s op ≠ none := by
  obtain ⟨r, h1, h2⟩ := signDisorder_ok
  have h : (signDisorder.bind fun r => (run (Sign.impl toySha) (newBaseState (Sign.impl toySha) r 10 0) [.processAll .insertion (coins [13, 14]),
      .handle (Message.newSign1 1 (Toy.of 11) (Toy.of 12)), .handle { header := ⟨3, 2, 0⟩ }, .processAll .reversed (coins [])]).map
      fun x => decide (x.2.roundNumber = 1 ∧ Spec.emitted x.1 ≠ [])) = some true := by decide +kernel
  rw [h2] at h
  obtain ⟨hh, s, h3, h4⟩ := of_run (impl := Sign.impl toySha) (p := fun h s => decide (s.roundNumber = 1 ∧ Spec.emitted h ≠ [])) h
  have h4 : s.roundNumber = 1 ∧ Spec.emitted hh ≠ [] := by simpa using h4
  have h₀ : Sign.newSignState toySha disorder ⟨3, 93, Toy.of 93⟩ key [1, 2, 3] 10 0 = .ok (newBaseState (Sign.impl toySha) r 10 0) := newSignState_ok.mpr ⟨r, h1, rfl⟩
  obtain ⟨_, h5, _, _, _, h6⟩ := C121_sign h₀ (by decide) (by decide) h3
  obtain ⟨D, E, h5⟩ := h5.resolve_left h4.2
  exact ⟨_, hh, s, D, E, h₀, h3, h4.1, h5, h6⟩

/-- A signing that succeeds has a sorted list. -/
example : ([1, 3] : List ID).Pairwise (· < ·) ∧ (0 : ID) ∉ ([1, 3] : List ID) := by
  obtain ⟨s₀, h, s, h1, h2, h3, h4, _⟩ := sign_succeeds
  exact C121_sign_list h1 (by decide) h2 (Or.inl ⟨h3, h4⟩)

end Verif.Cases
