import Verif.Props.Crashes
import Verif.Props.Demo

/-!
The theorems of `Props/Crashes` applied to concrete sessions: with a stored message without payload, with one without commitments, and with
useless but usable ones.
-/

namespace Verif.Cases

open Verif State Props Props.Demo

/-- Party 3 sends only a header. -/
def bareKeyGen1 : Message Toy := { header := ⟨1, 3, 0⟩ }

/-- Party 3 sends an empty list of commitments. -/
def emptyKeyGen1 : Message Toy := Message.newKeyGen1 3 ⟨0, 1⟩ []

/-- Party 3 sends only a header in the second round of signing. -/
def bareSign2 : Message Toy := { header := ⟨4, 3, 0⟩ }

theorem crash_round1 (m : Message Toy) (hm : m = bareKeyGen1 ∨ m = emptyKeyGen1) : ∃ h s, Hist (Keygen.impl toySha) (session ids 1 1) h s ∧ s.done = false ∧
    s.received = [(2, some (Message.newKeyGen1 2 ⟨0, 1⟩ [Toy.of 7, Toy.of 8])), (3, some m)] := by
  rcases hm with rfl | rfl
  · obtain ⟨h, s, h1, h2⟩ := of_run (impl := Keygen.impl toySha) (s := session ids 1 1) (ops := [.processAll .insertion (coins [5, 6, 7]),
      .handle (Message.newKeyGen1 2 ⟨0, 1⟩ [Toy.of 7, Toy.of 8]), .handle bareKeyGen1])
      (p := fun _ s => decide (s.done = false ∧ s.received = [(2, some (Message.newKeyGen1 2 ⟨0, 1⟩ [Toy.of 7, Toy.of 8])), (3, some bareKeyGen1)])) (by decide +kernel)
    exact ⟨h, s, h1, by simpa using h2⟩
  · obtain ⟨h, s, h1, h2⟩ := of_run (impl := Keygen.impl toySha) (s := session ids 1 1) (ops := [.processAll .insertion (coins [5, 6, 7]),
      .handle (Message.newKeyGen1 2 ⟨0, 1⟩ [Toy.of 7, Toy.of 8]), .handle emptyKeyGen1])
      (p := fun _ s => decide (s.done = false ∧ s.received = [(2, some (Message.newKeyGen1 2 ⟨0, 1⟩ [Toy.of 7, Toy.of 8])), (3, some emptyKeyGen1)])) (by decide +kernel)
    exact ⟨h, s, h1, by simpa using h2⟩

theorem bare_unusable : Spec.Unusable bareKeyGen1 := Or.inl ⟨rfl, fun p hp => by cases hp⟩

theorem empty_unusable : Spec.Unusable emptyKeyGen1 := Or.inl ⟨rfl, fun p hp => by cases hp; rfl⟩

/-- Both crash the session in some order; in no order does it go on. -/
example (m : Message Toy) (hm : m = bareKeyGen1 ∨ m = emptyKeyGen1) : ∃ h s, Hist (Keygen.impl toySha) (session ids 1 1) h s ∧
    (∃ ord, ∀ coins, step (Keygen.impl toySha) s (.processAll ord coins) = none) ∧
    ∀ ord coins s' ret, step (Keygen.impl toySha) s (.processAll ord coins) = some (s', ret) → s'.done = true ∧ s'.err ≠ none := by
  obtain ⟨h, s, h1, h2, h3⟩ := crash_round1 m hm
  have hu : Spec.Unusable m := by rcases hm with rfl | rfl; exacts [bare_unusable, empty_unusable]
  obtain ⟨a, b⟩ := C118_keygen_processAll session1 (by decide) (by decide) h1
  exact ⟨h, s, h1, b (a.mpr ⟨h2, by rw [h3]; rfl, 3, m, by rw [h3]; simp, hu⟩)⟩

/-- Midway through round 1 no call crashes: not all messages are there. -/
example : ∃ h s, Hist (Keygen.impl toySha) (session ids 1 1) h s ∧ s.roundNumber = 1 ∧ ∀ ord coins, step (Keygen.impl toySha) s (.processAll ord coins) ≠ none := by
  obtain ⟨h, s, h1, h2, h3, _, h4, _⟩ := keygen_midway
  refine ⟨h, s, h1, h3, fun ord coins hx => ?_⟩
  have := ((C118_keygen_processAll session1 (by decide) (by decide) h1).1.mp ⟨ord, coins, hx⟩).2.1
  rw [h4] at this
  cases this

/-- Wrong proofs, wrong degrees and wrong shares are usable: nothing crashes. -/
example : ∃ h s, Hist (Keygen.impl toySha) (session ids 1 1) h s ∧ s.roundNumber = 1 ∧ s.received.length = 2 ∧
    ∀ ord coins, step (Keygen.impl toySha) s (.processAll ord coins) ≠ none := by
  obtain ⟨h, s, h1, h2⟩ := of_run (impl := Keygen.impl toySha) (s := session ids 1 1) (ops := [.processAll .insertion (coins [5, 6, 7]),
    .handle (Message.newKeyGen1 2 ⟨8, 1⟩ [Toy.of 7, Toy.of 8]), .handle (Message.newKeyGen1 3 ⟨0, 1⟩ [Toy.of 7])])
    (p := fun h s => decide (s.roundNumber = 1 ∧ s.received.length = 2) && h.all fun x => match x with
      | (.handle m, _) => decide (m.header.type = 1) && (m.keyGen1.any fun p => decide (p.commitments ≠ []))
      | _ => true) (by decide +kernel)
  rw [Bool.and_eq_true, decide_eq_true_eq, List.all_eq_true] at h2
  refine ⟨h, s, h1, h2.1.1, h2.1.2, C118_keygen_safe session1 (by decide) (by decide) h1 ?_⟩
  intro m ret hm hu
  have := h2.2 _ hm
  simp only [Bool.and_eq_true, decide_eq_true_eq, Option.any_eq_true] at this
  obtain ⟨ht, p, hp, hc⟩ := this
  simp only [Spec.Unusable, ht] at hu
  have hu : ∀ p, m.keyGen1 = some p → p.commitments = [] := by simpa using hu
  exact hc (hu p hp)

/-- The timer before the first call. -/
example : ∃ h s, Hist (Keygen.impl toySha) (session ids 1 1) h s ∧ step (Keygen.impl toySha) s .callback = none := by
  obtain ⟨h, s, h1, h2⟩ := of_run (impl := Keygen.impl toySha) (s := session ids 1 1) (ops := [.advance 10, .fire])
    (p := fun _ s => decide (s.timer.fired ≠ 0 ∧ s.done = false ∧ s.roundNumber = 0)) (by decide +kernel)
  have h2 : s.timer.fired ≠ 0 ∧ s.done = false ∧ s.roundNumber = 0 := by simpa using h2
  exact ⟨h, s, h1, (C118_keygen_others session1 (by decide) h1 .callback (by simp)).mpr ⟨rfl, h2⟩⟩

/-- A signing session that is handed a header only in the last round. -/
example : ∃ s₀ h s, Sign.newSignState toySha [1, 3] ⟨1, 45, Toy.of 45⟩ key [1, 2, 3] 10 0 = .ok s₀ ∧ Hist (Sign.impl toySha) s₀ h s ∧
    (∃ ord, ∀ coins, step (Sign.impl toySha) s (.processAll ord coins) = none) ∧ step (Sign.impl toySha) s .callback ≠ none := by
  obtain ⟨s₀, h, s, h1, h2, h3⟩ := Demo.sign_of_run [.processAll .insertion (Demo.coins [13, 14]), .handle (Message.newSign1 3 (Toy.of 11) (Toy.of 12)),
    .processAll .reversed (Demo.coins []), .handle bareSign2] (fun _ s => decide (s.done = false ∧ s.received = [(3, some bareSign2)])) (by decide +kernel)
  have h3 : s.done = false ∧ s.received = [(3, some bareSign2)] := by simpa using h3
  obtain ⟨a, b⟩ := C118_sign_processAll h1 (by decide) h2
  exact ⟨s₀, h, s, h1, h2, (b (a.mpr ⟨h3.1, by rw [h3.2]; rfl, 3, bareSign2, by rw [h3.2]; simp, Or.inr (Or.inr (Or.inr ⟨rfl, rfl⟩))⟩)).1,
    C118_sign_others h1 h2 .callback (by simp)⟩

/-- One that is handed commitments to nothing and never crashes. -/
example : ∃ s₀ h s, Sign.newSignState toySha [1, 3] ⟨1, 45, Toy.of 45⟩ key [1, 2, 3] 10 0 = .ok s₀ ∧ Hist (Sign.impl toySha) s₀ h s ∧
    s.received.length = 1 ∧ s.roundNumber = 1 ∧ ∀ op, step (Sign.impl toySha) s op ≠ none := by
  obtain ⟨s₀, h, s, h1, h2, h3⟩ := Demo.sign_of_run [.processAll .insertion (Demo.coins [13, 14]), .handle (Message.newSign1 3 (Toy.of 0) (Toy.of 12))]
    (fun h s => decide (s.received.length = 1 ∧ s.roundNumber = 1) && h.all fun x => match x with
      | (.handle m, _) => decide (m.header.type = 3) && m.sign1.isSome
      | _ => true) (by decide +kernel)
  rw [Bool.and_eq_true, decide_eq_true_eq, List.all_eq_true] at h3
  refine ⟨s₀, h, s, h1, h2, h3.1.1, h3.1.2, C118_sign_safe h1 (by decide) h2 ?_⟩
  intro m ret hm hu
  have := h3.2 _ hm
  simp only [Bool.and_eq_true, decide_eq_true_eq] at this
  simp only [Spec.Unusable, this.1] at hu
  have hu : m.sign1 = none := by simpa using hu
  rw [hu] at this
  exact absurd this.2 (by simp)

/-- Five bytes, and the encoding of a share. -/
example : ∃ m : Message Toy, Message.unmarshalBinary Message.fresh [1, 0, 3, 0, 0] = .ok m ∧ ¬ ∃ m' : Message Toy, Message.marshalBinary m' = .ok [1, 0, 3, 0, 0] ∧
    Spec.Fits m' ∧ (m'.header.type = 1 → ∀ p, m'.keyGen1 = some p → p.commitments ≠ []) :=
  have h : Message.unmarshalBinary Message.fresh [1, 0, 3, 0, 0] = .ok bareKeyGen1 := C21_bare_header_accepted 1 3 0 ⟨by decide, Or.inl ⟨Or.inl rfl, rfl⟩⟩
  ⟨_, h, (C118_bytes h).mp bare_unusable⟩

end Verif.Cases
