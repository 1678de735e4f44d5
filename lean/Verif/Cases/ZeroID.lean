import Verif.Props.ZeroID
import Verif.Props.Demo

/-!
The theorems of `Props/ZeroID` applied to key generation sessions of the parties 0, 1 and 2.
-/

namespace Verif.Cases

open Verif State Props Props.Demo

/-- The parties 0, 1 and 2. -/
def withZero : IDSlice := [0, 1, 2]

theorem withZero_session (i : ID) (hi : i ∈ withZero) : Keygen.newKeygenState toySha i withZero 1 10 0 = .ok (session withZero 1 i) := by
  simp only [withZero, List.mem_cons, List.not_mem_nil, or_false] at hi
  rcases hi with rfl | rfl | rfl <;> exact session_ok (by decide) (by decide) (by decide +kernel)

example := C120_accepted (G := Toy) (sha := toySha) 1 [1, 2] 2 10 0 (by decide) (by decide) (by decide) (by decide) (by decide)

/-- A key whose owner also lists 0, with a public share for it. -/
example := (C120_sign (sha := toySha) ⟨1, 45, Toy.of 45⟩ ⟨[0, 1], 1, [(0, Toy.of 21), (1, Toy.of 45)], Toy.of 21⟩ [0, 1] [1, 2, 3] 10 0 (by decide)).2 (by decide +kernel)

/-- Party 0 after a message and with a timer that has gone off. -/
example : ∃ h s, Hist (Keygen.impl toySha) (session withZero 1 0) h s ∧ s.done = false ∧ (∀ ord coins, step (Keygen.impl toySha) s (.processAll ord coins) = none) ∧
    step (Keygen.impl toySha) s .callback = none := by
  obtain ⟨h, s, h1, h2⟩ := of_run (impl := Keygen.impl toySha) (s := session withZero 1 0) (ops := [.handle (Message.newKeyGen1 2 ⟨0, 1⟩ [Toy.of 7, Toy.of 8]), .advance 10, .fire])
    (p := fun _ s => decide (s.timer.fired ≠ 0)) (by decide +kernel)
  obtain ⟨a, _, _, b, c⟩ := C120_own (withZero_session 0 (by decide)) (by decide) h1
  exact ⟨h, s, h1, a, b, c (by simpa using h2)⟩

/-- Party 1 has sent its broadcast and is handed, in memory, one from 0 and one from 2 with a wrong proof: the session ends with an error. -/
example : ∃ h s s' ret, Hist (Keygen.impl toySha) (session withZero 1 1) h s ∧ step (Keygen.impl toySha) s (.processAll .insertion (coins [])) = some (s', ret) ∧
    s' ≠ s ∧ s'.done = true ∧ s'.err ≠ none := by
  obtain ⟨h, s, h1, h2⟩ := of_run (impl := Keygen.impl toySha) (s := session withZero 1 1) (ops := [.processAll .insertion (coins [5, 6, 7]),
    .handle (Message.newKeyGen1 0 ⟨0, 1⟩ [Toy.of 7, Toy.of 8]), .handle (Message.newKeyGen1 2 ⟨9, 1⟩ [Toy.of 7, Toy.of 8])])
    (p := fun _ s => decide (s.roundNumber ≠ 0 ∧ s.done = false) && (match step (Keygen.impl toySha) s (.processAll .insertion (coins [])) with
      | some (s', _) => s'.done
      | none => false)) (by decide +kernel)
  rw [Bool.and_eq_true, decide_eq_true_eq] at h2
  obtain ⟨⟨hN, hd⟩, h2⟩ := h2
  cases hx : step (Keygen.impl toySha) s (.processAll .insertion (coins [])) with
  | none => rw [hx] at h2; cases h2
  | some x =>
    rw [hx] at h2
    have hne : x.1 ≠ s := fun h => by
      have h2 : x.1.done = true := h2
      rw [h, hd] at h2; cases h2
    exact ⟨h, s, x.1, x.2, h1, hx, hne, ((C120_other (withZero_session 1 (by decide)) (by decide) (by decide) h1 hN hx).2.resolve_left hne)⟩

/-- With a right proof from everybody it crashes. -/
example : ∃ h s, Hist (Keygen.impl toySha) (session withZero 1 1) h s ∧ s.roundNumber = 1 ∧ step (Keygen.impl toySha) s (.processAll .insertion (coins [])) = none := by
  obtain ⟨h, s, h1, h2⟩ := of_run (impl := Keygen.impl toySha) (s := session withZero 1 1) (ops := [.processAll .insertion (coins [5, 6, 7]),
    .handle (Message.newKeyGen1 0 ⟨0, 1⟩ [Toy.of 7, Toy.of 8]), .handle (Message.newKeyGen1 2 ⟨0, 1⟩ [Toy.of 7, Toy.of 8])])
    (p := fun _ s => decide (s.roundNumber = 1) && (step (Keygen.impl toySha) s (.processAll .insertion (coins []))).isNone) (by decide +kernel)
  rw [Bool.and_eq_true, decide_eq_true_eq, Option.isNone_iff_eq_none] at h2
  exact ⟨h, s, h1, h2⟩

/-- Party 1 receives five bytes from party 2, waits, and its timer goes off. -/
example : ∃ h s, Hist (Keygen.impl toySha) (session withZero 1 1) h s ∧ s.done = true ∧ s.err = some ⟨0, 1, .timeout⟩ := by
  obtain ⟨h, s, h1, h2⟩ := of_run (impl := Keygen.impl toySha) (s := session withZero 1 1) (ops := [.processAll .insertion (coins [5, 6, 7]),
    .handle { header := ⟨1, 2, 0⟩ }, .processAll .insertion (coins []), .advance 10, .fire, .callback])
    (p := fun h s => s.done && h.all fun x => match x with
      | (.handle m, _) => decide (m = { header := ⟨1, 2, 0⟩ })
      | _ => true) (by decide +kernel)
  rw [Bool.and_eq_true, List.all_eq_true] at h2
  refine ⟨h, s, h1, h2.1, (C120_bytes (withZero_session 1 (by decide)) (by decide) (by decide) (by decide) (by decide) h1 fun m ret hm => ?_).2 h2.1⟩
  have := h2.2 _ hm
  simp only [decide_eq_true_eq] at this
  exact ⟨_, _, this ▸ C21_bare_header_accepted 1 2 0 ⟨by decide, Or.inl ⟨Or.inl rfl, rfl⟩⟩⟩

/-- Nobody sends a share: party 1 at that point. -/
example : ∃ h s π c, Hist (Keygen.impl toySha) (session withZero 1 1) h s ∧ s.roundNumber = 1 ∧ Spec.emitted h = [Message.newKeyGen1 1 π c] := by
  obtain ⟨h, s, h1, h2⟩ := of_run (impl := Keygen.impl toySha) (s := session withZero 1 1) (ops := [.processAll .insertion (coins [5, 6, 7]),
    .handle (Message.newKeyGen1 0 ⟨0, 1⟩ [Toy.of 7, Toy.of 8])]) (p := fun h s => decide (s.roundNumber = 1 ∧ Spec.emitted h ≠ [])) (by decide +kernel)
  have h2 : s.roundNumber = 1 ∧ Spec.emitted h ≠ [] := by simpa using h2
  obtain ⟨_, _, _, _, h3⟩ := C120_nothing (withZero_session 1 (by decide)) (by decide) (by decide) h1
  obtain ⟨_, π, c, h4⟩ := h3.resolve_left h2.2
  exact ⟨h, s, π, c, h1, h2.1, h4⟩

end Verif.Cases
