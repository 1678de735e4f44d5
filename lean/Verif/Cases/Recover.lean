import Verif.Props.Recover
import Verif.Cases.Crashes

/-!
The theorems of `Props/Recover` applied to concrete sessions.
-/

namespace Verif.Cases

open Verif State Props Props.Demo

/-- The bare header of `C119_refuted` is what the decoder makes of five bytes. -/
example : Message.unmarshalBinary (Message.fresh : Message Toy) [2, 0, 3, 0, 1] = .ok bareKeyGen2 := C21_bare_header_accepted 2 3 1 ⟨by decide, by decide⟩

/-- Some event of the list is a panic. -/
def panics (h : List (Recover.Event Toy)) : Bool := h.any fun
  | .panicked _ => true
  | _ => false

theorem split_of_panics {h : List (Recover.Event Toy)} (hp : panics h = true) : ∃ h₁ ord h₂, h = h₁ ++ .panicked ord :: h₂ := by
  obtain ⟨e, hm, he⟩ := List.any_eq_true.mp hp
  obtain ⟨a, b, hab⟩ := List.append_of_mem hm
  cases e with
  | panicked ord => exact ⟨a, ord, b, hab⟩
  | returned op ret => cases he

/-- A key generation in which a call panics in the last round and the caller tries again ends without anything. -/
example : ∃ h s, Recover.Hist (Keygen.impl toySha) Pointers.keygenAfter (session ids 1 1) h s ∧ s.roundNumber = 2 ∧ s.done = true ∧ s.err ≠ none ∧
    s.round.output.secretKey = none := by
  obtain ⟨h, s, h1, h2⟩ := of_attempt (impl := Keygen.impl toySha) (after := Pointers.keygenAfter) (s := session ids 1 1) (ops := retried)
    (p := fun h s => decide (panics h = true ∧ s.roundNumber = 2 ∧ s.done = true)) (by decide +kernel)
  have h2 := of_decide_eq_true h2
  obtain ⟨h₁, ord, h₂, rfl⟩ := split_of_panics h2.1
  obtain ⟨g1, _, g3, _⟩ := C119_keygen_nothing session1 (by decide) h1
  exact ⟨_, s, h1, h2.2.1, h2.2.2, g1 h2.2.2, g3⟩

/-- The same calls up to the panic, and twice more: it is still running, and each further call panics or ends it. -/
example : ∃ h s, Recover.Hist (Keygen.impl toySha) Pointers.keygenAfter (session ids 1 1) h s ∧ panics h = true ∧ s.done = false ∧
    ∀ coins, step (Keygen.impl toySha) s (.processAll .reversed coins) = none := by
  obtain ⟨h, s, h1, h2⟩ := of_attempt (impl := Keygen.impl toySha) (after := Pointers.keygenAfter) (s := session ids 1 1)
    (ops := retried.take 6 ++ [.processAll .reversed (coins []), .advance 1, .processAll .reversed (coins [])])
    (p := fun h s => decide (panics h = true ∧ s.done = false ∧ (Recover.recovered (Keygen.impl toySha) Pointers.keygenAfter .reversed s).isSome = true)) (by decide +kernel)
  obtain ⟨h2, h3, h4⟩ := of_decide_eq_true h2
  exact ⟨h, s, h1, h2, h3, fun coins => (C119_keygen_complete session1 (by decide) (by decide) h1 .reversed coins).mpr (Option.isSome_iff_exists.mp h4)⟩

/-- In the round before it is as if nothing had happened: here the timer ends the session after two calls that panicked. -/
example : ∃ h s, Recover.Hist (Keygen.impl toySha) Pointers.keygenAfter (session ids 1 1) h s ∧ panics h = true ∧
    ∃ t, Hist (Keygen.impl toySha) (session ids 1 1) (Spec.Returned h) t ∧ t.err = some ⟨0, 1, .timeout⟩ := by
  obtain ⟨h, s, h1, h2⟩ := of_attempt (impl := Keygen.impl toySha) (after := Pointers.keygenAfter) (s := session ids 1 1)
    (ops := retried.take 2 ++ [.handle bareKeyGen1, .processAll .insertion (coins []), .processAll .insertion (coins []), .advance 10, .fire, .callback])
    (p := fun h s => decide (panics h = true ∧ s.roundNumber = 1 ∧ s.err = some ⟨0, 1, .timeout⟩)) (by decide +kernel)
  obtain ⟨h2, h3, h4⟩ := of_decide_eq_true h2
  obtain ⟨t, g1, g2, _⟩ := C119_keygen_same_partial session1 (by decide) h1 (by omega)
  exact ⟨h, s, h1, h2, t, g1, g2.2.2.2.2.2.2.2.symm.trans h4⟩

/-- A signing session that is handed a header only in the last round, and whose caller tries three times: it has sent one share, has no signature, and no call that
returned knows of the others. -/
example : ∃ s₀ h s, Sign.newSignState toySha [1, 3] ⟨1, 45, Toy.of 45⟩ key [1, 2, 3] 10 0 = .ok s₀ ∧ Recover.Hist (Sign.impl toySha) Pointers.signAfter s₀ h s ∧
    s.round.output.signature = none ∧ (∃ D E z, Spec.emitted (Spec.Returned h) = [Message.newSign1 1 D E, Message.newSign2 1 z]) ∧
    (∃ t, Hist (Sign.impl toySha) s₀ (Spec.Returned h) t ∧ Spec.Alike s t) ∧ ∀ coins, step (Sign.impl toySha) s (.processAll .insertion coins) = none := by
  obtain ⟨r, h1, h2⟩ := signRound_ok
  have hx : (signRound0.bind fun r => (attempt (Sign.impl toySha) Pointers.signAfter (newBaseState (Sign.impl toySha) r 10 0) [.processAll .insertion (Demo.coins [13, 14]),
      .handle (Message.newSign1 3 (Toy.of 11) (Toy.of 12)), .processAll .reversed (Demo.coins []), .handle bareSign2, .processAll .insertion (Demo.coins []),
      .processAll .insertion (Demo.coins []), .processAll .reversed (Demo.coins [])]).map fun x => decide (panics x.1 = true ∧ (Spec.emitted (Spec.Returned x.1)).length = 2 ∧
      (Recover.recovered (Sign.impl toySha) Pointers.signAfter .insertion x.2).isSome = true)) = some true := by decide +kernel
  rw [h2] at hx
  obtain ⟨h, s, h3, h4⟩ := of_attempt (p := fun h s => decide (panics h = true ∧ (Spec.emitted (Spec.Returned h)).length = 2 ∧
      (Recover.recovered (Sign.impl toySha) Pointers.signAfter .insertion s).isSome = true)) hx
  obtain ⟨h4, h5, h6⟩ := of_decide_eq_true h4
  have hnew : Sign.newSignState toySha [1, 3] ⟨1, 45, Toy.of 45⟩ key [1, 2, 3] 10 0 = .ok _ := newSignState_ok.mpr ⟨r, h1, rfl⟩
  refine ⟨_, h, s, hnew, h3, ?_, ?_, ?_, fun coins => (C119_sign_complete hnew (by decide) h3 .insertion coins).mpr (Option.isSome_iff_exists.mp h6)⟩
  · obtain ⟨h₁, ord, h₂, rfl⟩ := split_of_panics h4
    exact (C119_sign_nothing hnew (by decide) h3).2.1
  · rcases C119_sign_one_share _ _ _ _ _ _ _ hnew (by decide) h3 with hh | ⟨D, E, hh⟩ | hh
    · rw [hh] at h5; cases h5
    · rw [hh] at h5; cases h5
    · exact hh
  · obtain ⟨t, g1, g2, _⟩ := C119_sign_same h3
    exact ⟨t, g1, g2⟩

/-- Party 1 of four, before the call that panics: parties 2 and 3 have sent their shares, party 4 only a header. -/
def beforePanic : List (Op Toy) :=
  [.processAll .insertion (coins [5, 6, 7]), .handle (Message.newKeyGen1 2 ⟨0, 1⟩ [Toy.of 7, Toy.of 8]), .handle (Message.newKeyGen1 3 ⟨0, 1⟩ [Toy.of 9, Toy.of 10]),
   .handle (Message.newKeyGen1 4 ⟨0, 1⟩ [Toy.of 11, Toy.of 12]), .processAll .insertion (coins []), .handle (Message.newKeyGen2 2 1 15),
   .handle (Message.newKeyGen2 3 1 19), .handle { header := ⟨2, 4, 1⟩ }]

/-- Both shares are erased. -/
example : ∃ h s s', Hist (Keygen.impl toySha) (session [1, 2, 3, 4] 1 1) h s ∧ s.round.stage = .r2 ∧
    Recover.recovered (Keygen.impl toySha) Pointers.keygenAfter .insertion s = some s' ∧
    s'.received = [(2, some (Message.newKeyGen2 2 1 0)), (3, some (Message.newKeyGen2 3 1 0)), (4, some { header := ⟨2, 4, 1⟩ })] := by
  obtain ⟨h, s, h1, h2⟩ := of_run (impl := Keygen.impl toySha) (s := session [1, 2, 3, 4] 1 1) (ops := beforePanic)
    (p := fun _ s => decide (s.round.stage = .r2 ∧ ((Recover.recovered (Keygen.impl toySha) Pointers.keygenAfter .insertion s).map fun s' => s'.received) =
      some [(2, some (Message.newKeyGen2 2 1 0)), (3, some (Message.newKeyGen2 3 1 0)), (4, some { header := ⟨2, 4, 1⟩ })])) (by decide +kernel)
  obtain ⟨h2, h3⟩ := of_decide_eq_true h2
  obtain ⟨s', h4, h5⟩ := Option.map_eq_some_iff.mp h3
  obtain ⟨l₁, k, v, l₂, _, _, _, _, _, _⟩ := C119_left h4 h2
  exact ⟨h, s, s', h1, h2, h4, h5⟩

end Verif.Cases
