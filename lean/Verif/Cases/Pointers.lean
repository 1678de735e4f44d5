import Verif.Props.Pointers

/-!
For each theorem of `Props/Pointers.lean` that has hypotheses, a concrete case that meets them.
-/

namespace Verif.Cases

open State Props Props.Demo Pointers

/-- `C116_erased_partial`, `C116_frame_keygen`, `C116_same_keygen`: a key generation that succeeds; the shares 19 and 15 are erased. -/
example : ∃ h mem s, Keygen.newRound 1 ids 1 = .ok (round0 ids 1 1) ∧ ids.Nodup ∧
    Pointers.Hist (Keygen.impl toySha) keygenAfter Demo.messages (Pointers.newBaseState (Keygen.impl toySha) (round0 ids 1 1) 10 0) h mem s ∧
    s.rest.done = true ∧ s.rest.err = none ∧ (mem 2).keyGen2 = some ⟨0⟩ ∧ (mem 4).keyGen2 = some ⟨0⟩ ∧ s.rest.round.output.secretKey = some ⟨1, 45, Toy.of 45⟩ := by
  obtain ⟨h, mem, s, h1, h2, h3⟩ := pointers_of_run [.processAll .insertion (coins [5, 6, 7]), .handle 0, .handle 2, .handle 1, .processAll .insertion (coins []), .handle 4,
      .processAll .insertion (coins [])]
    (fun mem s h => decide (s.rest.done = true ∧ s.rest.err = none ∧ (mem 2).keyGen2 = some ⟨0⟩ ∧ (mem 4).keyGen2 = some ⟨0⟩ ∧ s.rest.round.output.secretKey = some ⟨1, 45, Toy.of 45⟩))
    (by decide +kernel)
  exact ⟨h, mem, s, h1, by decide, h2, by simpa using h3⟩

/-- `C116_unchanged`, `C116_timeout_keeps`: a session in the last round with a share stored, and its timeout. -/
example : ∃ h mem s, Pointers.Hist (Keygen.impl toySha) keygenAfter Demo.messages (Pointers.newBaseState (Keygen.impl toySha) (round0 ids 1 1) 10 0) h mem s ∧
    s.rest.done = false ∧ s.received = [(3, some 2)] ∧ ∃ s', Pointers.Step (Keygen.impl toySha) keygenAfter mem s .callback .nothing mem s' ∧ s'.rest.done = true := by
  obtain ⟨h, mem, s, _, h2, h3⟩ := pointers_of_run [.processAll .insertion (coins [5, 6, 7]), .handle 0, .handle 1, .processAll .insertion (coins []), .handle 2, .advance 10, .fire]
    (fun _ s _ => decide (s.rest.done = false ∧ s.received = [(3, some 2)] ∧ ((timerStep (Keygen.impl toySha) s .callback).map fun s' => s'.rest.done) = some true)) (by decide +kernel)
  simp only [decide_eq_true_eq] at h3
  obtain ⟨s', h4, h5⟩ := Option.map_eq_some_iff.mp h3.2.2
  exact ⟨h, mem, s, h2, h3.1, h3.2.1, s', .callback h4, h5⟩

/-- The events with each message in a place of its own. -/
def place {G : Type} (h : List (State.Op G × Ret G)) : List (Pointers.Op × Ret G) := h.mapIdx fun i x => (match x.1 with
  | .handle _ => .handle i
  | .processAll ord coins => .processAll ord coins
  | .advance dt => .advance dt
  | .fire => .fire
  | .callback => .callback, x.2)

/-- The places. -/
def placed {G : Type} (h : List (State.Op G × Ret G)) : Mem G := fun i => match h[i]? with
  | some (.handle m, _) => m
  | _ => Message.newKeyGen2 0 0 0

theorem read_place {G : Type} (h : List (State.Op G × Ret G)) : Spec.Read (placed h) (place h) = h := by
  refine List.ext_getElem (by simp [Spec.Read, place]) fun i h1 h2 => ?_
  simp only [Spec.Read, place, List.getElem_map, List.getElem_mapIdx]
  cases hx : h[i] with
  | mk op ret =>
    cases op <;> simp [placed, List.getElem?_eq_getElem h2, hx]

/-- `C116_frame_sign`, `C116_same_sign`: a signing session that succeeds, which exists for pointers because it does for messages. -/
example : ∃ (r : Sign.Round Toy) (mem₀ mem : Mem Toy) (h : List (Pointers.Op × Ret Toy)) (s : PState Toy (Sign.Round Toy)),
    Pointers.Hist (Sign.impl toySha) signAfter mem₀ (Pointers.newBaseState (Sign.impl toySha) r 10 0) h mem s ∧ s.rest.done = true ∧ s.rest.round.output.signature ≠ none := by
  obtain ⟨s₀, h, t, h1, h2, h3, _, h5⟩ := sign_succeeds
  obtain ⟨r, _, rfl⟩ := newSignState_ok.mp h1
  have h2' : State.Hist (Sign.impl toySha) (State.newBaseState (Sign.impl toySha) r 10 0) (Spec.Read (placed h) (place h)) t := by
    rw [read_place]; exact h2
  obtain ⟨mem, s, hh, e⟩ := (C116_same_sign r 10 0 (placed h) (place h)).2 t h2'
  exact ⟨r, _, mem, _, s, hh, e.2.2.2.2.2.1.trans h3, by rw [e.2.2.2.1]; exact h5⟩

end Verif.Cases
