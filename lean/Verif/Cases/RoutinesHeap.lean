import Verif.Props.RoutinesHeap

/-!
Concrete cases for C114: for each theorem of `Props/RoutinesHeap.lean` that has hypotheses, a case that meets them.
-/

namespace Verif.Cases

open Verif Verif.State KeygenHeap Props Props.Demo Props.HeapDemo Props.TailDemo

/-- One call of `ProcessAll` by the routine, and then none by others. -/
theorem onlyOne {x : Bool × Op Addr × Ret Addr} {h : List (Op Addr × Ret Addr)} (hh : ∀ y ∈ h, ∀ ord coins, y.1 ≠ .processAll ord coins) :
    Spec.OnlyOne (x :: h.map (Prod.mk false)) := by
  intro l₁ l₂ z hl hz y hy
  have hy' : y ∈ h.map (Prod.mk false) := by
    cases l₁ with
    | nil => cases hl; exact hy
    | cons a l₁ =>
      rw [List.cons_append, List.cons.injEq] at hl
      rw [hl.2]
      exact List.mem_append_right _ (List.mem_cons_of_mem _ hy)
  obtain ⟨w, hw, rfl⟩ := List.mem_map.mp hy'
  exact hh w hw

/-- `C114_sent_partial`: while party 1 encodes its message, another goroutine hands over those of parties 2 and 3; the call returns the bytes
of the message with the commitments 5 and 6. -/
theorem tail_others : ∃ l w, Tail toySha start l w (.returned (.ok [bytesOf [Toy.of 5, Toy.of 6]])) ∧ Spec.OnlyOne l ∧ l.length = 3 ∧
    w.session.received.length = 2 := by
  have key : ((run (KeygenHeap.impl toySha) processed (HeapDemo.ops.take 2)).map fun y => decide (y.2.done = false ∧ y.2.round.heap.cell 4 = Toy.of 5 ∧
      y.2.round.heap.cell 5 = Toy.of 6 ∧ y.1.length = 2 ∧ y.2.received.length = 2)) = some true := by decide +kernel
  obtain ⟨⟨h, t⟩, h1, h2⟩ := Option.map_eq_some_iff.mp key
  obtain ⟨g1, g2, g3, g4, g5⟩ := of_decide_eq_true h2
  have h3 : Tail toySha start _ _ _ := others (Tail.start.own (.processed processed_ok)) (run_hist h1) g1
  have h4 := (encode h3 (u := Toy.of 5) (v := Toy.of 6) (.inl g2.symm) (.inl g3.symm)).own (.running g1)
  refine ⟨_, _, by simpa using h4, onlyOne ?_, by simpa using g4, g5⟩
  intro z hz ord coins he
  have : z.1 ∈ HeapDemo.ops.take 2 := run_ops h1 ▸ List.mem_map_of_mem hz
  rw [he] at this
  simp [HeapDemo.ops] at this

example : ∃ s₁ msgs l, Spec.Produced toySha start l s₁ msgs ∧ Spec.Encode (msgs.map s₁.round.heap.deref) [bytesOf [Toy.of 5, Toy.of 6]] := by
  obtain ⟨l, w, h1, h2, _⟩ := tail_others
  obtain ⟨s₁, msgs, h3, h4⟩ := C114_sent_partial h1 h2
  exact ⟨s₁, msgs, l, h3, h4⟩

/-- `C114_wrong_partial`: the timer ends the session while the message is encoded. -/
example : ∃ l, ∃ w : Shared Toy, ∃ s₁ msgs, Spec.Produced toySha start l s₁ msgs ∧ (Spec.Encode (msgs.map s₁.round.heap.deref) [bytesOf [Toy.of 5, Toy.of 0]] ∨
    w.session.isFinished = true ∧ ∃ c, w.session.waitForError = some (some c)) := by
  obtain ⟨l, w, _, h1, h2, _⟩ := tail_timer
  obtain ⟨s₁, msgs, h3, h4⟩ := C114_wrong_partial h1 h2
  exact ⟨l, w, s₁, msgs, h3, h4⟩

/-- `C114_aborted`, in the same case. -/
example : ∃ h s, Hist (KeygenHeap.impl toySha) start h s ∧ s.done = true ∧ s.err = some ⟨0, 1, .timeout⟩ := by
  obtain ⟨l, _, w, _, _, _, h1⟩ := tail_timer
  obtain ⟨s, h2⟩ := C114_aborted h1
  exact ⟨_, s, h2⟩

end Verif.Cases
