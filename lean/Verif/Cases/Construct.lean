import Verif.Cases.Keygen
import Verif.Props.Construct

/-!
For each theorem of `Props/Construct.lean` that has hypotheses, a concrete case that meets them.
-/

namespace Verif.Cases

open State Props Props.Demo

/-- The time is up after the timer is started and before it is stored; the callback gets the mutex when the loop has begun and does not find the timer. -/
def interrupted : List BuildOp :=
  [.arm, .advance 10, .fire, .assign, .begin, .fill, .callback false, .fill, .fill, .ret]

/-- `C115_returned`: a signing session of three parties that has timed out when the constructor returns. -/
example (r : Sign.Round Toy) (hr : r.partyIDs = ids) : ∃ b, build (Sign.impl toySha) r 10 0 interrupted = some b ∧ b.pc = .returned ∧ b.s.err ≠ none ∧
    b.s.received = initReceived r.selfID ids [] := by
  obtain ⟨self, pids, shares⟩ := r
  cases hr
  exact ⟨_, rfl, rfl, Option.some_ne_none _, rfl⟩

/-- The round is one that `NewRound` makes. -/
example : ∃ r : Keygen.Round Toy, Keygen.newRound 1 ids 1 = .ok r ∧ Spec.KeepsIDs (Keygen.impl (G := Toy) toySha) ∧
    build (Keygen.impl toySha) r 10 0 [.arm, .advance 10, .fire, .callback true] = none := by
  obtain ⟨r, hr⟩ : ∃ r : Keygen.Round Toy, Keygen.newRound 1 ids 1 = .ok r :=
    (newKeygenState_ok.mp (keygen_setup.start 1 (by decide))).imp fun _ h => h.1
  exact ⟨r, hr, keygen_keepsIDs, C115_keygen_crashes 1 ids 1 r hr (by decide) true⟩

/-- `C115_crash`, with that crash. -/
example (r : Keygen.Round Toy) (hr : Keygen.newRound 1 ids 1 = .ok r) :=
  C115_crash keygen_keepsIDs (C115_keygen_crashes (sha := toySha) (timeout := 10) (now := 0) 1 ids 1 r hr (by decide) true)

end Verif.Cases
