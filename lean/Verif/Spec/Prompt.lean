import Verif.Spec.Fair
import Verif.Spec.NetTime

/-!
Infinite executions in time of a network of honest parties, and when callers and network are prompt.
-/

namespace Verif.Spec

variable {G R : Type}

/-- An infinite execution in time: at every moment nothing happens, or one party makes a step, which may also be that its timer fires or
that a timer callback gets the mutex.  `time n` is the time from which on the network is as `net n` says; the event `n` is over at
`time (n + 1)`.  No clock is faster than `time`.  The sessions are created at time 0, or later, see `SwiftFrom`. -/
structure TimedExecution (impl : RoundImpl G R) (ids : List ID) (coins : ID → Coins) (init : ID → State G R) (event : Nat → Option (Event G))
    (net : Nat → Net G R) (time : Nat → Nat) : Prop where
  start : net 0 = Net.start init
  rest : ∀ n, event n = none → net (n + 1) = net n
  step : ∀ n i op ret, event n = some (i, op, ret) → i ∈ ids ∧ AllowedT coins (net n) i op ∧
    ∃ s, State.step impl ((net n).state i) op = some (s, ret) ∧ net (n + 1) = (net n).after i op ret s
  zero : time 0 = 0
  mono : ∀ n, time n ≤ time (n + 1)
  clock : ∀ n, ∀ i ∈ ids, ((net (n + 1)).state i).timer.now + time n ≤ ((net n).state i).timer.now + time (n + 1)

/-- Callers and network take at most `δ`: whoever has not finished calls `ProcessAll` within `δ` from any moment on, and every message
that was sent to them has been accepted, or is handed over, for the first time or again, within `δ`. -/
structure Swift (ids : List ID) (δ : Nat) (event : Nat → Option (Event G)) (net : Nat → Net G R) (time : Nat → Nat) : Prop where
  processes : ∀ i ∈ ids, ∀ n, ((net n).state i).done = false →
    ∃ k, n ≤ k ∧ time (k + 1) ≤ time n + δ ∧ ∃ ord c o, event k = some (i, .processAll ord c, .messages o)
  delivers : ∀ i ∈ ids, ∀ n, ((net n).state i).done = false → ∀ m ∈ (net n).sent, m.header.fromID ≠ i → m.header.toID = 0 ∨ m.header.toID = i →
    (∃ k < n, event k = some (i, .handle m, .handled none)) ∨
    ∃ k, n ≤ k ∧ time (k + 1) ≤ time n + δ ∧ ∃ e, event k = some (i, .handle m, .handled e)

/-- The same when the session of party `i` is created at time `start i`: before that nothing happens to it, and its clock stands still. -/
structure SwiftFrom (ids : List ID) (δ : Nat) (start : ID → Nat) (event : Nat → Option (Event G)) (net : Nat → Net G R) (time : Nat → Nat) : Prop where
  created : ∀ n i op ret, event n = some (i, op, ret) → start i ≤ time n
  processes : ∀ i ∈ ids, ∀ n, ((net n).state i).done = false →
    ∃ k, n ≤ k ∧ time (k + 1) ≤ max (time n) (start i) + δ ∧ ∃ ord c o, event k = some (i, .processAll ord c, .messages o)
  delivers : ∀ i ∈ ids, ∀ n, ((net n).state i).done = false → ∀ m ∈ (net n).sent, m.header.fromID ≠ i → m.header.toID = 0 ∨ m.header.toID = i →
    (∃ k < n, event k = some (i, .handle m, .handled none)) ∨
    ∃ k, n ≤ k ∧ time (k + 1) ≤ max (time n) (start i) + δ ∧ ∃ e, event k = some (i, .handle m, .handled e)

end Verif.Spec
