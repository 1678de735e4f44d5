import Verif.Spec.Net

/-!
Infinite executions of a network of honest parties, and when such an execution is fair.
-/

namespace Verif.Spec

variable {G R : Type}

/-- An event at a party: who, which call, what it returned. -/
abbrev Event (G : Type) := ID × State.Op G × State.Ret G

/-- An infinite execution: at every moment nothing happens, or one party makes a step the network allows. -/
structure Execution (impl : RoundImpl G R) (ids : List ID) (coins : ID → Coins) (init : ID → State G R) (event : Nat → Option (Event G))
    (net : Nat → Net G R) : Prop where
  start : net 0 = Net.start init
  rest : ∀ n, event n = none → net (n + 1) = net n
  step : ∀ n i op ret, event n = some (i, op, ret) → i ∈ ids ∧ Allowed coins (net n) i op ∧
    ∃ s, State.step impl ((net n).state i) op = some (s, ret) ∧ net (n + 1) = (net n).after i op ret s

/-- What the callers and the network have to do: every party calls `ProcessAll` again and again, and every message that was sent for
a party is handed over to it, if it is refused then again and again. -/
structure Fair (ids : List ID) (event : Nat → Option (Event G)) (net : Nat → Net G R) : Prop where
  processes : ∀ i ∈ ids, ∀ n, ∃ k, n ≤ k ∧ ∃ ord c o, event k = some (i, .processAll ord c, .messages o)
  delivers : ∀ i ∈ ids, ∀ n, ∀ m ∈ (net n).sent, m.header.fromID ≠ i → m.header.toID = 0 ∨ m.header.toID = i →
    (∃ k, event k = some (i, .handle m, .handled none)) ∨ ∀ n, ∃ k, n ≤ k ∧ ∃ e, event k = some (i, .handle m, .handled e)

end Verif.Spec
