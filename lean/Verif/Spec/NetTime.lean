import Verif.Spec.Net

/-!
The network of `Verif/Spec/Net.lean` in which sessions may also time out.
-/

namespace Verif.Spec

variable {G R : Type}

/-- What may happen at party `i`: what `Allowed` says, or a timer callback gets the mutex. -/
def AllowedT (coins : ID → Coins) (N : Net G R) (i : ID) (op : State.Op G) : Prop := op = .callback ∨ Allowed coins N i op

/-- Executions of the network of the parties `ids`, with time-outs. -/
inductive PathT (impl : RoundImpl G R) (ids : List ID) (coins : ID → Coins) : Net G R → Net G R → Prop
  | refl (N : Net G R) : PathT impl ids coins N N
  | tail {N N' : Net G R} {i : ID} {op : State.Op G} {ret : State.Ret G} {s : State G R} : PathT impl ids coins N N' → i ∈ ids →
      AllowedT coins N' i op → State.step impl (N'.state i) op = some (s, ret) → PathT impl ids coins N (N'.after i op ret s)

/-- The session was ended by its timer, in the round it is in, blaming nobody. -/
def TimedOut (s : State G R) : Prop := s.done = true ∧ s.err = some ⟨0, s.roundNumber, .timeout⟩

end Verif.Spec
