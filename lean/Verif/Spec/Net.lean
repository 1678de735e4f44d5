import Verif.Model.State
import Mathlib.Logic.Function.Basic

/-!
A network of honest parties: everybody runs the code, and the network delivers messages that were sent to anybody, in any order,
any number of times or never.
-/

namespace Verif.Spec

variable {G R : Type}

/-- The sessions of all parties with their histories, and all messages sent so far. -/
structure Net (G R : Type) where
  hist : ID → List (State.Op G × State.Ret G)
  state : ID → State G R
  sent : List (Message G)

/-- The messages a call returned to its caller, who sends them. -/
def returned : State.Ret G → List (Message G)
  | .messages out => out
  | _ => []

/-- What may happen at party `i`: any message sent by anybody is handed over, or `ProcessAll` is called with any order of iteration,
or time passes.  No timeout is reported: a timer callback gets the mutex only if none is waiting, or after the end of the session;
then it does nothing.  The coins drawn in the first round are `coins i`. -/
def Allowed (coins : ID → Coins) (N : Net G R) (i : ID) : State.Op G → Prop
  | .handle m => m ∈ N.sent
  | .processAll _ c => (N.state i).roundNumber = 0 → c = coins i
  | .advance _ => True
  | .fire => True
  | .callback => (N.state i).timer.fired = 0 ∨ (N.state i).done = true

/-- The network after party `i` made a step. -/
def Net.after (N : Net G R) (i : ID) (op : State.Op G) (ret : State.Ret G) (s : State G R) : Net G R where
  hist := Function.update N.hist i (N.hist i ++ [(op, ret)])
  state := Function.update N.state i s
  sent := N.sent ++ returned ret

/-- Executions of the network of the parties `ids`. -/
inductive Path (impl : RoundImpl G R) (ids : List ID) (coins : ID → Coins) : Net G R → Net G R → Prop
  | refl (N : Net G R) : Path impl ids coins N N
  | tail {N N' : Net G R} {i : ID} {op : State.Op G} {ret : State.Ret G} {s : State G R} : Path impl ids coins N N' → i ∈ ids →
      Allowed coins N' i op → State.step impl (N'.state i) op = some (s, ret) → Path impl ids coins N (N'.after i op ret s)

/-- The network before anything happened. -/
def Net.start (init : ID → State G R) : Net G R := ⟨fun _ => [], init, []⟩

end Verif.Spec
