import Verif.Model.Pointers
import Verif.Model.Helpers

/-!
Message objects that are used by others than the session they were handed to, and `PartyRoutine`, which makes the objects itself (pkg/helpers/parties.go:24-51).
-/

namespace Verif.Pointers

variable {G R : Type}

/-- A call as the session sees it: the message that the pointer points to when the call is made (pkg/state/state.go:80, 135). -/
def seen (mem : Mem G) : Op → State.Op G
  | .handle p => .handle (mem p)
  | .processAll ord coins => .processAll ord coins
  | .advance dt => .advance dt
  | .fire => .fire
  | .callback => .callback

/-- A history of a session (pkg/state/state.go:80-191) in a program that also writes into message objects (for instance with `UnmarshalBinary`, pkg/messages/messages.go:87-123); `may` restricts
which object it writes when.  The list has the events as the session saw them. -/
inductive EnvHist (impl : RoundImpl G R) (after : After G R) (may : PState G R → Ptr → Prop) (mem₀ : Mem G) (s₀ : PState G R) :
    List (State.Op G × State.Ret G) → Mem G → PState G R → Prop
  | nil : EnvHist impl after may mem₀ s₀ [] mem₀ s₀
  | step {h mem s op ret mem' s'} : EnvHist impl after may mem₀ s₀ h mem s → Step impl after mem s op ret mem' s' →
      EnvHist impl after may mem₀ s₀ (h ++ [(seen mem op, ret)]) mem' s'
  | write {h mem s} (p : Ptr) (m : Message G) : EnvHist impl after may mem₀ s₀ h mem s → may s p → EnvHist impl after may mem₀ s₀ h (Function.update mem p m) s

/-- Several sessions (pkg/state/state.go:80-191) in one program, which are handed pointers to the same message objects, as a program does that runs several parties and gives each the
messages that the others return.  The list has the events as the sessions saw them. -/
inductive Shared {ι : Type} [DecidableEq ι] (impl : RoundImpl G R) (after : After G R) (may : (ι → PState G R) → Ptr → Message G → Prop) (mem₀ : Mem G) (σ₀ : ι → PState G R) :
    List (ι × State.Op G × State.Ret G) → Mem G → (ι → PState G R) → Prop
  | nil : Shared impl after may mem₀ σ₀ [] mem₀ σ₀
  | step {h mem σ op ret mem' s'} (i : ι) : Shared impl after may mem₀ σ₀ h mem σ → Step impl after mem (σ i) op ret mem' s' →
      Shared impl after may mem₀ σ₀ (h ++ [(i, seen mem op, ret)]) mem' (Function.update σ i s')
  | write {h mem σ} (p : Ptr) (m : Message G) : Shared impl after may mem₀ σ₀ h mem σ → may σ p m → Shared impl after may mem₀ σ₀ h (Function.update mem p m) σ

variable [RGroup G]

/-- The loop over the inputs of `PartyRoutine` (pkg/helpers/parties.go:25-34).  `next` is the first object that is not in use; each turn of the loop has a variable `msgTmp` of its own, which
outlives the turn because the session keeps its address.  Simplified: when decoding fails the object is left as it was, nothing refers to it. -/
def routineInputs (impl : RoundImpl G R) : List Bytes → Ptr → Mem G → PState G R → Option ((Ptr × Mem G × PState G R) × Option RoutineErr)
  | [], next, mem, s => some ((next, mem, s), none)
  | m :: rest, next, mem, s =>
    match Message.unmarshalBinary (Message.fresh : Message G) m with
    | .panic => none
    | .err e => some ((next, mem, s), some (.unmarshal e))
    | .ok msgTmp =>
      match handleMessage impl (Function.update mem next msgTmp) s next with
      | (s, some e) => some ((next + 1, Function.update mem next msgTmp, s), some (.handle e))
      | (s, none) => routineInputs impl rest (next + 1) (Function.update mem next msgTmp) s

/-- `PartyRoutine(in, s)` (pkg/helpers/parties.go:24-51), as `Verif.partyRoutine`; `pick` is the order in which the loop of `ProcessAll` finds the messages. -/
def partyRoutine (impl : RoundImpl G R) (after : After G R) (pick : Mem G → GoMap (Option Ptr) → GoMap (Option Ptr)) (ord : MapOrder) (coins : Coins) (input : List Bytes)
    (next : Ptr) (mem : Mem G) (s : PState G R) : Option ((Ptr × Mem G × PState G R) × Except RoutineErr (List Bytes)) :=
  match routineInputs impl input next mem s with
  | none => none
  | some (x, some e) => some (x, .error e)
  | some ((next, mem, s), none) =>
    match processAll impl after (pick mem s.received) ord coins mem s with
    | none => none
    | some (mem, s, msgsOut) =>
      match routineOutputs msgsOut [] with
      | .panic => none
      | .err e => some ((next, mem, s), .error (.marshal e))
      | .ok out =>
        if s.rest.isFinished then
          match s.rest.waitForError with
          | some (some err) => some ((next, mem, s), .error (.aborted err))
          | _ => some ((next, mem, s), .ok out)
        else some ((next, mem, s), .ok out)

/-- What a program does with a session: it calls `PartyRoutine` (pkg/helpers/parties.go:24), or the timer does something (pkg/state/state.go:45-49). -/
inductive Item
  | call (input : List Bytes) (ord : MapOrder) (coins : Coins)
  | advance (dt : Nat)
  | fire
  | callback

/-- A program that uses nothing but `PartyRoutine` (pkg/helpers/parties.go:24-51): what the calls return, and the session in the end; `none` if it crashes. -/
def program (impl : RoundImpl G R) (after : After G R) (pick : MapOrder → Mem G → GoMap (Option Ptr) → GoMap (Option Ptr)) :
    List Item → Ptr → Mem G → PState G R → Option (List (Except RoutineErr (List Bytes)) × PState G R)
  | [], _, _, s => some ([], s)
  | .call input ord coins :: rest, next, mem, s =>
    match partyRoutine impl after (pick ord) ord coins input next mem s with
    | none => none
    | some ((next, mem, s), res) => (program impl after pick rest next mem s).map fun x => (res :: x.1, x.2)
  | .advance dt :: rest, next, mem, s => match timerStep impl s (.advance dt) with
    | none => none
    | some s => program impl after pick rest next mem s
  | .fire :: rest, next, mem, s => match timerStep impl s .fire with
    | none => none
    | some s => program impl after pick rest next mem s
  | .callback :: rest, next, mem, s => match timerStep impl s .callback with
    | none => none
    | some s => program impl after pick rest next mem s

end Verif.Pointers
