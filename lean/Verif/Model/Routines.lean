import Verif.Model.Helpers

/-!
Calls of `PartyRoutine` (`pkg/helpers/parties.go`) while the timer and other goroutines, among them other calls of `PartyRoutine`, work
with the same session.
-/

namespace Verif

variable {G R ι : Type} [RGroup G]

/-- Where a call of `PartyRoutine` stands (pkg/helpers/parties.go:24-51): before `UnmarshalBinary` of the next input (line 28), before
`HandleMessage` (line 31), before `ProcessAll` (line 35), before the loop over the outputs (line 37), before `IsFinished` (line 44), before
`WaitForError` (line 45), or it has returned. -/
inductive RoutinePC (G : Type)
  | decoding (rest : List Bytes)
  | handing (msg : Message G) (rest : List Bytes)
  | processing
  | encoding (msgs : List (Message G))
  | checking (out : List Bytes)
  | waiting (out : List Bytes)
  | returned (r : Except RoutineErr (List Bytes))

/-- One step of a call of `PartyRoutine` (pkg/helpers/parties.go:24-51), with the call of a method that changes the session, if it is one.
`HandleMessage` and `ProcessAll` hold the mutex, so that they are one step each.  There is no step where the call crashes or blocks.
Simplified: messages are values, see `Heap` and `RoutinesHeap` for the memory that `KeyGen1` messages share with the session; `IsFinished` and `WaitForError`
read without the mutex and are taken to see the writes of the others in order, see `Race` for what else they may see. -/
inductive RoutineStep (impl : RoundImpl G R) : State G R → RoutinePC G → Option (State.Op G × State.Ret G) → State G R → RoutinePC G → Prop
  | decoded {s m msg rest} : Message.unmarshalBinary (Message.fresh : Message G) m = .ok msg →
      RoutineStep impl s (.decoding (m :: rest)) none s (.handing msg rest)
  | undecodable {s m c rest} : Message.unmarshalBinary (Message.fresh : Message G) m = .err c →
      RoutineStep impl s (.decoding (m :: rest)) none s (.returned (.error (.unmarshal c)))
  | all {s} : RoutineStep impl s (.decoding []) none s .processing
  | handled {s s' msg rest} : State.handleMessage impl s msg = (s', none) →
      RoutineStep impl s (.handing msg rest) (some (.handle msg, .handled none)) s' (.decoding rest)
  | refused {s s' msg rest c} : State.handleMessage impl s msg = (s', some c) →
      RoutineStep impl s (.handing msg rest) (some (.handle msg, .handled (some c))) s' (.returned (.error (.handle c)))
  | processed {s s' ord coins msgs} : State.processAll impl ord coins s = some (s', msgs) →
      RoutineStep impl s .processing (some (.processAll ord coins, .messages msgs)) s' (.encoding msgs)
  | encoded {s msgs out} : routineOutputs msgs [] = .ok out → RoutineStep impl s (.encoding msgs) none s (.checking out)
  | unencodable {s msgs c} : routineOutputs msgs [] = .err c →
      RoutineStep impl s (.encoding msgs) none s (.returned (.error (.marshal c)))
  | running {s out} : s.isFinished = false → RoutineStep impl s (.checking out) none s (.returned (.ok out))
  | finished {s out} : s.isFinished = true → RoutineStep impl s (.checking out) none s (.waiting out)
  | failed {s out c} : s.waitForError = some (some c) → RoutineStep impl s (.waiting out) none s (.returned (.error (.aborted c)))
  | succeeded {s out} : s.waitForError = some none → RoutineStep impl s (.waiting out) none s (.returned (.ok out))

/-- What calls of `PartyRoutine` (pkg/helpers/parties.go:24-51) with the inputs `ins i` on one session that was in the state `s₀` can have
done so far, in any interleaving with each other and with anything else that happens to the session: the events with the call they belong
to (none for others), the session, and where the calls stand.  A call that follows another one is one whose first step comes later. -/
inductive Routines [DecidableEq ι] (impl : RoundImpl G R) (ins : ι → List Bytes) (s₀ : State G R) :
    List (Option ι × State.Op G × State.Ret G) → State G R → (ι → RoutinePC G) → Prop
  | start : Routines impl ins s₀ [] s₀ (fun i => .decoding (ins i))
  | routine {l s pc i ev s' p} : Routines impl ins s₀ l s pc → RoutineStep impl s (pc i) ev s' p →
      Routines impl ins s₀ (l ++ ev.toList.map (Prod.mk (some i))) s' (Function.update pc i p)
  | other {l s pc op ret s'} : Routines impl ins s₀ l s pc → State.step impl s op = some (s', ret) →
      Routines impl ins s₀ (l ++ [(none, op, ret)]) s' pc

end Verif
