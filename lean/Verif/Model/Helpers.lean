import Verif.Model.State

/-!
`pkg/helpers/parties.go`: `PartyRoutine`, one step of a party whose messages travel as bytes.
-/

namespace Verif

variable {G R : Type} [RGroup G]

/-- The errors `PartyRoutine` returns (pkg/helpers/parties.go:28-33, 38-42, 45-48), by the place they come from. -/
inductive RoutineErr
  | unmarshal (e : GoErr)  -- "failed to unmarshal message: %w"
  | handle (e : HandleErr) -- "failed to handle message: %w"
  | marshal (e : GoErr)    -- of `MarshalBinary`, as it is
  | aborted (e : StateErr) -- of `WaitForError`, as it is
  deriving DecidableEq

/-- The loop over the inputs (pkg/helpers/parties.go:25-34): the state as it is left and the error, if any.  The receiver of
`UnmarshalBinary` is a new zero `Message` every time. -/
def routineInputs (impl : RoundImpl G R) : List Bytes → State G R → Option (State G R × Option RoutineErr)
  | [], s => some (s, none)
  | m :: rest, s =>
    match Message.unmarshalBinary (Message.fresh : Message G) m with
    | .panic => none
    | .err e => some (s, some (.unmarshal e))
    | .ok msgTmp =>
      match State.handleMessage impl s msgTmp with
      | (s, some e) => some (s, some (.handle e))
      | (s, none) => routineInputs impl rest s

/-- The loop marshalling the outputs (pkg/helpers/parties.go:36-43). -/
def routineOutputs : List (Message G) → List Bytes → GoRes (List Bytes)
  | [], out => .ok out
  | msgOut :: rest, out =>
    match Message.marshalBinary msgOut with
    | .ok b => routineOutputs rest (out ++ [b])
    | .err e => .err e
    | .panic => .panic

/-- `PartyRoutine(in, s)` (pkg/helpers/parties.go:24-51): the state as it is left and the result, `none` if it crashes.
`ord` and `coins` are those of its call of `ProcessAll`.  Simplified: no other goroutine (in particular no timer callback)
runs between its calls, see `Routines` for that; `WaitForError` is called only when the session is finished, when it does not block. -/
def partyRoutine (impl : RoundImpl G R) (ord : MapOrder) (coins : Coins) (input : List Bytes) (s : State G R) :
    Option (State G R × Except RoutineErr (List Bytes)) :=
  match routineInputs impl input s with
  | none => none
  | some (s, some e) => some (s, .error e)
  | some (s, none) =>
    match State.processAll impl ord coins s with
    | none => none
    | some (s, msgsOut) =>
      match routineOutputs msgsOut [] with
      | .panic => none
      | .err e => some (s, .error (.marshal e))
      | .ok out =>
        if s.isFinished then
          match s.waitForError with
          | some (some err) => some (s, .error (.aborted err))
          | _ => some (s, .ok out)
        else some (s, .ok out)

end Verif
