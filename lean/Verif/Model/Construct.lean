import Verif.Model.State

/-!
`NewBaseState` (pkg/state/state.go:35-58) step by step.  The timer is started in line 45 and the function works on for a while: it stores the
timer in the `State` and fills `receivedMessages`.  When the timeout is short, the callback runs meanwhile in a goroutine of its own.
-/

namespace Verif.State

variable {G R : Type}

/-- Where `NewBaseState` is: before line 45; after `newTimer` has called `time.AfterFunc` (line 273) and before its result is
stored in `s.timer`; before the loop in line 51; in the loop, with the parties that remain; it has returned. -/
inductive BuildPC
  | allocated
  | armed
  | assigned
  | filling (rest : List ID)
  | returned
  deriving DecidableEq

/-- The `State` under construction.  `s.timer` is the timer of the run-time, whether or not it has been stored in the field already. -/
structure Building (G R : Type) where
  pc : BuildPC
  s : State G R

/-- The struct that is allocated in lines 37-43. -/
def Building.alloc (impl : RoundImpl G R) (round : R) (now : Nat) : Building G R :=
  ⟨.allocated, { acceptedTypes := impl.acceptedMessageTypes round, received := [], queue := [], timer := ⟨0, now, none, 0⟩, roundNumber := 0,
                 round := round, closed := false, done := false, err := none }⟩

/-- `finish()` (pkg/state/state.go:205-213) called by the timer callback: `seen` tells whether its `stopTimer` (lines 288-292) finds the timer in the field `s.t`, or
still nil. -/
def finishSeen (impl : RoundImpl G R) (seen : Bool) (s : State G R) : Option (State G R) :=
  if s.done then some s
  else do
    let round ← impl.reset s.round
    if s.closed then none
    else some { s with done := true, round := round, timer := if seen then s.timer.stopTimer else s.timer, closed := true }

/-- The timer callback (pkg/state/state.go:45-49, 215-227), with `finishSeen` in the place of `finish`. -/
def callbackSeen (impl : RoundImpl G R) (seen : Bool) (s : State G R) : Option (State G R) :=
  let s := { s with timer := { s.timer with fired := s.timer.fired - 1 } }
  if s.done then some s
  else
    finishSeen impl seen (match s.err with
      | none => { s with err := some { StateErr.new 0 .timeout with roundNumber := s.roundNumber } }
      | some _ => s)

/-- What the constructor does next (`arm` to `ret`), and what may happen meanwhile.  The callback reads the field of the timer without being
synchronised with the constructor, which writes it without the mutex, so it may find nil at any time and finds the timer only if it has been stored. -/
inductive BuildOp
  | arm
  | assign
  | begin
  | fill
  | ret
  | advance (dt : Nat)
  | fire
  | callback (seen : Bool)

/-- One step (pkg/state/state.go:45, 273, 51, 52-54, 57 and 45-49); `none`: the program crashes. A step whose turn it is not does nothing. -/
def buildStep (impl : RoundImpl G R) (timeout : Nat) (b : Building G R) : BuildOp → Option (Building G R)
  | .arm => match b.pc with
    | .allocated => some ⟨.armed, { b.s with timer := Timer.new timeout b.s.timer.now }⟩
    | _ => some b
  | .assign => match b.pc with
    | .armed => some ⟨.assigned, b.s⟩
    | _ => some b
  | .begin => match b.pc with
    | .assigned => some ⟨.filling (impl.partyIDs b.s.round), b.s⟩
    | _ => some b
  | .fill => match b.pc with
    | .filling (id :: rest) =>
      some ⟨.filling rest, { b.s with received := if id ≠ impl.selfID b.s.round then b.s.received.set id none else b.s.received }⟩
    | _ => some b
  | .ret => match b.pc with
    | .filling [] => some ⟨.returned, b.s⟩
    | _ => some b
  | .advance dt => some ⟨b.pc, { b.s with timer := { b.s.timer with now := b.s.timer.now + dt } }⟩
  | .fire => match b.s.timer.deadline with
    | some t => if t ≤ b.s.timer.now then
        some ⟨b.pc, { b.s with timer := { b.s.timer with deadline := none, fired := b.s.timer.fired + 1 } }⟩
      else some b
    | none => some b
  | .callback seen =>
    if b.s.timer.fired = 0 then some b
    else (callbackSeen impl (seen && b.pc != .armed) b.s).map fun s => ⟨b.pc, s⟩

/-- `NewBaseState(round, timeout)` (pkg/state/state.go:35-58), called at time `now`, with everything that happened until now. -/
def build (impl : RoundImpl G R) (round : R) (timeout now : Nat) (ops : List BuildOp) : Option (Building G R) :=
  ops.foldlM (buildStep impl timeout) (Building.alloc impl round now)

end Verif.State
