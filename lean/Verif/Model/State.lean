import Verif.Model.Messages
import Verif.Model.Map

/-!
`pkg/state`: the driver that stores messages and runs the rounds of a protocol, for any implementation of the `Round`
interface.

The mutex makes `HandleMessage`, `ProcessAll` and the timer callback atomic, so a history is a list of such calls.  A panic
ends the history (`none`).  `IsFinished`, `Err` and `WaitForError` read `done` and `err` without the mutex; they are modelled
as reads between calls.
-/

namespace Verif

variable {G R : Type}

/-- `type Error struct` (pkg/state/error.go:11-15).  Its text (`Error()`, pkg/state/error.go:25-28) is in `Model/ErrorValue`. -/
structure StateErr where
  partyID : ID
  roundNumber : Nat
  cause : GoErr
  deriving DecidableEq

/-- `NewError(partyID, err)` (pkg/state/error.go:18-23). -/
def StateErr.new (partyID : ID) (cause : GoErr) : StateErr := ⟨partyID, 0, cause⟩

/-- `type Round interface` (pkg/state/round.go:37-75), the methods as functions on the object a `Round` points to.
`process` and `generate` return the object as they leave it also when they fail; `process none` is a call with a nil
message; a panic is `Outcome.panic`. -/
structure RoundImpl (G R : Type) where
  selfID : R → ID
  partyIDs : R → IDSlice
  acceptedMessageTypes : R → List MsgType
  processMessage : R → Option (Message G) → Outcome (StateErr × R) R
  generateMessages : MapOrder → Coins → R → Outcome (StateErr × R) (R × List (Message G))
  nextRound : R → Option R
  reset : R → Option R

/-- `type timer struct` (pkg/state/state.go:265-268) and the part of `time.Timer` it relies on: `deadline` is when the running
timer will fire, `fired` counts the callbacks that have been started by the run-time and not yet obtained the mutex, `now`
is the clock. -/
structure Timer where
  /-- `d`; 0 or negative durations, for which no timer is made, are 0 -/
  d : Nat
  now : Nat
  deadline : Option Nat
  fired : Nat
  deriving DecidableEq

namespace Timer

/-- `newTimer(d, f)` (pkg/state/state.go:270-279). -/
def new (d now : Nat) : Timer := ⟨d, now, if d > 0 then some (now + d) else none, 0⟩

/-- `ackMessage()` (pkg/state/state.go:281-286): `Stop` then `Reset(d)`; a callback already started is not recalled. -/
def ackMessage (t : Timer) : Timer := if t.d > 0 then { t with deadline := some (t.now + t.d) } else t

/-- `stopTimer()` (pkg/state/state.go:288-292). -/
def stopTimer (t : Timer) : Timer := if t.d > 0 then { t with deadline := none } else t

end Timer

/-- `type State struct` (pkg/state/state.go:17-33); `closed` tells whether `doneChan`, which `Done()` (pkg/state/state.go:235-237) returns, is closed.  The maps hold message values;
see `Verif/Model/Heap.lean` and `Verif/Model/Pointers.lean` for the effects of sharing messages by pointer. -/
structure State (G R : Type) where
  acceptedTypes : List MsgType
  received : GoMap (Option (Message G))
  queue : List (Message G)
  timer : Timer
  roundNumber : Nat
  round : R
  closed : Bool
  done : Bool
  err : Option StateErr

/-- The error text of `HandleMessage` (pkg/state/state.go:60-65) by the numbers printed after "party", "round" and, if present,
"culprit". -/
structure HandleErr where
  party : Nat
  round : Nat
  culprit : Option Nat
  cause : GoErr
  deriving DecidableEq

namespace State

/-- The loop filling `receivedMessages` (pkg/state/state.go:51-55). -/
def initReceived (self : ID) : List ID → GoMap (Option (Message G)) → GoMap (Option (Message G))
  | [], m => m
  | id :: ids, m => initReceived self ids (if id ≠ self then m.set id none else m)

/-- `NewBaseState(round, timeout)` (pkg/state/state.go:35-58) at time `now`. -/
def newBaseState (impl : RoundImpl G R) (round : R) (timeout now : Nat) : State G R where
  acceptedTypes := impl.acceptedMessageTypes round
  received := initReceived (impl.selfID round) (impl.partyIDs round) []
  queue := []
  timer := Timer.new timeout now
  roundNumber := 0
  round := round
  closed := false
  done := false
  err := none

/-- `wrapError(err, culprit)` (pkg/state/state.go:60-65), with the arguments in the order the code passes them. -/
def wrapError (impl : RoundImpl G R) (s : State G R) (e : GoErr) (culprit : ID) : HandleErr :=
  if culprit = 0 then ⟨(impl.selfID s.round).toNat, s.roundNumber, none, e⟩
  else ⟨(impl.selfID s.round).toNat, culprit.toNat, some s.roundNumber, e⟩

/-- `isAcceptedType` (pkg/state/state.go:193-200). -/
def isAcceptedType (types : List MsgType) (t : MsgType) : Bool := types.any fun o => o == t

/-- `HandleMessage(msg)` (pkg/state/state.go:80-127) for a non-nil message. -/
def handleMessage (impl : RoundImpl G R) (s : State G R) (msg : Message G) : State G R × Option HandleErr :=
  let senderID := msg.header.fromID
  if s.done then (s, some (wrapError impl s .finished senderID))
  else match s.acceptedTypes with
  | [] => (s, some (wrapError impl s .noMoreMessages senderID))
  | current :: _ =>
    if senderID = impl.selfID s.round then (s, none)
    else if msg.header.isBroadcast = false ∧ msg.header.toID ≠ impl.selfID s.round then (s, none)
    else if IDSlice.contains (impl.partyIDs s.round) senderID = false then (s, some (wrapError impl s .notAParty senderID))
    else if s.received.has senderID = true then (s, some (wrapError impl s .alreadyReceived senderID))
    else if isAcceptedType s.acceptedTypes msg.header.type = false then
      (s, some (wrapError impl s .typeNotAccepted senderID))
    else
      let s := { s with timer := s.timer.ackMessage }
      if msg.header.type = current then ({ s with received := s.received.set senderID (some msg) }, none)
      else ({ s with queue := s.queue ++ [msg] }, none)

/-- `finish()` (pkg/state/state.go:205-213); closing a closed channel panics. -/
def finish (impl : RoundImpl G R) (s : State G R) : Option (State G R) :=
  if s.done then some s
  else do
    let round ← impl.reset s.round
    if s.closed then none
    else some { s with done := true, round := round, timer := s.timer.stopTimer, closed := true }

/-- `reportError(err)` (pkg/state/state.go:215-227). -/
def reportError (impl : RoundImpl G R) (s : State G R) (e : StateErr) : Option (State G R) :=
  if s.done then some s
  else
    let s := match s.err with
      | none => { s with err := some { e with roundNumber := s.roundNumber } }
      | some _ => s
    finish impl s

/-- The loop over `receivedMessages` (pkg/state/state.go:148-153): the round after all messages, or the error and the round as
left by the message that failed. -/
def processLoop (impl : RoundImpl G R) : List (ID × Option (Message G)) → R → Outcome (StateErr × R) R
  | [], r => .ok r
  | (_, msg) :: rest, r =>
    match impl.processMessage r msg with
    | .ok r' => processLoop impl rest r'
    | .err e => .err e
    | .panic => .panic

/-- The loop moving messages of the new current type out of the queue (pkg/state/state.go:171-177): the new
`receivedMessages` and the new queue. -/
def dequeueLoop (current : MsgType) : List (Message G) → GoMap (Option (Message G)) → List (Message G) →
    GoMap (Option (Message G)) × List (Message G)
  | [], received, newQueue => (received, newQueue)
  | msg :: rest, received, newQueue =>
    if msg.header.type = current then dequeueLoop current rest (received.set msg.header.fromID (some msg)) newQueue
    else dequeueLoop current rest received (newQueue ++ [msg])

/-- `ProcessAll()` (pkg/state/state.go:135-191); `ord` gives the map iteration orders of this call and `coins` the randomness it
draws.  `acceptedTypes[1:]` of an empty slice panics. -/
def processAll (impl : RoundImpl G R) (ord : MapOrder) (coins : Coins) (s : State G R) :
    Option (State G R × List (Message G)) :=
  if s.done then some (s, [])
  else if s.received.length ≠ (IDSlice.N (impl.partyIDs s.round) - 1).toNat then some (s, [])
  else match processLoop impl (ord.order _ s.received) s.round with
  | .panic => none
  | .err (e, r) => do
    let s ← reportError impl { s with round := r } e
    some (s, [])
  | .ok r =>
    let s := { s with received := [], round := r }
    match impl.generateMessages ord coins s.round with
    | .panic => none
    | .err (e, r) => do
      let s ← reportError impl { s with round := r } e
      some (s, [])
    | .ok (r, newMessages) =>
      match s.acceptedTypes with
      | [] => none
      | _ :: types =>
        let s := { s with round := r, acceptedTypes := types }
        let s := match types with
          | [] => s
          | current :: _ =>
            let (received, queue) := dequeueLoop current s.queue s.received []
            { s with received := received, queue := queue }
        match impl.nextRound s.round with
        | none => do
          let s ← finish impl s
          some (s, newMessages)
        | some next => some ({ s with roundNumber := s.roundNumber + 1, round := next }, newMessages)

/-- The timer callback (pkg/state/state.go:45-49), once it has the mutex. -/
def timeoutCallback (impl : RoundImpl G R) (s : State G R) : Option (State G R) :=
  reportError impl { s with timer := { s.timer with fired := s.timer.fired - 1 } } (.new 0 .timeout)

/-- `IsFinished()` (pkg/state/state.go:257-259). -/
def isFinished (s : State G R) : Bool := s.done

/-- `WaitForError()` (pkg/state/state.go:249-254): `none` if it would block now, else the error it returns. -/
def waitForError (s : State G R) : Option (Option StateErr) :=
  if s.done = false ∧ s.closed = false then none else some s.err

/-- What can happen to a `State`: calls of its methods, the passage of time, the run-time firing the timer when due, and the
timer callback obtaining the mutex. -/
inductive Op (G : Type)
  | handle (msg : Message G)
  | processAll (ord : MapOrder) (coins : Coins)
  | advance (dt : Nat)
  | fire
  | callback

/-- What a call returns. -/
inductive Ret (G : Type)
  | handled (e : Option HandleErr)
  | messages (out : List (Message G))
  | nothing

/-- One event; `none` if it crashes.  `fire` and `callback` do nothing when the timer is not due or no callback is waiting. -/
def step (impl : RoundImpl G R) (s : State G R) : Op G → Option (State G R × Ret G)
  | .handle msg => let (s', e) := handleMessage impl s msg; some (s', .handled e)
  | .processAll ord coins => (processAll impl ord coins s).map fun (s', out) => (s', .messages out)
  | .advance dt => some ({ s with timer := { s.timer with now := s.timer.now + dt } }, .nothing)
  | .fire =>
    match s.timer.deadline with
    | some t => if t ≤ s.timer.now then
        some ({ s with timer := { s.timer with deadline := none, fired := s.timer.fired + 1 } }, .nothing)
      else some (s, .nothing)
    | none => some (s, .nothing)
  | .callback => if s.timer.fired = 0 then some (s, .nothing) else (timeoutCallback impl s).map fun s' => (s', .nothing)

/-- A history from `s` to `s'` with the events and what they returned, latest last. -/
inductive Hist (impl : RoundImpl G R) (s : State G R) : List (Op G × Ret G) → State G R → Prop
  | nil : Hist impl s [] s
  | snoc {h s₁ s₂ op ret} : Hist impl s h s₁ → step impl s₁ op = some (s₂, ret) → Hist impl s (h ++ [(op, ret)]) s₂

end State

end Verif
