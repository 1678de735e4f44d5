import Verif.Model.Keygen
import Verif.Model.Sign
import Mathlib.Logic.Function.Basic

/-!
Sessions that are handed pointers to messages (pkg/state/state.go:18-33, 80-191).  `State` keeps the pointers, and `round2.ProcessMessage` of the key generation
writes into the message (pkg/frost/keygen/round2.go:26), so the caller's message changes.  `Verif/Model/State.lean` has values in their place.
The commitments in a `KeyGen1` message are values here; see `Verif/Model/Heap.lean` for those.
-/

namespace Verif.Pointers

variable {G R : Type}

/-- `*messages.Message`. -/
abbrev Ptr := Nat

/-- What the pointers point to (pkg/messages/messages.go:8-14). -/
abbrev Mem (G : Type) := Ptr → Message G

/-- `type State struct` (pkg/state/state.go:17-33) with pointers in `receivedMessages` and `queue`; `rest` has the other fields, its own fields
`received` and `queue` are not used. -/
structure PState (G R : Type) where
  rest : State G R
  received : GoMap (Option Ptr)
  queue : List Ptr

/-- The map of messages that a map of pointers stands for (pkg/state/state.go:19). -/
def viewMap (mem : Mem G) (m : GoMap (Option Ptr)) : GoMap (Option (Message G)) := m.map fun e => (e.1, e.2.map mem)

/-- `NewBaseState(round, timeout)` (pkg/state/state.go:35-58). -/
def newBaseState (impl : RoundImpl G R) (round : R) (timeout now : Nat) : PState G R :=
  let s := State.newBaseState impl round timeout now
  ⟨{ s with received := [], queue := [] }, s.received.map fun e => (e.1, none), []⟩

/-- `HandleMessage(msg)` (pkg/state/state.go:80-127). -/
def handleMessage (impl : RoundImpl G R) (mem : Mem G) (s : PState G R) (msg : Ptr) : PState G R × Option HandleErr :=
  let senderID := (mem msg).header.fromID
  if s.rest.done then (s, some (State.wrapError impl s.rest .finished senderID))
  else match s.rest.acceptedTypes with
  | [] => (s, some (State.wrapError impl s.rest .noMoreMessages senderID))
  | current :: _ =>
    if senderID = impl.selfID s.rest.round then (s, none)
    else if (mem msg).header.isBroadcast = false ∧ (mem msg).header.toID ≠ impl.selfID s.rest.round then (s, none)
    else if IDSlice.contains (impl.partyIDs s.rest.round) senderID = false then (s, some (State.wrapError impl s.rest .notAParty senderID))
    else if s.received.has senderID = true then (s, some (State.wrapError impl s.rest .alreadyReceived senderID))
    else if State.isAcceptedType s.rest.acceptedTypes (mem msg).header.type = false then
      (s, some (State.wrapError impl s.rest .typeNotAccepted senderID))
    else
      let s := { s with rest := { s.rest with timer := s.rest.timer.ackMessage } }
      if (mem msg).header.type = current then ({ s with received := s.received.set senderID (some msg) }, none)
      else ({ s with queue := s.queue ++ [msg] }, none)

/-- What a message contains after `ProcessMessage` has returned nil for it (pkg/frost/keygen/round2.go:26 sets the share to 0; the other
rounds, pkg/frost/keygen/round1.go:10-25 and pkg/frost/sign/round1.go:16-26, round2.go:17-31, leave the message alone). -/
abbrev After (G R : Type) := R → Message G → Message G

/-- Line 26 of pkg/frost/keygen/round2.go. -/
def wipe (m : Message G) : Message G := { m with keyGen2 := m.keyGen2.map fun _ => ⟨0⟩ }

/-- The rounds of the key generation (pkg/frost/keygen/round0.go:11-13, round1.go:10-25, round2.go:13-29). -/
def keygenAfter : After G (Keygen.Round G) := fun r m => match r.stage with
  | .r2 => wipe m
  | _ => m

/-- The rounds of signing (pkg/frost/sign/round0.go:9-11, round1.go:16-26, round2.go:17-31). -/
def signAfter : After G (Sign.Round G) := fun _ m => m

/-- The loop over `receivedMessages` (pkg/state/state.go:148-153), with what it leaves in the messages. -/
def processLoop (impl : RoundImpl G R) (after : After G R) : List (ID × Option Ptr) → Mem G → R → Outcome ((StateErr × R) × Mem G) (R × Mem G)
  | [], mem, r => .ok (r, mem)
  | (_, p) :: rest, mem, r =>
    match impl.processMessage r (p.map mem) with
    | .ok r' =>
      processLoop impl after rest (match p with
        | none => mem
        | some p => Function.update mem p (after r (mem p))) r'
    | .err e => .err (e, mem)
    | .panic => .panic

/-- The loop moving messages out of the queue (pkg/state/state.go:171-177). -/
def dequeueLoop (current : MsgType) (mem : Mem G) : List Ptr → GoMap (Option Ptr) → List Ptr → GoMap (Option Ptr) × List Ptr
  | [], received, newQueue => (received, newQueue)
  | msg :: rest, received, newQueue =>
    if (mem msg).header.type = current then dequeueLoop current mem rest (received.set (mem msg).header.fromID (some msg)) newQueue
    else dequeueLoop current mem rest received (newQueue ++ [msg])

/-- `ProcessAll()` (pkg/state/state.go:135-191); `entries` is `receivedMessages` in the order in which the loop in line 148 finds its entries. -/
def processAll (impl : RoundImpl G R) (after : After G R) (entries : GoMap (Option Ptr)) (ord : MapOrder) (coins : Coins) (mem : Mem G) (s : PState G R) :
    Option (Mem G × PState G R × List (Message G)) :=
  if s.rest.done then some (mem, s, [])
  else if s.received.length ≠ (IDSlice.N (impl.partyIDs s.rest.round) - 1).toNat then some (mem, s, [])
  else match processLoop impl after entries mem s.rest.round with
  | .panic => none
  | .err ((e, r), mem) => do
    let rest ← State.reportError impl { s.rest with round := r } e
    some (mem, { s with rest := rest }, [])
  | .ok (r, mem) =>
    let s := { s with received := [], rest := { s.rest with round := r } }
    match impl.generateMessages ord coins s.rest.round with
    | .panic => none
    | .err (e, r) => do
      let rest ← State.reportError impl { s.rest with round := r } e
      some (mem, { s with rest := rest }, [])
    | .ok (r, newMessages) =>
      match s.rest.acceptedTypes with
      | [] => none
      | _ :: types =>
        let s := { s with rest := { s.rest with round := r, acceptedTypes := types } }
        let s := match types with
          | [] => s
          | current :: _ =>
            let (received, queue) := dequeueLoop current mem s.queue s.received []
            { s with received := received, queue := queue }
        match impl.nextRound s.rest.round with
        | none => do
          let rest ← State.finish impl s.rest
          some (mem, { s with rest := rest }, newMessages)
        | some next => some (mem, { s with rest := { s.rest with roundNumber := s.rest.roundNumber + 1, round := next } }, newMessages)

/-- What can happen to a session, as `State.Op` (pkg/state/state.go:80, 135, 45-49), with a pointer for the message. -/
inductive Op
  | handle (msg : Ptr)
  | processAll (ord : MapOrder) (coins : Coins)
  | advance (dt : Nat)
  | fire
  | callback

/-- Time passing and the timer (pkg/state/state.go:45-49, 265-292) as in `State.step`. -/
def timerStep (impl : RoundImpl G R) (s : PState G R) (op : State.Op G) : Option (PState G R) :=
  (State.step impl s.rest op).map fun x => { s with rest := x.1 }

/-- One event (pkg/state/state.go:80-191).  Simplified: the messages that `ProcessAll` returns are values, they are new objects that the session does not keep. -/
inductive Step (impl : RoundImpl G R) (after : After G R) (mem : Mem G) (s : PState G R) : Op → State.Ret G → Mem G → PState G R → Prop
  | handle (p : Ptr) : Step impl after mem s (.handle p) (.handled (handleMessage impl mem s p).2) mem (handleMessage impl mem s p).1
  | processAll {entries ord coins mem' s' out} : entries.Perm s.received → viewMap mem entries = ord.order _ (viewMap mem s.received) →
      processAll impl after entries ord coins mem s = some (mem', s', out) → Step impl after mem s (.processAll ord coins) (.messages out) mem' s'
  | advance {dt s'} : timerStep impl s (.advance dt) = some s' → Step impl after mem s (.advance dt) .nothing mem s'
  | fire {s'} : timerStep impl s .fire = some s' → Step impl after mem s .fire .nothing mem s'
  | callback {s'} : timerStep impl s .callback = some s' → Step impl after mem s .callback .nothing mem s'

/-- A history of a session that is handed pointers, latest event last (pkg/state/state.go:80-191).  The caller and others leave the messages alone. -/
inductive Hist (impl : RoundImpl G R) (after : After G R) (mem₀ : Mem G) (s₀ : PState G R) : List (Op × State.Ret G) → Mem G → PState G R → Prop
  | nil : Hist impl after mem₀ s₀ [] mem₀ s₀
  | snoc {h mem s op ret mem' s'} : Hist impl after mem₀ s₀ h mem s → Step impl after mem s op ret mem' s' →
      Hist impl after mem₀ s₀ (h ++ [(op, ret)]) mem' s'

end Verif.Pointers
