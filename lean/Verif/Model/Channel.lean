import Verif.Model.State
import Mathlib.Logic.Function.Basic

/-!
`test/internal/communication`: parties in one process that talk through Go channels.

Per party there are two goroutines: the handler, which calls the session and sends what it returns, and `handleByteChan`, which moves
what arrives from the channel of bytes to the channel of messages.  Both channels have room for as many elements as there are parties.
The model is a transition system: a step is one channel operation of one goroutine, or one round of the handler's loop up to the next
channel operation.  Closing the channels (`Done`, `waitForFinish`), which happens after all sessions have ended, is modelled in
`Verif/Model/Teardown.lean`.  Printing is not modelled.
-/

namespace Verif.Chan

variable {G R : Type}

/-- One party: `Handler` (test/internal/communication/handler.go:16-19) and `Channel` (test/internal/communication/channel.go:12-18). -/
structure Node (G R : Type) where
  /-- `Handler.State` -/
  state : State G R
  /-- whether `Handler.HandleMessage` has made its first call of `ProcessAll` -/
  started : Bool
  /-- what the handler is in the middle of sending: to whom, and the bytes -/
  outbox : List (ID × Bytes)
  /-- `channels[receiver]`, oldest first -/
  bytes : List Bytes
  /-- the message that `handleByteChan` has taken from `channels[receiver]` and not yet put into `incoming` -/
  held : Option (Message G)
  /-- `incoming`, oldest first -/
  incoming : List (Message G)
  /-- whether `Handler.HandleMessage` has returned -/
  exited : Bool

/-- The whole process: the parties that take part, and each of them. -/
abbrev Sys (G R : Type) := ID → Node G R

/-- `NewChannelCommunicatorMap` (test/internal/communication/local_constructors.go:27-54) and the handlers made with it
(test/internal/communication/handler.go:68-100), given the sessions. -/
def start (init : ID → State G R) : Sys G R := fun i => ⟨init i, false, [], [], none, [], false⟩

variable [RGroup G]

/-- The map of channels (test/internal/communication/local_constructors.go:34-37): one entry per party; the values do not matter. -/
def channels (ids : List ID) : GoMap Unit := ids.map fun id => (id, ())

/-- `Channel.Send(msg)` (test/internal/communication/channel.go:20-35) of the party `self`: the channel operations it makes, one after
the other; `ord` is the order of iteration over the channels.  A message that cannot be encoded is reported and dropped
(test/internal/communication/handler.go:61-64); a panic while encoding is modelled likewise, and shown not to happen. -/
def send (ids : List ID) (self : ID) (ord : MapOrder) (msg : Message G) : List (ID × Bytes) :=
  match Message.marshalBinary msg with
  | .ok b =>
    if msg.header.isBroadcast = true then (((ord.order _ (channels ids)).map Prod.fst).filter fun id => decide (id ≠ self)).map fun id => (id, b)
    else if msg.header.toID ≠ self then [(msg.header.toID, b)] else []
  | _ => []

/-- The loop of `Handler.ProcessAll` (test/internal/communication/handler.go:60-65); `ords` gives the order of iteration of each
`Send`. -/
def sends (ids : List ID) (self : ID) : (Nat → MapOrder) → List (Message G) → List (ID × Bytes)
  | _, [] => []
  | ords, m :: ms => send ids self (ords 0) m ++ sends ids self (fun n => ords (n + 1)) ms

/-- `msg.UnmarshalBinary(data)` and the test of its error (test/internal/communication/channel.go:69-73); a panic while decoding is
modelled as an error, and shown not to happen. -/
def decode (b : Bytes) : Option (Message G) :=
  match Message.unmarshalBinary Message.fresh b with
  | .ok m => some m
  | _ => none

/-- One step of one goroutine.  The capacity of the channels is `ids.length`. -/
inductive Step (impl : RoundImpl G R) (ids : List ID) (coins : ID → Coins) : Sys G R → Sys G R → Prop
  /-- The handler starts: `h.ProcessAll()` (test/internal/communication/handler.go:35). -/
  | start {S : Sys G R} {i : ID} {ord : MapOrder} {ords : Nat → MapOrder} {s : State G R} {out : List (Message G)} : i ∈ ids →
      (S i).started = false → State.processAll impl ord (coins i) (S i).state = some (s, out) →
      Step impl ids coins S (Function.update S i { S i with started := true, state := s, outbox := sends ids i ords out })
  /-- The handler puts bytes into a channel that has room: `ch <- b` (test/internal/communication/channel.go:28,32).  A missing entry
  of the map is a nil channel, which blocks forever. -/
  | send {S : Sys G R} {i j : ID} {b : Bytes} {rest : List (ID × Bytes)} : i ∈ ids → (S i).outbox = (j, b) :: rest → j ∈ ids →
      (S j).bytes.length < ids.length →
      Step impl ids coins S (let S' := Function.update S i { S i with outbox := rest }
        Function.update S' j { S' j with bytes := (S' j).bytes ++ [b] })
  /-- `handleByteChan` takes bytes and decodes them (test/internal/communication/channel.go:65-73). -/
  | take {S : Sys G R} {i : ID} {b : Bytes} {rest : List Bytes} : i ∈ ids → (S i).held = none → (S i).bytes = b :: rest →
      Step impl ids coins S (Function.update S i { S i with bytes := rest, held := decode b })
  /-- `handleByteChan` hands the message on: `c.incoming <- &msg` (test/internal/communication/channel.go:74). -/
  | put {S : Sys G R} {i : ID} {m : Message G} : i ∈ ids → (S i).held = some m → (S i).incoming.length < ids.length →
      Step impl ids coins S (Function.update S i { S i with held := none, incoming := (S i).incoming ++ [m] })
  /-- The handler, done with sending, takes a message, hands it to the session and calls `ProcessAll`
  (test/internal/communication/handler.go:39-46). -/
  | recv {S : Sys G R} {i : ID} {m : Message G} {rest : List (Message G)} {ord : MapOrder} {ords : Nat → MapOrder} {c : Coins}
      {s : State G R} {out : List (Message G)} : i ∈ ids → (S i).started = true → (S i).exited = false → (S i).outbox = [] →
      (S i).incoming = m :: rest → State.processAll impl ord c (State.handleMessage impl (S i).state m).1 = some (s, out) →
      Step impl ids coins S (Function.update S i { S i with incoming := rest, state := s, outbox := sends ids i ords out })
  /-- The handler sees that the session has ended and returns (test/internal/communication/handler.go:47-52). -/
  | exit {S : Sys G R} {i : ID} : i ∈ ids → (S i).started = true → (S i).exited = false → (S i).outbox = [] → (S i).state.closed = true →
      Step impl ids coins S (Function.update S i { S i with exited := true })

/-- Executions. -/
inductive Steps (impl : RoundImpl G R) (ids : List ID) (coins : ID → Coins) : Sys G R → Sys G R → Prop
  | refl (S : Sys G R) : Steps impl ids coins S S
  | tail {S S' S'' : Sys G R} : Steps impl ids coins S S' → Step impl ids coins S' S'' → Steps impl ids coins S S''

end Verif.Chan
