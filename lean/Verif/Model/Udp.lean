import Verif.Model.Channel

/-!
`test/internal/communication/udp.go`: parties that talk over UDP.

As in `Verif/Model/Channel.lean` a party has two goroutines: the handler, and the reader started by `Start`, which reads packets, decodes
them and puts the messages into the channel `incoming`.  The network may lose, duplicate and reorder packets.  Closing the sockets
(`Done`) is modelled in `Verif/Model/Teardown.lean`; errors of the sockets other than lost packets, and printing are not modelled.
-/

namespace Verif.Udp

variable {G R : Type}

/-- One party: `Handler` (test/internal/communication/handler.go:16-19) and `UDP` (test/internal/communication/udp.go:15-20);
`AddPeer` was called for all parties but the own one (test/internal/communication/udp.go:38-41), and `conn` is not nil, so that `Incoming` gives
the channel (test/internal/communication/udp.go:92-97). -/
structure Node (G R : Type) where
  /-- `Handler.State` -/
  state : State G R
  /-- whether `Handler.HandleMessage` has made its first call of `ProcessAll` -/
  started : Bool
  /-- what the handler is in the middle of sending: to whom, and the bytes -/
  outbox : List (ID × Bytes)
  /-- the message that the reader has decoded and not yet put into `incoming` -/
  held : Option (Message G)
  /-- `incoming`, oldest first -/
  incoming : List (Message G)
  /-- whether `Handler.HandleMessage` has returned -/
  exited : Bool

/-- All parties, and for each of them the packets that were ever sent to it. -/
structure Sys (G R : Type) where
  node : ID → Node G R
  wire : ID → List Bytes

/-- `NewUDPCommunicatorMap` (test/internal/communication/local_constructors.go:10-25) and the handlers made with it
(test/internal/communication/handler.go:68-100), given the sessions; `noise` are packets sent to the parties by somebody else. -/
def start (init : ID → State G R) (noise : ID → List Bytes) : Sys G R := ⟨fun i => ⟨init i, false, [], none, [], false⟩, noise⟩

/-- The room in `incoming` (test/internal/communication/udp.go:31). -/
def room : Nat := 10

/-- The size of `initialBuffer` (test/internal/communication/udp.go:51); the peers are all parties but the own one. -/
def bufferSize (ids : List ID) : Nat := (ids.length - 1 + 2) * 64

variable [RGroup G]

/-- What the reader makes of a packet (test/internal/communication/udp.go:54-67): `ReadFromUDP` cuts off what does not fit into the
buffer, and the message is passed on even if decoding fails.  It is then the zero value, since all errors of `UnmarshalBinary` come
from the header, which is checked before it is set.  Simplified: a panic is treated like an error, and shown not to happen. -/
def read (ids : List ID) (b : Bytes) : Message G :=
  match Message.unmarshalBinary Message.fresh (b.take (bufferSize ids)) with
  | .ok m => m
  | _ => Message.fresh

/-- The system after the party `i` has changed. -/
def Sys.set (S : Sys G R) (i : ID) (nd : Node G R) : Sys G R := { S with node := Function.update S.node i nd }

/-- One step of one goroutine, or of a timer.  `coins i` is what the first round of party `i` draws. -/
inductive Step (impl : RoundImpl G R) (ids : List ID) (coins : ID → Coins) : Sys G R → Sys G R → Prop
  /-- The handler starts: `h.ProcessAll()` (test/internal/communication/handler.go:35), with `Send` of
  test/internal/communication/udp.go:72-90: it does the same as that of `Channel`, except that ranging over the peers does not meet
  the own party, which makes no difference. -/
  | start {S : Sys G R} {i : ID} {ord : MapOrder} {ords : Nat → MapOrder} {s : State G R} {out : List (Message G)} : i ∈ ids →
      (S.node i).started = false → State.processAll impl ord (coins i) (S.node i).state = some (s, out) →
      Step impl ids coins S (S.set i { S.node i with started := true, state := s, outbox := Chan.sends ids i ords out })
  /-- `WriteToUDP` (test/internal/communication/udp.go:80,86). -/
  | send {S : Sys G R} {i j : ID} {b : Bytes} {rest : List (ID × Bytes)} : i ∈ ids → (S.node i).outbox = (j, b) :: rest → j ∈ ids →
      Step impl ids coins S { S.set i { S.node i with outbox := rest } with wire := Function.update S.wire j (S.wire j ++ [b]) }
  /-- A packet is not sent, because of an error, an earlier error of the same broadcast, or because there is no such peer
  (test/internal/communication/udp.go:80-87). -/
  | drop {S : Sys G R} {i : ID} {p : ID × Bytes} {rest : List (ID × Bytes)} : i ∈ ids → (S.node i).outbox = p :: rest →
      Step impl ids coins S (S.set i { S.node i with outbox := rest })
  /-- The reader gets a packet (test/internal/communication/udp.go:54-66): any that was sent, in any order and any number of times. -/
  | read {S : Sys G R} {i : ID} {b : Bytes} : i ∈ ids → (S.node i).held = none → b ∈ S.wire i →
      Step impl ids coins S (S.set i { S.node i with held := some (read ids b) })
  /-- The reader passes the message on: `c.incoming <- &msg` (test/internal/communication/udp.go:67). -/
  | put {S : Sys G R} {i : ID} {m : Message G} : i ∈ ids → (S.node i).held = some m → (S.node i).incoming.length < room →
      Step impl ids coins S (S.set i { S.node i with held := none, incoming := (S.node i).incoming ++ [m] })
  /-- The handler, done with sending, takes a message, hands it to the session and calls `ProcessAll`
  (test/internal/communication/handler.go:39-46). -/
  | recv {S : Sys G R} {i : ID} {m : Message G} {rest : List (Message G)} {ord : MapOrder} {ords : Nat → MapOrder} {c : Coins}
      {s : State G R} {out : List (Message G)} : i ∈ ids → (S.node i).started = true → (S.node i).exited = false → (S.node i).outbox = [] →
      (S.node i).incoming = m :: rest → ((State.handleMessage impl (S.node i).state m).1.roundNumber = 0 → c = coins i) →
      State.processAll impl ord c (State.handleMessage impl (S.node i).state m).1 = some (s, out) →
      Step impl ids coins S (S.set i { S.node i with incoming := rest, state := s, outbox := Chan.sends ids i ords out })
  /-- The handler sees that the session has ended and returns (test/internal/communication/handler.go:47-52). -/
  | exit {S : Sys G R} {i : ID} : i ∈ ids → (S.node i).started = true → (S.node i).exited = false → (S.node i).outbox = [] →
      (S.node i).state.closed = true → Step impl ids coins S (S.set i { S.node i with exited := true })
  /-- Time passes for a party, its timer fires, or the callback of its timer gets the mutex (pkg/state/state.go:45-49). -/
  | time {S : Sys G R} {i : ID} {op : State.Op G} {s : State G R} : i ∈ ids → ((∃ dt, op = .advance dt) ∨ op = .fire ∨ op = .callback) →
      State.step impl (S.node i).state op = some (s, .nothing) → Step impl ids coins S (S.set i { S.node i with state := s })

/-- Executions. -/
inductive Steps (impl : RoundImpl G R) (ids : List ID) (coins : ID → Coins) : Sys G R → Sys G R → Prop
  | refl (S : Sys G R) : Steps impl ids coins S S
  | tail {S S' S'' : Sys G R} : Steps impl ids coins S S' → Step impl ids coins S' S'' → Steps impl ids coins S S''

end Verif.Udp
