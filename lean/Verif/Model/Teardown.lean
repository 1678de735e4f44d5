import Verif.Model.Frosted

/-!
Taking the communicators down: `destroyCommMap` (test/frosted.go:110-114), which `FROSTestUDP` and `FROSTestChannel` defer, `Done` and
`waitForFinish` (test/internal/communication/channel.go:47-58, udp.go:99-105), and what the goroutines of `Verif/Model/Channel.lean` and
`Verif/Model/Udp.lean` do meanwhile.

In Go a send to a closed channel panics, as does closing it once more; a receive from a closed channel gives what is left in it and then nil at once.  A
step gives the next state, or `none` for a panic, which ends the program.
-/

namespace Verif.Chan

variable {G R : Type}

/-- The process while the communicators are taken down. -/
structure Down (G R : Type) where
  /-- the goroutines and channels as before -/
  sys : Sys G R
  /-- the communicators whose `Done` has not returned yet, in the order of iteration (test/frosted.go:111) -/
  left : List ID
  /-- whether the first of them has called `c.wg.Done()` (test/internal/communication/channel.go:48) -/
  half : Bool
  /-- the counter of the `WaitGroup` (test/internal/communication/local_constructors.go:31) -/
  wg : Nat
  /-- whether `incoming` of a party is closed (test/internal/communication/channel.go:49) -/
  inClosed : ID → Bool
  /-- `waitForFinish`: `none` while it waits, then the channels it has still to close (test/internal/communication/channel.go:52-57) -/
  closing : Option (List ID)
  /-- whether `channels[id]` is closed -/
  bytesClosed : ID → Bool
  /-- whether `done` is closed, and so `waitForFinish` has returned -/
  doneClosed : Bool
  /-- whether `handleByteChan` of a party has returned -/
  moved : ID → Bool

/-- The process when `destroyCommMap` is called; `order` is the order of iteration, `ids` are the parties that
`NewChannelCommunicatorMap` was called with. -/
def down (S : Sys G R) (ids order : List ID) : Down G R :=
  ⟨S, order, false, ids.length, fun _ => false, none, fun _ => false, false, fun _ => false⟩

/-- The process before any handler was made, as it is left by a constructor that fails (test/frosted.go:29-31): a party
without a handler is a party whose handler has returned. -/
def idle (s : ID → State G R) : Sys G R := fun i => ⟨s i, true, [], [], none, [], true⟩

variable [RGroup G]

/-- One step of one goroutine while the communicators are taken down. -/
inductive DownStep (impl : RoundImpl G R) (ids : List ID) (coins : ID → Coins) : Down G R → Option (Down G R) → Prop
  /-- A step of a handler or of `handleByteChan` as before: it puts nothing into a closed channel, and is not one of a
  `handleByteChan` that has returned. -/
  | work {D : Down G R} {S' : Sys G R} : Step impl ids coins D.sys S' →
      (∀ j, D.bytesClosed j = true → (S' j).bytes.length ≤ (D.sys j).bytes.length) →
      (∀ j, D.inClosed j = true → (S' j).incoming.length ≤ (D.sys j).incoming.length) →
      (∀ j, D.moved j = true → (S' j).held = (D.sys j).held ∧ (D.sys j).bytes.length ≤ (S' j).bytes.length) →
      DownStep impl ids coins D (some { D with sys := S' })
  /-- A call of a session panics. -/
  | crash {D : Down G R} : Crash impl ids coins D.sys → DownStep impl ids coins D none
  /-- `ch <- b` on a closed channel (test/internal/communication/channel.go:28,32). -/
  | sendClosed {D : Down G R} {i j : ID} {b : Bytes} {rest : List (ID × Bytes)} : i ∈ ids → (D.sys i).outbox = (j, b) :: rest → j ∈ ids →
      D.bytesClosed j = true → DownStep impl ids coins D none
  /-- `c.incoming <- &msg` on a closed channel (test/internal/communication/channel.go:74). -/
  | putClosed {D : Down G R} {i : ID} {m : Message G} : i ∈ ids → D.moved i = false → (D.sys i).held = some m → D.inClosed i = true →
      DownStep impl ids coins D none
  /-- The handler gets nil from the closed channel and goes round its loop (test/internal/communication/handler.go:39-42).  Once `done` is
  closed `Incoming` gives a nil channel, from which nothing comes (test/internal/communication/channel.go:37-45); that the handler may go on
  to receive what is left is more than the code can do. -/
  | recvNil {D : Down G R} {i : ID} : i ∈ ids → (D.sys i).started = true → (D.sys i).exited = false → (D.sys i).outbox = [] →
      (D.sys i).incoming = [] → D.inClosed i = true → DownStep impl ids coins D (some D)
  /-- `handleByteChan` gets nil from the closed channel and goes round its loop (test/internal/communication/channel.go:65-68). -/
  | takeNil {D : Down G R} {i : ID} : i ∈ ids → D.moved i = false → (D.sys i).held = none → (D.sys i).bytes = [] →
      D.bytesClosed i = true → DownStep impl ids coins D (some D)
  /-- `handleByteChan` sees that `done` is closed and returns (test/internal/communication/channel.go:63-64). -/
  | leave {D : Down G R} {i : ID} : i ∈ ids → D.moved i = false → (D.sys i).held = none → D.doneClosed = true →
      DownStep impl ids coins D (some { D with moved := Function.update D.moved i true })
  /-- `c.wg.Done()` (test/internal/communication/channel.go:48). -/
  | wgDone {D : Down G R} {i : ID} {rest : List ID} : D.left = i :: rest → D.half = false → D.wg ≠ 0 →
      DownStep impl ids coins D (some { D with half := true, wg := D.wg - 1 })
  /-- The counter would become negative. -/
  | wgNegative {D : Down G R} {i : ID} {rest : List ID} : D.left = i :: rest → D.half = false → D.wg = 0 → DownStep impl ids coins D none
  /-- `close(c.incoming)` (test/internal/communication/channel.go:49). -/
  | closeIn {D : Down G R} {i : ID} {rest : List ID} : D.left = i :: rest → D.half = true → D.inClosed i = false →
      DownStep impl ids coins D (some { D with left := rest, half := false, inClosed := Function.update D.inClosed i true })
  /-- The same on a closed channel. -/
  | closeInTwice {D : Down G R} {i : ID} {rest : List ID} : D.left = i :: rest → D.half = true → D.inClosed i = true →
      DownStep impl ids coins D none
  /-- `wg.Wait()` returns and the loop over the channels begins, in any order (test/internal/communication/channel.go:53-54). -/
  | wake {D : Down G R} (ord : MapOrder) : D.closing = none → D.wg = 0 →
      DownStep impl ids coins D (some { D with closing := some ((ord.order _ (channels ids)).map Prod.fst) })
  /-- `close(c)` (test/internal/communication/channel.go:55). -/
  | closeBytes {D : Down G R} {i : ID} {rest : List ID} : D.closing = some (i :: rest) → D.bytesClosed i = false →
      DownStep impl ids coins D (some { D with closing := some rest, bytesClosed := Function.update D.bytesClosed i true })
  /-- The same on a closed channel. -/
  | closeBytesTwice {D : Down G R} {i : ID} {rest : List ID} : D.closing = some (i :: rest) → D.bytesClosed i = true →
      DownStep impl ids coins D none
  /-- `close(done)` (test/internal/communication/channel.go:57). -/
  | closeDone {D : Down G R} : D.closing = some [] → D.doneClosed = false → DownStep impl ids coins D (some { D with doneClosed := true })

/-- Executions without a panic. -/
inductive DownSteps (impl : RoundImpl G R) (ids : List ID) (coins : ID → Coins) : Down G R → Down G R → Prop
  | refl (D : Down G R) : DownSteps impl ids coins D D
  | tail {D D' D'' : Down G R} : DownSteps impl ids coins D D' → DownStep impl ids coins D' (some D'') → DownSteps impl ids coins D D''

end Verif.Chan

namespace Verif.Udp

variable {G R : Type}

/-- The process while the communicators are taken down. -/
structure Down (G R : Type) where
  /-- the goroutines, channels and packets as before -/
  sys : Sys G R
  /-- the communicators whose `Done` has not returned yet, in the order of iteration (test/frosted.go:111) -/
  left : List ID
  /-- whether the first of them has closed `incoming` (test/internal/communication/udp.go:103) -/
  half : Bool
  /-- whether `incoming` of a party is closed -/
  inClosed : ID → Bool
  /-- whether the socket of a party is closed (test/internal/communication/udp.go:104) -/
  connClosed : ID → Bool
  /-- whether the reader of a party has returned (test/internal/communication/udp.go:55-61) -/
  gone : ID → Bool

/-- The process when `destroyCommMap` is called; `order` is the order of iteration. -/
def down (S : Sys G R) (order : List ID) : Down G R := ⟨S, order, false, fun _ => false, fun _ => false, fun _ => false⟩

/-- The process before any handler was made, as it is left by a constructor that fails (test/frosted.go:29-31): a party
without a handler is a party whose handler has returned.  `noise` are packets sent by somebody else. -/
def idle (s : ID → State G R) (noise : ID → List Bytes) : Sys G R := ⟨fun i => ⟨s i, true, [], none, [], true⟩, noise⟩

variable [RGroup G]

/-- One step of one goroutine while the communicators are taken down. -/
inductive DownStep (impl : RoundImpl G R) (ids : List ID) (coins : ID → Coins) : Down G R → Option (Down G R) → Prop
  /-- A step of a handler, of a reader or of a timer as before: nothing is put into a closed channel, nothing read from a closed socket or
  by a reader that has returned, and nothing written to a closed socket: `WriteToUDP` gives an error, which is `Step.drop`. -/
  | work {D : Down G R} {S' : Sys G R} : Step impl ids coins D.sys S' →
      (∀ j, D.inClosed j = true → (S'.node j).incoming.length ≤ (D.sys.node j).incoming.length) →
      (∀ j, D.connClosed j = true → (D.sys.node j).held = none → (S'.node j).held = none) →
      (∀ j, D.connClosed j = true → (S'.node j).outbox.length < (D.sys.node j).outbox.length → S'.wire = D.sys.wire) →
      DownStep impl ids coins D (some { D with sys := S' })
  /-- A call of a session panics. -/
  | crash {D : Down G R} : Crash impl ids coins D.sys → DownStep impl ids coins D none
  /-- `c.incoming <- &msg` on a closed channel (test/internal/communication/udp.go:67). -/
  | putClosed {D : Down G R} {i : ID} {m : Message G} : i ∈ ids → (D.sys.node i).held = some m → D.inClosed i = true →
      DownStep impl ids coins D none
  /-- The handler gets nil from the closed channel and goes round its loop (test/internal/communication/handler.go:39-42). -/
  | recvNil {D : Down G R} {i : ID} : i ∈ ids → (D.sys.node i).started = true → (D.sys.node i).exited = false →
      (D.sys.node i).outbox = [] → (D.sys.node i).incoming = [] → D.inClosed i = true → DownStep impl ids coins D (some D)
  /-- `ReadFromUDP` gives an error and the reader returns; closing the socket again only gives an error
  (test/internal/communication/udp.go:45-49, 54-61). -/
  | leave {D : Down G R} {i : ID} : i ∈ ids → D.gone i = false → (D.sys.node i).held = none → D.connClosed i = true →
      DownStep impl ids coins D (some { D with gone := Function.update D.gone i true })
  /-- `close(c.incoming)` (test/internal/communication/udp.go:103). -/
  | closeIn {D : Down G R} {i : ID} {rest : List ID} : D.left = i :: rest → D.half = false → D.inClosed i = false →
      DownStep impl ids coins D (some { D with half := true, inClosed := Function.update D.inClosed i true })
  /-- The same on a closed channel. -/
  | closeInTwice {D : Down G R} {i : ID} {rest : List ID} : D.left = i :: rest → D.half = false → D.inClosed i = true →
      DownStep impl ids coins D none
  /-- `c.conn.Close()` (test/internal/communication/udp.go:104). -/
  | closeConn {D : Down G R} {i : ID} {rest : List ID} : D.left = i :: rest → D.half = true →
      DownStep impl ids coins D (some { D with left := rest, half := false, connClosed := Function.update D.connClosed i true })

/-- Executions without a panic. -/
inductive DownSteps (impl : RoundImpl G R) (ids : List ID) (coins : ID → Coins) : Down G R → Down G R → Prop
  | refl (D : Down G R) : DownSteps impl ids coins D D
  | tail {D D' D'' : Down G R} : DownSteps impl ids coins D D' → DownStep impl ids coins D' (some D'') → DownSteps impl ids coins D D''

end Verif.Udp
