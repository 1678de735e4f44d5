import Verif.Model.Udp
import Verif.Model.Keygen
import Verif.Model.Sign
import Verif.Model.Ed25519

/-!
The program `test/frosted.go`, which runs key generation and signing between parties connected by channels or by UDP and checks the
signatures.

The handlers run concurrently with the main goroutine, which waits for them one after the other; a run of the program is therefore a
relation between its arguments and its result.  Taking the communicators down at the end is in `Verif/Model/Teardown.lean`.  Printing, and
what the handlers of the key generation do while the signers work are not modelled.
-/

namespace Verif.Chan

variable {G R : Type} [RGroup G]

/-- The next thing some handler does is a call of the session that panics, which ends the program
(test/internal/communication/handler.go:35,43-46). -/
inductive Crash (impl : RoundImpl G R) (ids : List ID) (coins : ID → Coins) (S : Sys G R) : Prop
  | start {i : ID} {ord : MapOrder} : i ∈ ids → (S i).started = false → State.processAll impl ord (coins i) (S i).state = none →
      Crash impl ids coins S
  | recv {i : ID} {m : Message G} {rest : List (Message G)} {ord : MapOrder} {c : Coins} : i ∈ ids → (S i).started = true →
      (S i).exited = false → (S i).outbox = [] → (S i).incoming = m :: rest →
      State.processAll impl ord c (State.handleMessage impl (S i).state m).1 = none → Crash impl ids coins S

end Verif.Chan

namespace Verif.Udp

variable {G R : Type} [RGroup G]

/-- The next thing some handler or timer does is a call of the session that panics, which ends the program
(test/internal/communication/handler.go:35,43-46, pkg/state/state.go:45-49). -/
inductive Crash (impl : RoundImpl G R) (ids : List ID) (coins : ID → Coins) (S : Sys G R) : Prop
  | start {i : ID} {ord : MapOrder} : i ∈ ids → (S.node i).started = false →
      State.processAll impl ord (coins i) (S.node i).state = none → Crash impl ids coins S
  | recv {i : ID} {m : Message G} {rest : List (Message G)} {ord : MapOrder} {c : Coins} : i ∈ ids → (S.node i).started = true →
      (S.node i).exited = false → (S.node i).outbox = [] → (S.node i).incoming = m :: rest →
      ((State.handleMessage impl (S.node i).state m).1.roundNumber = 0 → c = coins i) →
      State.processAll impl ord c (State.handleMessage impl (S.node i).state m).1 = none → Crash impl ids coins S
  | time {i : ID} {op : State.Op G} : i ∈ ids → ((∃ dt, op = .advance dt) ∨ op = .fire ∨ op = .callback) →
      State.step impl (S.node i).state op = none → Crash impl ids coins S

end Verif.Udp

namespace Verif.Frosted

variable {G R : Type} [RGroup G]

/-- What the functions of test/frosted.go return as errors: that of making a handler, that of a session, or the number of failures
(test/frosted.go:30,38,53,71). -/
inductive Err
  | new (e : GoErr)
  | session (e : StateErr)
  | failures (n : Nat)

/-- `Setup(N, T)` (test/frosted.go:13-22): the message "hello", the parties and the signers.  Sums are in `uint16`; `make` fills the
signers with 0 and `copy` overwrites as many as there are parties. -/
def setup (N T : UInt16) : Bytes × List ID × List ID :=
  let keygenIDs : List ID := (List.range N.toNat).map fun id => 42 + UInt16.ofNat id
  let signIDs := keygenIDs.take (T + 1).toNat ++ List.replicate ((T + 1).toNat - keygenIDs.length) 0
  ([104, 101, 108, 108, 111], keygenIDs, signIDs)

/-- The two kinds of communicators (test/internal/communication/communicator.go:9-15). -/
inductive Kind
  | channel
  | udp

/-- The communicators and handlers of all parties at one moment. -/
def Kind.Sys (G R : Type) : Kind → Type
  | channel => Chan.Sys G R
  | udp => Udp.Sys G R

/-- The communicators as `NewChannelCommunicatorMap` and `NewUDPCommunicatorMap` make them, with the sessions of the handlers
(test/internal/communication/local_constructors.go:10-54).  Nobody else sends packets. -/
def Kind.start : (k : Kind) → (ID → State G R) → k.Sys G R
  | channel, init => Chan.start init
  | udp, init => Udp.start init fun _ => []

/-- Executions of the handlers and communicators. -/
def Kind.steps (impl : RoundImpl G R) (ids : List ID) (coins : ID → Coins) : (k : Kind) → k.Sys G R → k.Sys G R → Prop
  | channel => Chan.Steps impl ids coins
  | udp => Udp.Steps impl ids coins

/-- A handler is about to panic. -/
def Kind.crash (impl : RoundImpl G R) (ids : List ID) (coins : ID → Coins) : (k : Kind) → k.Sys G R → Prop
  | channel => Chan.Crash impl ids coins
  | udp => Udp.Crash impl ids coins

/-- `h.State` of the handler of a party (test/internal/communication/handler.go:16-19). -/
def Kind.session : (k : Kind) → k.Sys G R → ID → State G R
  | channel, S, i => (S i).state
  | udp, S, i => (S.node i).state

/-- `Timeout()` in nanoseconds (test/internal/communication/channel.go:79-81, test/internal/communication/udp.go:107-109). -/
def Kind.timeout : Kind → Nat
  | channel => 0
  | udp => 1500000000

/-- The loops that make the handlers (test/frosted.go:27-32, 50-55); `mk` makes the session
(test/internal/communication/handler.go:68-73, 85-90). -/
def newHandlers (mk : ID → GoRes (State G R)) : List ID → GoMap (State G R) → GoRes (GoMap (State G R))
  | [], handlers => .ok handlers
  | id :: rest, handlers => do
    let s ← mk id
    newHandlers mk rest (handlers.set id s)

/-- The loop that waits for the key generations (test/frosted.go:36-42) over the parties that are left, from a moment on, with the
`public` and `secrets` collected so far.  `WaitForError` returns at some later moment. -/
inductive KeygenWait (impl : RoundImpl G (Keygen.Round G)) (ids : List ID) (coins : ID → Coins) (k : Kind) :
    k.Sys G (Keygen.Round G) → List ID → Option (Public G) → GoMap (Option (SecretShare G)) →
      Outcome Err (Option (Public G) × GoMap (Option (SecretShare G))) → Prop
  | done {S pub secrets} : KeygenWait impl ids coins k S [] pub secrets (.ok (pub, secrets))
  | next {S S' id rest pub secrets r} : k.steps impl ids coins S S' → (k.session S' id).waitForError = some none →
      KeygenWait impl ids coins k S' rest (k.session S' id).round.output.pub (secrets.set id (k.session S' id).round.output.secretKey) r →
      KeygenWait impl ids coins k S (id :: rest) pub secrets r
  | error {S S' id rest pub secrets e} : k.steps impl ids coins S S' → (k.session S' id).waitForError = some (some e) →
      KeygenWait impl ids coins k S (id :: rest) pub secrets (.err (.session e))
  | crash {S S' id rest pub secrets} : k.steps impl ids coins S S' → k.crash impl ids coins S' →
      KeygenWait impl ids coins k S (id :: rest) pub secrets .panic

/-- `DoKeygen(N, T, keygenIDs, keygenComm)` (test/frosted.go:24-44): what it may return. -/
inductive DoKeygen (sha : Sha512) (coins : ID → Coins) (k : Kind) (T : UInt16) (keygenIDs : List ID) :
    Outcome Err (Option (Public G) × GoMap (Option (SecretShare G))) → Prop
  | noHandler {now : ID → Nat} {e : GoErr} :
      newHandlers (fun id => Keygen.newKeygenState (G := G) sha id (IDSlice.new keygenIDs) T k.timeout (now id)) keygenIDs [] = .err e →
      DoKeygen sha coins k T keygenIDs (.err (.new e))
  | crash {now : ID → Nat} :
      newHandlers (fun id => Keygen.newKeygenState (G := G) sha id (IDSlice.new keygenIDs) T k.timeout (now id)) keygenIDs [] = .panic →
      DoKeygen sha coins k T keygenIDs .panic
  | waited {now : ID → Nat} {handlers : GoMap (State G (Keygen.Round G))} {init : ID → State G (Keygen.Round G)} {ord : MapOrder}
      {r : Outcome Err (Option (Public G) × GoMap (Option (SecretShare G)))} :
      newHandlers (fun id => Keygen.newKeygenState (G := G) sha id (IDSlice.new keygenIDs) T k.timeout (now id)) keygenIDs [] =
        .ok handlers →
      (∀ id s, handlers.get? id = some s → init id = s) →
      KeygenWait (Keygen.impl sha) keygenIDs coins k (k.start init) (ord.order _ handlers).keys none [] r →
      DoKeygen sha coins k T keygenIDs r

/-- What the loop of `DoSign` adds to `failures` for one handler (test/frosted.go:60-67), given what `WaitForError` returned and
`h.Out.Signature`. -/
def verdict (sha : Sha512) (groupKey : G) (message : Bytes) (err : Option StateErr) (signature : Option (Signature G)) : GoRes Nat :=
  match err with
  | some _ => .ok 1
  | none =>
    match signature with
    | none => .ok 0
    | some s => do
      let ok ← PublicKey.verify sha groupKey message s
      if ok = false then .ok 1
      else do
        let ok ← Ed25519.verify sha (PublicKey.toEd25519 groupKey) message (Signature.toEd25519 s)
        if ok = false then .ok 1 else .ok 0

/-- The loop that waits for the signatures (test/frosted.go:59-68) over the parties that are left, from a moment on, with the number
of failures so far. -/
inductive SignWait (impl : RoundImpl G (Sign.Round G)) (sha : Sha512) (groupKey : G) (message : Bytes) (ids : List ID)
    (coins : ID → Coins) (k : Kind) : k.Sys G (Sign.Round G) → List ID → Nat → Outcome Err Nat → Prop
  | done {S n} : SignWait impl sha groupKey message ids coins k S [] n (.ok n)
  | next {S S' id rest n e d r} : k.steps impl ids coins S S' → (k.session S' id).waitForError = some e →
      verdict sha groupKey message e (k.session S' id).round.output.signature = .ok d →
      SignWait impl sha groupKey message ids coins k S' rest (n + d) r →
      SignWait impl sha groupKey message ids coins k S (id :: rest) n r
  | panic {S S' id rest n e} : k.steps impl ids coins S S' → (k.session S' id).waitForError = some e →
      verdict sha groupKey message e (k.session S' id).round.output.signature = .panic →
      SignWait impl sha groupKey message ids coins k S (id :: rest) n .panic
  | crash {S S' id rest n} : k.steps impl ids coins S S' → k.crash impl ids coins S' →
      SignWait impl sha groupKey message ids coins k S (id :: rest) n .panic

/-- Making the session of a signer (test/frosted.go:51, test/internal/communication/handler.go:85-90): a share that is missing in
`secrets` is a nil pointer, which `NewRound` dereferences (pkg/frost/sign/base.go:47). -/
def newSign (sha : Sha512) (k : Kind) (signIDs : List ID) (pub : Public G) (secrets : GoMap (Option (SecretShare G))) (message : Bytes)
    (now : ID → Nat) (id : ID) : GoRes (State G (Sign.Round G)) := do
  let secret ← Outcome.deref (secrets.get? id).join
  Sign.newSignState sha (IDSlice.new signIDs) secret pub message k.timeout (now id)

/-- `DoSign(T, signIDs, shares, secrets, signComm, message)` (test/frosted.go:46-74): what it may return; a nil `shares` crashes it
(line 47). -/
inductive DoSign (sha : Sha512) (coins : ID → Coins) (k : Kind) (signIDs : List ID) (secrets : GoMap (Option (SecretShare G)))
    (message : Bytes) : Option (Public G) → Outcome Err Unit → Prop
  | nilShares : DoSign sha coins k signIDs secrets message none .panic
  | noHandler {pub : Public G} {now : ID → Nat} {e : GoErr} : newHandlers (newSign sha k signIDs pub secrets message now) signIDs [] = .err e →
      DoSign sha coins k signIDs secrets message (some pub) (.err (.new e))
  | panic {pub : Public G} {now : ID → Nat} : newHandlers (newSign sha k signIDs pub secrets message now) signIDs [] = .panic →
      DoSign sha coins k signIDs secrets message (some pub) .panic
  | waited {pub : Public G} {now : ID → Nat} {handlers : GoMap (State G (Sign.Round G))} {init : ID → State G (Sign.Round G)}
      {ord : MapOrder} {r : Outcome Err Nat} : newHandlers (newSign sha k signIDs pub secrets message now) signIDs [] = .ok handlers →
      (∀ id s, handlers.get? id = some s → init id = s) →
      SignWait (Sign.impl sha) sha pub.groupKey message signIDs coins k (k.start init) (ord.order _ handlers).keys 0 r →
      DoSign sha coins k signIDs secrets message (some pub) (r >>= fun failures => if failures ≠ 0 then .err (.failures failures) else .ok ())

/-- `FROSTestUDP(N, T)` and `FROSTestChannel(N, T)` (test/frosted.go:76-108): what they may return.  `kcoins` and `coins` are what the
parties draw during key generation and signing. -/
inductive Test (G : Type) [RGroup G] (sha : Sha512) (kcoins coins : ID → Coins) (k : Kind) (N T : UInt16) : Outcome Err Unit → Prop
  | keygenFailed {e : Err} : DoKeygen (G := G) sha kcoins k T (setup N T).2.1 (.err e) → Test G sha kcoins coins k N T (.err e)
  | keygenCrashed : DoKeygen (G := G) sha kcoins k T (setup N T).2.1 .panic → Test G sha kcoins coins k N T .panic
  | signed {shares : Option (Public G)} {secrets : GoMap (Option (SecretShare G))} {r : Outcome Err Unit} :
      DoKeygen sha kcoins k T (setup N T).2.1 (.ok (shares, secrets)) →
      DoSign sha coins k (setup N T).2.2 secrets (setup N T).1 shares r → Test G sha kcoins coins k N T r

/-- One call of `FROSTestUDP` or `FROSTestChannel` in `main`, and whether it should work. -/
structure Call where
  kind : Kind
  N : UInt16
  T : UInt16
  should : Bool

/-- The calls of `main` (test/frosted.go:116-180), in order; products are in `uint16`. -/
def mainCalls : List Call :=
  let ns : List UInt16 := [5, 10, 50]
  ns.flatMap (fun n => [⟨.udp, n, n / 2, true⟩, ⟨.udp, n, n - 1, true⟩, ⟨.channel, n, n / 2, true⟩, ⟨.channel, n, n - 1, true⟩]) ++
    ns.flatMap fun n => [⟨.udp, n, n, false⟩, ⟨.udp, n, 0, false⟩, ⟨.udp, n, n * 10, false⟩]

/-- What `main` prints about a call; the time that it took is left out (test/frosted.go:124-128, 164-168). -/
inductive Line
  | error (e : Err)
  | ok
  | failedToFail
  | okFailed

/-- The line for a call that returned (test/frosted.go:124-128, 164-168); `none` for a panic. -/
def Call.line (c : Call) : Outcome Err Unit → Option Line
  | .ok () => some (if c.should then .ok else .failedToFail)
  | .err e => some (if c.should then .error e else .okFailed)
  | .panic => none

/-- The rest of `main` (test/frosted.go:116-180): the calls that are left, the lines that are printed, and whether the program gets to
its end.  Each call draws anew; what goroutines of a call do after it has returned is in `Verif/Model/Teardown.lean`. -/
inductive Main (G : Type) [RGroup G] (sha : Sha512) : List Call → List (Call × Line) → Bool → Prop
  | done : Main G sha [] [] true
  | crash {c : Call} {cs : List Call} {kcoins coins : ID → Coins} {r : Outcome Err Unit} :
      (∀ i ∈ (setup c.N c.T).2.2, coins i 0 ≠ 0 ∧ coins i 1 ≠ 0) → Test G sha kcoins coins c.kind c.N c.T r → c.line r = none →
      Main G sha (c :: cs) [] false
  | call {c : Call} {cs : List Call} {kcoins coins : ID → Coins} {r : Outcome Err Unit} {l : Line} {ls : List (Call × Line)} {b : Bool} :
      (∀ i ∈ (setup c.N c.T).2.2, coins i 0 ≠ 0 ∧ coins i 1 ≠ 0) → Test G sha kcoins coins c.kind c.N c.T r → c.line r = some l →
      Main G sha cs ls b → Main G sha (c :: cs) ((c, l) :: ls) b

end Verif.Frosted
