import Verif.Model.State
import Verif.Model.Keygen
import Verif.Model.Sign
import Mathlib.Logic.Function.Basic

/-!
`example/main.go`: the loop that the example gives for driving a session.
-/

namespace Verif.Example

variable {G R : Type}

/-- One session driven by `MessageRoutine`, and what it has put into `msgsOut` so far. -/
structure Routine (G R : Type) where
  state : State G R
  out : List (Message G)

/-- The case `msg := <-msgsIn` of `MessageRoutine` (example/main.go:23-35); `none` is a crash.  Logging is left out. -/
def onMessage (impl : RoundImpl G R) (ord : MapOrder) (coins : Coins) (r : Routine G R) (msg : Message G) : Option (Routine G R) :=
  match State.handleMessage impl r.state msg with
  | (s, some _) => some { r with state := s }
  | (s, none) =>
    match State.processAll impl ord coins s with
    | none => none
    | some (s, out) => some ⟨s, r.out ++ out⟩

/-- What can happen while `MessageRoutine` (example/main.go:20-48) runs: a message comes in, time passes, the timer of the session
fires, its callback runs.  The return when the session has ended is left out: afterwards nothing happens to the session. -/
inductive Event (G : Type)
  | message (ord : MapOrder) (coins : Coins) (msg : Message G)
  | advance (dt : Nat)
  | fire
  | callback

/-- One event; `none` is a crash. -/
def event (impl : RoundImpl G R) (r : Routine G R) : Event G → Option (Routine G R)
  | .message ord coins msg => onMessage impl ord coins r msg
  | .advance dt => (State.step impl r.state (.advance dt)).map fun x => { r with state := x.1 }
  | .fire => (State.step impl r.state .fire).map fun x => { r with state := x.1 }
  | .callback => (State.step impl r.state .callback).map fun x => { r with state := x.1 }

/-- Any number of events. -/
def events (impl : RoundImpl G R) : Routine G R → List (Event G) → Option (Routine G R)
  | r, [] => some r
  | r, e :: es =>
    match event impl r e with
    | none => none
    | some r' => events impl r' es

/-- Parties that all run `MessageRoutine`, connected by a transport layer that hands over messages that were put into `msgsOut` by
somebody, in any order and any number of times ("these channels are placeholders for a transport layer", example/main.go:17-18). -/
inductive Net (impl : RoundImpl G R) (ids : List ID) (init : ID → State G R) : (ID → Routine G R) → Prop
  | start : Net impl ids init fun i => ⟨init i, []⟩
  | step {N : ID → Routine G R} {i : ID} {e : Event G} {r : Routine G R} : Net impl ids init N → i ∈ ids →
      (∀ ord coins msg, e = .message ord coins msg → ∃ j ∈ ids, msg ∈ (N j).out) → event impl (N i) e = some r →
      Net impl ids init (Function.update N i r)

/-! ### The program -/

/-- Where `main` is: waiting for the key generation, waiting for the signing, or at its end, having logged "failed to validate single
signature" or not.  The values of `main` that are still used are kept.  A `MessageRoutine` of a session that ended is left out: it returns,
or panics after an abort, and then `main` panics as well (`Main.afterKeygen`, `Main.afterSign`). -/
inductive Main (G : Type) [RGroup G]
  | keygen (r : Routine G (Keygen.Round G))
  | sign (groupKey : G) (r : Routine G (Sign.Round G))
  | ended (logged : Bool)

namespace Main

variable [RGroup G]

/-- The message that is signed (example/main.go:73). -/
def message : Bytes := "example".toUTF8.toList

/-- `main` until it waits for the first time (example/main.go:51-61), at time `now` in nanoseconds; an error is a panic. -/
def start (sha : Sha512) (now : Nat) : Option (Main G) :=
  match Keygen.newKeygenState sha 1 (IDSlice.new [1, 2, 42, 8]) 2 2000000000 now with
  | .ok s => some (.keygen ⟨s, []⟩)
  | .err _ => none
  | .panic => none

/-- `main` after the key generation until it waits again (example/main.go:64-83).  That the protocol was aborted is ignored; then `public`
is nil, and reading its group key is a panic. -/
def afterKeygen (sha : Sha512) (s : State G (Keygen.Round G)) : Option (Main G) :=
  match s.round.output.pub, s.round.output.secretKey with
  | some pub, some secretShare =>
    match Sign.newSignState sha (IDSlice.new [1, 2, 8]) secretShare pub message 1000000000 s.timer.now with
    | .ok s => some (.sign pub.groupKey ⟨s, []⟩)
    | .err _ => none
    | .panic => none
  | _, _ => none

/-- `main` after the signing (example/main.go:86-96), with `verify` for `ed25519.Verify`.  That the protocol was aborted is ignored; then
the signature is nil, and converting it is a panic. -/
def afterSign (verify : Bytes → Bytes → Bytes → GoRes Bool) (groupKey : G) (s : State G (Sign.Round G)) : Option (Main G) :=
  match s.round.output.signature with
  | none => none
  | some groupSig =>
    match verify (PublicKey.toEd25519 groupKey) message (Signature.toEd25519 groupSig) with
    | .ok ok => some (.ended (!ok))
    | .err _ => none
    | .panic => none

/-- What can happen: an event of the session that is being run, or `WaitForError` returning (example/main.go:64, example/main.go:86). -/
inductive Act (G : Type)
  | event (e : Event G)
  | wake

/-- One step; `none` is a crash.  Waking up does nothing while `WaitForError` blocks, and nothing happens after the end. -/
def step (sha : Sha512) (verify : Bytes → Bytes → Bytes → GoRes Bool) : Main G → Act G → Option (Main G)
  | .keygen r, .event e => (Example.event (Keygen.impl sha) r e).map .keygen
  | .keygen r, .wake => if r.state.waitForError = none then some (.keygen r) else afterKeygen sha r.state
  | .sign k r, .event e => (Example.event (Sign.impl sha) r e).map (.sign k)
  | .sign k r, .wake => if r.state.waitForError = none then some (.sign k r) else afterSign verify k r.state
  | .ended b, _ => some (.ended b)

/-- Any number of steps. -/
def steps (sha : Sha512) (verify : Bytes → Bytes → Bytes → GoRes Bool) : Main G → List (Act G) → Option (Main G)
  | m, [] => some m
  | m, a :: as =>
    match step sha verify m a with
    | none => none
    | some m' => steps sha verify m' as

end Main

end Verif.Example
