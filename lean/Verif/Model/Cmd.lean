import Verif.Model.Helpers
import Verif.Model.Keygen
import Verif.Model.Sign
import Verif.Model.Ed25519

/-!
The two command line programs: `cmd/keygen` and `cmd/signer`.

What the programs print is in `Model/Print`; here there is only how they end.  Here the JSON file is the Go value handed to and received
from `encoding/json`, as in Verif/Model/Eddsa.lean; its bytes are in Verif/Model/JsonText.lean.
-/

namespace Verif.Cmd

open Verif

variable {G R : Type} [RGroup G]

/-- What a program prints before it gives up. -/
inductive Complaint
  | error               -- the error of a call
  | nullSignature       -- "null signature"
  | ed25519Failed       -- "signature verification failed (ed25519)"
  | verifyFailed        -- "signature verification failed"
  deriving DecidableEq, Repr

/-- How a run of a program ends: with the usage text (cmd/keygen/keygen.go:21-24, cmd/signer/signer.go:19-22), with a complaint, with a run-time panic, never, or with a result. -/
inductive End (α : Type)
  | usage
  | failed (c : Complaint)
  | crash
  | hang
  | done (a : α)

namespace End

variable {α β : Type}

/-- Sequencing: everything but a result ends the program. -/
def bind (x : End α) (f : α → End β) : End β :=
  match x with
  | usage => usage
  | failed c => failed c
  | crash => crash
  | hang => hang
  | done a => f a

instance : Monad End where
  pure := done
  bind := bind

/-- `x, err := f(); if err != nil { fmt.Println(err); return }` -/
def ofRes : GoRes α → End α
  | .ok a => done a
  | .err _ => failed .error
  | .panic => crash

/-- Using a pointer that may be nil, or an index that may be out of range. -/
def deref : Option α → End α
  | some a => done a
  | none => crash

/-- A call that may never return. -/
def orHang : Option α → End α
  | some a => done a
  | none => hang

end End

/-- The digits of `strconv.Atoi` (standard library). -/
def digits : Bytes → Nat → Option Nat
  | [], n => some n
  | c :: cs, n => if 48 ≤ c.toNat ∧ c.toNat ≤ 57 then digits cs (n * 10 + (c.toNat - 48)) else none

/-- `strconv.Atoi` (standard library, simplified to its contract for a 64-bit `int`): an optional sign, at least one decimal digit
and nothing else, in range. -/
def atoi (s : Bytes) : Option Int :=
  let (neg, ds) := match s with
    | c :: cs => if c = 45 then (true, cs) else if c = 43 then (false, cs) else (false, s)
    | [] => (false, [])
  if ds.isEmpty then none
  else match digits ds 0 with
    | none => none
    | some n =>
      let v : Int := if neg then -(n : Int) else n
      if -9223372036854775808 ≤ v ∧ v ≤ 9223372036854775807 then some v else none

/-- `party.ID(n)` and `party.Size(t)` of an `int`: the low 16 bits. -/
def size (n : Int) : UInt16 := UInt16.ofNat (n % 65536).toNat

/-- What the run-time chooses during a run: the orders of the loops `for _, s := range states`, and for each of the three calls of
`PartyRoutine` of each party the orders of iteration and the randomness of its `ProcessAll`; the clock when the sessions are made. -/
structure Env where
  range : Nat → MapOrder
  order : Nat → ID → MapOrder
  coins : Nat → ID → Coins
  now : ID → Nat

/-- `for _, s := range states { msgs, err := helpers.PartyRoutine(in, s); if err != nil {...; return}; out = append(out, msgs...) }`
(cmd/keygen/keygen.go:71-78, 80-87, 89-95; cmd/signer/signer.go:85-92, 94-101, 103-109) over the given keys.  The map holds pointers,
so that the sessions change in place; a nil session crashes `ProcessAll`.  `cmd/keygen` and `cmd/signer` drop the output of the last
of the three loops, here it is returned. -/
def stageLoop (impl : RoundImpl G R) (order : ID → MapOrder) (coins : ID → Coins) (ins : List Bytes) :
    List ID → GoMap (Option (State G R)) → List Bytes → End (GoMap (Option (State G R)) × List Bytes)
  | [], states, out => .done (states, out)
  | id :: rest, states, out =>
    match (states.get? id).join with
    | none => .crash
    | some s =>
      match partyRoutine impl (order id) (coins id) ins s with
      | none => .crash
      | some (_, .error _) => .failed .error
      | some (s', .ok msgs) => stageLoop impl order coins ins rest (states.set id (some s')) (out ++ msgs)

/-- The `k`-th of the three loops. -/
def stage (impl : RoundImpl G R) (env : Env) (k : Nat) (ins : List Bytes) (states : GoMap (Option (State G R))) :
    End (GoMap (Option (State G R)) × List Bytes) :=
  stageLoop impl (env.order k) (env.coins k) ins ((env.range k).order _ states).keys states []

/-- `if err := s.WaitForError(); err != nil { fmt.Println(err); return }` (cmd/keygen/keygen.go:100-103, 110-113). -/
def wait (s : State G R) : End Unit :=
  match s.waitForError with
  | none => .hang
  | some (some _) => .failed .error
  | some none => .done ()

/-- `type KeyGenOutput struct` (cmd/keygen/keygen.go:121-124, cmd/signer/signer.go:36-39) with its fields as `encoding/json` gets
them from, or gives them to, the `MarshalJSON` and `UnmarshalJSON` methods of `SecretShare` and `Public`; pointers may be null. -/
structure File (G : Type) where
  secrets : GoMap (Option SecretShare.Json)
  shares : Option (Public.Json G)

/-- The loop making the sessions (cmd/keygen/keygen.go:60-66). -/
def keygenStates (sha : Sha512) (env : Env) (partyIDs : IDSlice) (t : UInt16) :
    List ID → GoMap (Option (State G (Keygen.Round G))) → End (GoMap (Option (State G (Keygen.Round G))))
  | [], states => .done states
  | id :: rest, states => do
    let s ← End.ofRes (Keygen.newKeygenState sha id partyIDs t 0 (env.now id))
    keygenStates sha env partyIDs t rest (states.set id (some s))

/-- The loop collecting the secret shares (cmd/keygen/keygen.go:109-118); it prints the secret and the public share and crashes if
one is missing. -/
def keygenSecrets (states : GoMap (Option (State G (Keygen.Round G)))) (pub : Public G) :
    List ID → GoMap (SecretShare G) → End (GoMap (SecretShare G))
  | [], secrets => .done secrets
  | id :: rest, secrets => do
    let s ← End.deref (states.get? id).join
    wait s
    let shareSecret ← End.deref s.round.output.secretKey
    let _ ← End.deref (pub.shares.get? id)
    keygenSecrets states pub rest (secrets.set id shareSecret)

/-- `main` of `cmd/keygen` from line 53 on (cmd/keygen/keygen.go:53-142): `make` panics for a negative capacity; the result is what
goes into the file.  Simplified: the error of `WriteFile` is ignored as in the code, and `MarshalIndent` does not fail on these
values. -/
def keygenRun (sha : Sha512) (env : Env) (t n : Int) : End (File G) := do
  let partyIDs ← End.orHang (generateSet (size n) 65536)
  let states ← keygenStates sha env partyIDs (size t) partyIDs []
  if n < 0 then .crash
  else do
    let (states, msgsOut1) ← stage (Keygen.impl sha) env 0 [] states
    let (states, msgsOut2) ← stage (Keygen.impl sha) env 1 msgsOut1 states
    let (states, _) ← stage (Keygen.impl sha) env 2 msgsOut2 states
    let id0 ← End.deref partyIDs[0]?
    let s0 ← End.deref (states.get? id0).join
    wait s0
    let pub ← End.deref s0.round.output.pub
    let secrets ← keygenSecrets states pub partyIDs []
    return ⟨secrets.map fun (id, s) => (id, some (SecretShare.marshalJSON s)), some (Public.marshalJSON pub)⟩

/-- `main` of `cmd/keygen` (cmd/keygen/keygen.go:26-143) with the arguments after the program name; `maxN` is 100 (line 19). -/
def keygen (sha : Sha512) (env : Env) (args : List Bytes) : End (File G) :=
  match args with
  | [a1, a2] =>
    match atoi a1 with
    | none => .usage
    | some t =>
      match atoi a2 with
      | none => .usage
      | some n => if n > 100 ∨ t ≥ n then .usage else keygenRun sha env t n
  | _ => .usage

/-- `json.Unmarshal` of the map of secrets (cmd/signer/signer.go:50): null gives a nil pointer, the first error is returned. -/
def readSecrets : List (ID × Option SecretShare.Json) → GoMap (Option (SecretShare G)) → End (GoMap (Option (SecretShare G)))
  | [], secrets => .done secrets
  | (id, none) :: rest, secrets => readSecrets rest (secrets.set id none)
  | (id, some j) :: rest, secrets => do
    let s ← End.ofRes (SecretShare.unmarshalJSON j)
    readSecrets rest (secrets.set id (some s))

/-- The loop making the sessions (cmd/signer/signer.go:76-81): a missing secret share is a nil pointer, which `NewRound`
dereferences first (pkg/frost/sign/base.go:47); an error is only noted by an empty line, and leaves a nil session. -/
def signerStates (sha : Sha512) (env : Env) (partyIDs : IDSlice) (secrets : GoMap (Option (SecretShare G))) (pub : Public G) (message : Bytes) :
    List ID → GoMap (Option (State G (Sign.Round G))) → End (GoMap (Option (State G (Sign.Round G))))
  | [], states => .done states
  | id :: rest, states => do
    let secret ← End.deref (secrets.get? id).join
    match Sign.newSignState sha partyIDs secret pub message 0 (env.now id) with
    | .panic => .crash
    | .err _ => signerStates sha env partyIDs secrets pub message rest (states.set id none)
    | .ok s => signerStates sha env partyIDs secrets pub message rest (states.set id (some s))

/-- `main` of `cmd/signer` from line 56 on (cmd/signer/signer.go:56-128), with what was read from the file. -/
def signerMain (sha : Sha512) (env : Env) (secrets : GoMap (Option (SecretShare G))) (pub : Public G) (message : Bytes) :
    End (Signature G) := do
  let partyIDs ← End.orHang (generateSet (IDSlice.N pub.partyIDs) 65536)
  let states ← signerStates sha env partyIDs secrets pub message partyIDs []
  let (states, msgsOut1) ← stage (Sign.impl sha) env 0 [] states
  let (states, msgsOut2) ← stage (Sign.impl sha) env 1 msgsOut1 states
  let (states, _) ← stage (Sign.impl sha) env 2 msgsOut2 states
  let id0 ← End.deref partyIDs[0]?
  let s0 ← End.deref (states.get? id0).join
  match s0.round.output.signature with
  | none => .failed .nullSignature
  | some sig => do
    let ok ← End.ofRes (Ed25519.verify sha (PublicKey.toEd25519 pub.groupKey) message (Signature.toEd25519 sig))
    if ok = false then .failed .ed25519Failed
    else do
      let ok ← End.ofRes (PublicKey.verify sha pub.groupKey message sig)
      if ok = false then .failed .verifyFailed else return sig

/-- `main` of `cmd/signer` from line 50 on (cmd/signer/signer.go:50-128) for a file that is JSON of the right shape; `ord` is the
order of iteration in `NewPublic`.  Simplified: the secrets are read before the shares, the order in which `cmd/keygen` writes
them; with the other order, of an error in the one and a panic in the other the other one comes first.  `signerText` in
Verif/Model/JsonText.lean starts from the bytes of the file and has neither restriction. -/
def signerRun (sha : Sha512) (env : Env) (ord : MapOrder) (file : File G) (message : Bytes) : End (Signature G) := do
  let secrets ← readSecrets file.secrets []
  let pub ← match file.shares with
    | none => .crash
    | some j => End.ofRes (Public.unmarshalJSON ord j)
  signerMain sha env secrets pub message

/-- `main` of `cmd/signer` (cmd/signer/signer.go:24-129) with the arguments after the program name; `read` gives the contents of a
file, `none` if it cannot be read or is not JSON of the right shape. -/
def signer (sha : Sha512) (env : Env) (ord : MapOrder) (read : Bytes → Option (File G)) (args : List Bytes) : End (Signature G) :=
  match args with
  | [filename, message] =>
    match read filename with
    | none => .failed .error
    | some file => signerRun sha env ord file message
  | _ => .usage

end Verif.Cmd
