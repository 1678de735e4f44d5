import Verif.Model.JsonText

/-!
What `cmd/keygen` and `cmd/signer` write to the standard output, and what `cmd/keygen` does to its file.

`Verif/Model/Cmd.lean` says how the programs end; here the calls of `fmt.Printf` and `fmt.Println` are in their places.  The text of an
error and the name of the program are left open.  A run-time panic writes to the standard error only.
-/

namespace Verif.Cmd

open Verif

variable {G : Type} [RGroup G]

/-- A piece of the output: bytes, the text of an error, or `filepath.Base(os.Args[0])`. -/
inductive Piece
  | text (b : Bytes)
  | error
  | program
  deriving DecidableEq, Repr

/-- The bytes of an ASCII string literal. -/
def lit (s : String) : Bytes := s.toList.map fun c => UInt8.ofNat c.toNat

/-- A lower case hexadecimal digit. -/
def hexDigit (n : Nat) : UInt8 := UInt8.ofNat (if n < 10 then 48 + n else 87 + n)

/-- `%x` of a `[]byte` (standard library, package fmt): two lower case digits for every byte. -/
def hex : Bytes → Bytes
  | [] => []
  | c :: cs => hexDigit (c.toNat / 16) :: hexDigit (c.toNat % 16) :: hex cs

/-- A part of a program: what it prints and how it ends. -/
structure Talk (α : Type) where
  out : List Piece
  result : End α

namespace Talk

variable {α β : Type}

/-- Sequencing: everything but a result ends the program. -/
def bind (x : Talk α) (f : α → Talk β) : Talk β :=
  match x.result with
  | .usage => ⟨x.out, .usage⟩
  | .failed c => ⟨x.out, .failed c⟩
  | .crash => ⟨x.out, .crash⟩
  | .hang => ⟨x.out, .hang⟩
  | .done a => ⟨x.out ++ (f a).out, (f a).result⟩

instance : Monad Talk where
  pure a := ⟨[], .done a⟩
  bind := bind

/-- `fmt.Printf` of the given bytes. -/
def say (b : Bytes) : Talk Unit := ⟨[.text b], .done ()⟩

/-- What is printed before a program gives up (cmd/keygen/keygen.go:63, 74, 83, 92, 101, 111, 134; cmd/signer/signer.go:46, 52, 88, 97, 106,
114, 119, 124). -/
def complaint : Complaint → List Piece
  | .error => [.error, .text (lit "\n")]
  | .nullSignature => [.text (lit "null signature\n")]
  | .ed25519Failed => [.text (lit "signature verification failed (ed25519)\n")]
  | .verifyFailed => [.text (lit "signature verification failed\n")]

/-- A part of a program that prints nothing but its complaint. -/
def of : End α → Talk α
  | .failed c => ⟨complaint c, .failed c⟩
  | x => ⟨[], x⟩

end Talk

/-- `usage()` (cmd/keygen/keygen.go:21-24) after the given output. -/
def keygenUsage {α : Type} (before : List Piece) : Talk α :=
  ⟨before ++ [.text (lit "usage: "), .program, .text (lit " t n\nwhere 0 < t < n < 100\n")], .usage⟩

/-- The loop collecting the secret shares (cmd/keygen/keygen.go:109-118). -/
def keygenSecretsTalk (states : GoMap (Option (State G (Keygen.Round G)))) (pub : Public G) :
    List ID → GoMap (SecretShare G) → Talk (GoMap (SecretShare G))
  | [], secrets => pure secrets
  | id :: rest, secrets => do
    let s ← Talk.of (End.deref (states.get? id).join)
    Talk.of (wait s)
    let shareSecret ← Talk.of (End.deref s.round.output.secretKey)
    let sharePublic ← Talk.of (End.deref (pub.shares.get? id))
    Talk.say (lit "Party " ++ ID.marshalText id ++ lit ":\n  secret: " ++ hex shareSecret.secret.bytes ++ lit "\n  public: " ++
      hex (RGroup.bytes sharePublic) ++ lit "\n")
    keygenSecretsTalk states pub rest (secrets.set id shareSecret)

/-- `main` of `cmd/keygen` from line 53 on (cmd/keygen/keygen.go:53-142); the result is what is handed to `WriteFile`. -/
def keygenRunTalk (sha : Sha512) (env : Env) (t n : Int) : Talk (File G) := do
  let partyIDs ← Talk.of (End.orHang (generateSet (size n) 65536))
  let states ← Talk.of (keygenStates (G := G) sha env partyIDs (size t) partyIDs [])
  if n < 0 then Talk.of .crash
  else do
    let (states, msgsOut1) ← Talk.of (stage (Keygen.impl sha) env 0 [] states)
    let (states, msgsOut2) ← Talk.of (stage (Keygen.impl sha) env 1 msgsOut1 states)
    let (states, _) ← Talk.of (stage (Keygen.impl sha) env 2 msgsOut2 states)
    Talk.say (lit "Group Key:\n")
    let id0 ← Talk.of (End.deref partyIDs[0]?)
    let s0 ← Talk.of (End.deref (states.get? id0).join)
    Talk.of (wait s0)
    let pub ← Talk.of (End.deref s0.round.output.pub)
    Talk.say (lit "  " ++ hex (PublicKey.toEd25519 pub.groupKey) ++ lit "\n\n")
    let secrets ← keygenSecretsTalk states pub partyIDs []
    Talk.say (lit "Success: output written to keygenout.json\n")
    return ⟨secrets.map fun (id, s) => (id, some (SecretShare.marshalJSON s)), some (Public.marshalJSON pub)⟩

/-- `main` of `cmd/keygen` (cmd/keygen/keygen.go:26-143) with the arguments after the program name. -/
def keygenTalk (sha : Sha512) (env : Env) (args : List Bytes) : Talk (File G) :=
  match args with
  | [a1, a2] =>
    match atoi a1 with
    | none => keygenUsage [.error, .text (lit "\n")]
    | some t =>
      match atoi a2 with
      | none => keygenUsage [.error, .text (lit "\n")]
      | some n => if n > 100 ∨ t ≥ n then keygenUsage [] else keygenRunTalk sha env t n
  | _ => keygenUsage []

/-- The contents of keygenout.json after a run of `cmd/keygen`, `old` being those before it and `writable` telling whether
`ioutil.WriteFile` succeeds; its error is dropped (cmd/keygen/keygen.go:140).  Simplified: a `WriteFile` that fails leaves the file as it
was, as when it cannot be opened. -/
def keygenFile (sha : Sha512) (env : Env) (writable : Bool) (old : Option Bytes) (args : List Bytes) : Option Bytes :=
  match (keygenTalk (G := G) sha env args).result with
  | .done file => if writable then some (Json.writeFile file) else old
  | _ => old

/-- The loop making the sessions (cmd/signer/signer.go:76-81): an error is noted by an empty line. -/
def signerStatesTalk (sha : Sha512) (env : Env) (partyIDs : IDSlice) (secrets : GoMap (Option (SecretShare G))) (pub : Public G) (message : Bytes) :
    List ID → GoMap (Option (State G (Sign.Round G))) → Talk (GoMap (Option (State G (Sign.Round G))))
  | [], states => pure states
  | id :: rest, states => do
    let secret ← Talk.of (End.deref (secrets.get? id).join)
    match Sign.newSignState sha partyIDs secret pub message 0 (env.now id) with
    | .panic => Talk.of .crash
    | .err _ => do
      Talk.say (lit "\n")
      signerStatesTalk sha env partyIDs secrets pub message rest (states.set id none)
    | .ok s => signerStatesTalk sha env partyIDs secrets pub message rest (states.set id (some s))

/-- `main` of `cmd/signer` from line 56 on (cmd/signer/signer.go:56-128), with what was read from the file. -/
def signerMainTalk (sha : Sha512) (env : Env) (secrets : GoMap (Option (SecretShare G))) (pub : Public G) (message : Bytes) :
    Talk (Signature G) := do
  Talk.say (lit "(t, n) = (" ++ ID.marshalText pub.threshold ++ lit ", " ++ ID.marshalText (IDSlice.N pub.partyIDs) ++ lit ")\n")
  let partyIDs ← Talk.of (End.orHang (generateSet (IDSlice.N pub.partyIDs) 65536))
  let states ← signerStatesTalk sha env partyIDs secrets pub message partyIDs []
  let (states, msgsOut1) ← Talk.of (stage (Sign.impl sha) env 0 [] states)
  let (states, msgsOut2) ← Talk.of (stage (Sign.impl sha) env 1 msgsOut1 states)
  let (states, _) ← Talk.of (stage (Sign.impl sha) env 2 msgsOut2 states)
  let id0 ← Talk.of (End.deref partyIDs[0]?)
  let s0 ← Talk.of (End.deref (states.get? id0).join)
  match s0.round.output.signature with
  | none => Talk.of (.failed .nullSignature)
  | some sig => do
    let ok ← Talk.of (End.ofRes (Ed25519.verify sha (PublicKey.toEd25519 pub.groupKey) message (Signature.toEd25519 sig)))
    if ok = false then Talk.of (.failed .ed25519Failed)
    else do
      let ok ← Talk.of (End.ofRes (PublicKey.verify sha pub.groupKey message sig))
      if ok = false then Talk.of (.failed .verifyFailed)
      else do
        Talk.say (lit "Success: signature is\nr: " ++ hex (RGroup.bytes sig.R) ++ lit "\ns: " ++ hex sig.S.bytes ++ lit "\n")
        return sig

/-- `main` of `cmd/signer` from line 50 on (cmd/signer/signer.go:50-128) for the bytes of the file. -/
def signerTextTalk (sha : Sha512) (env : Env) (ord : MapOrder) (data message : Bytes) : Talk (Signature G) := do
  let keys ← Talk.of (End.ofRes (Json.readFile ord data))
  let pub ← Talk.of (End.deref keys.shares)
  signerMainTalk sha env keys.secrets pub message

/-- `main` of `cmd/signer` (cmd/signer/signer.go:24-129) with the arguments after the program name; `read` gives the bytes of a file,
`none` if it cannot be read. -/
def signerTalk (sha : Sha512) (env : Env) (ord : MapOrder) (read : Bytes → Option Bytes) (args : List Bytes) : Talk (Signature G) :=
  match args with
  | [filename, message] =>
    match read filename with
    | none => Talk.of (.failed .error)
    | some data => signerTextTalk sha env ord data message
  | _ => ⟨[.text (lit "usage: "), .program, .text (lit " <JSON file> message\n")], .usage⟩

end Verif.Cmd
