import Verif.Model.Cmd

/-!
The two integration tests, test/keygen_test.go and test/sign_test.go, with test/common.go, as functions of the implementation that they test.

`t.Error` notes that the test failed, and goes on.  So a test that ends is a Boolean: whether nothing was noted.
-/

namespace Verif.Integration

open Verif Verif.Cmd

variable {G R : Type} [RGroup G]

/-- An implementation of a protocol as the tests see it: the constructor (`frost.NewKeygenState`, `frost.NewSignState`, pkg/frost/frost.go:16-41), the
methods of the rounds, and the output, which the round points to. -/
structure Impl (G R O : Type) where
  new : ID → GoRes (State G R)
  impl : RoundImpl G R
  output : R → O

/-- `for _, s := range states { msgs, err := helpers.PartyRoutine(in, s); if err != nil { t.Error(err) }; out = append(out, msgs...) }`
(test/keygen_test.go:37-43, 45-51, 53-58; test/sign_test.go:41-47, 51-57, 61-66): unlike `Cmd.stageLoop` it goes on after an error, when no messages
are returned.  `ok` tells whether there was no error so far. -/
def testLoop (impl : RoundImpl G R) (order : ID → MapOrder) (coins : ID → Coins) (ins : List Bytes) :
    List ID → GoMap (Option (State G R)) → List Bytes → Bool → End (GoMap (Option (State G R)) × List Bytes × Bool)
  | [], states, out, ok => .done (states, out, ok)
  | id :: rest, states, out, ok =>
    match (states.get? id).join with
    | none => .crash
    | some s =>
      match partyRoutine impl (order id) (coins id) ins s with
      | none => .crash
      | some (s', .error _) => testLoop impl order coins ins rest (states.set id (some s')) out false
      | some (s', .ok msgs) => testLoop impl order coins ins rest (states.set id (some s')) (out ++ msgs) ok

/-- The `k`-th of the three loops. -/
def testStage (impl : RoundImpl G R) (env : Env) (k : Nat) (ins : List Bytes) (states : GoMap (Option (State G R))) (ok : Bool) :
    End (GoMap (Option (State G R)) × List Bytes × Bool) :=
  testLoop impl (env.order k) (env.coins k) ins ((env.range k).order _ states).keys states [] ok

/-- `if err := s.WaitForError(); err != nil { t.Error(err) }` (test/keygen_test.go:61-63, 68-70; test/sign_test.go:83-85): whether there was no error. -/
def noError (s : State G R) : End Bool :=
  match s.waitForError with
  | none => .hang
  | some (some _) => .done false
  | some none => .done true

/-- The loop of `CompareOutput` (test/keygen_test.go:94-104): the slices have the same length; a missing share is a nil pointer. -/
def compareLoop (pub1 pub2 : Public G) : List ID → List ID → GoRes Bool
  | id1 :: rest1, id2 :: rest2 =>
    if id1 ≠ id2 then .ok false
    else do
      let public1 ← Outcome.deref (pub1.shares.get? id1)
      let public2 ← Outcome.deref (pub2.shares.get? id2)
      if public1 ≠ public2 then return false else compareLoop pub1 pub2 rest1 rest2
  | _, _ => .ok true

/-- `CompareOutput` (test/keygen_test.go:84-116); `true` for a nil error. -/
def compareOutput (groupKey1 groupKey2 : G) (publicShares1 publicShares2 : Public G) : GoRes Bool := do
  let eq ← Public.equal publicShares1 publicShares2
  if eq = false then return false
  else if publicShares1.partyIDs.length ≠ publicShares2.partyIDs.length then return false
  else do
    let same ← compareLoop publicShares1 publicShares2 publicShares1.partyIDs publicShares2.partyIDs
    if same = false then return false
    else if PublicKey.equal groupKey1 publicShares1.groupKey = false then return false
    else if PublicKey.equal groupKey2 publicShares2.groupKey = false then return false
    else return true

/-- The loop of `ValidateSecrets` (test/keygen_test.go:121-137) over the entries in the order of iteration: `none` for an error; a nil share
crashes. -/
def validateLoop (shares : Public G) : List (ID × Option (SecretShare G)) → Scalar → GoRes (Option Scalar)
  | [], fullSecret => .ok (some fullSecret)
  | (id, secret) :: rest, fullSecret => do
    let secret ← Outcome.deref secret
    match shares.shares.get? id with
    | none => return none
    | some pk2 =>
      if secret.pub ≠ pk2 then return none
      else match ID.lagrange id shares.partyIDs with
        | .panic => .panic
        | .err _ => return none
        | .ok lagrange => validateLoop shares rest (lagrange * secret.secret + fullSecret)

/-- `ValidateSecrets` (test/keygen_test.go:118-145); `true` for a nil error. -/
def validateSecrets (ord : MapOrder) (secrets : GoMap (Option (SecretShare G))) (groupKey : G) (shares : Public G) : GoRes Bool := do
  let full ← validateLoop shares (ord.order _ secrets) 0
  match full with
  | none => return false
  | some fullSecret => return PublicKey.equal groupKey (fullSecret • (base : G))

/-- The loop making the sessions of `TestKeygen` (test/keygen_test.go:25-32): an error ends the test. -/
def keygenStates {O : Type} (P : Impl G R O) : List ID → GoMap (Option (State G R)) → End (Option (GoMap (Option (State G R))))
  | [], states => .done (some states)
  | id :: rest, states =>
    match P.new id with
    | .panic => .crash
    | .err _ => .done none
    | .ok s => keygenStates P rest (states.set id (some s))

/-- The loop comparing the outputs (test/keygen_test.go:67-77): the secret shares, and whether there was no error.  A nil `Public` crashes. -/
def keygenCompare (P : Impl G R (Keygen.Output G)) (states : GoMap (Option (State G R))) (pub1 : Public G) :
    List ID → GoMap (Option (SecretShare G)) → Bool → End (GoMap (Option (SecretShare G)) × Bool)
  | [], secrets, ok => .done (secrets, ok)
  | id2 :: rest, secrets, ok => do
    let s ← End.deref (states.get? id2).join
    let finished ← noError s
    let pub2 ← End.deref (P.output s.round).pub
    let same ← End.ofRes (compareOutput pub1.groupKey pub2.groupKey pub1 pub2)
    keygenCompare P states pub1 rest (secrets.set id2 (P.output s.round).secretKey) (ok && finished && same)

/-- `TestKeygen` (test/keygen_test.go:16-82) with `N` parties (50 in the code) of the implementation `P`, which has the threshold in it.  `ord` is the order of
iteration in `ValidateSecrets`. -/
def testKeygen (P : Impl G R (Keygen.Output G)) (env : Env) (ord : MapOrder) (N : UInt16) : End Bool := do
  let partyIDs ← End.orHang (generateSet N 65536)
  let states ← keygenStates P partyIDs []
  match states with
  | none => .done false
  | some states => do
    let (states, msgsOut1, ok) ← testStage P.impl env 0 [] states true
    let (states, msgsOut2, ok) ← testStage P.impl env 1 msgsOut1 states ok
    let (states, _, ok) ← testStage P.impl env 2 msgsOut2 states ok
    let id1 ← End.deref partyIDs[0]?
    let s1 ← End.deref (states.get? id1).join
    let finished ← noError s1
    let pub1 ← End.deref (P.output s1.round).pub
    let (secrets, ok) ← keygenCompare P states pub1 partyIDs [] (ok && finished)
    let valid ← End.ofRes (validateSecrets ord secrets pub1.groupKey pub1)
    return ok && valid

/-- `frost.NewKeygenState(id, partyIDs, T, 0)` and its rounds, as `TestKeygen` uses them (test/keygen_test.go:20, 27). -/
def keygenImpl (sha : Sha512) (env : Env) (partyIDs : IDSlice) (T : UInt16) : Impl G (Keygen.Round G) (Keygen.Output G) where
  new id := Keygen.newKeygenState sha id partyIDs T 0 (env.now id)
  impl := Keygen.impl sha
  output r := r.output

/-- `setupParties(t, n)` (test/common.go:11-17) without `partyIDs`: the signers, the secret shares and the public data. -/
def setupParties (ord : MapOrder) (coins : Coins) (t n : UInt16) : End (IDSlice × GoMap (SecretShare G) × Public G) := do
  let partyIDs ← End.orHang (generateSet n 65536)
  let (_, secretShares) ← End.ofRes (generateSecrets partyIDs t coins)
  let publicShares ← End.ofRes (generatePublic ord t secretShares)
  if (t + 1).toNat ≤ partyIDs.length then .done (partyIDs.take (t + 1).toNat, secretShares, publicShares) else .crash

/-- The loop making the sessions of `TestSign` (test/sign_test.go:29-35): an error is noted and leaves a nil session. -/
def signStates {O : Type} (P : Impl G R O) : List ID → GoMap (Option (State G R)) → Bool → End (GoMap (Option (State G R)) × Bool)
  | [], states, ok => .done (states, ok)
  | id :: rest, states, ok =>
    match P.new id with
    | .panic => .crash
    | .err _ => signStates P rest (states.set id none) false
    | .ok s => signStates P rest (states.set id (some s)) ok

/-- The loop comparing the signatures (test/sign_test.go:82-100): a nil signature crashes. -/
def signCompare (P : Impl G R (Sign.Output G)) (states : GoMap (Option (State G R))) (sig : Signature G) : List ID → Bool → End Bool
  | [], ok => .done ok
  | id :: rest, ok => do
    let s ← End.deref (states.get? id).join
    let finished ← noError s
    let comparedSig ← End.deref (P.output s.round).signature
    signCompare P states sig rest (ok && finished && decide (sig.marshalBinary = comparedSig.marshalBinary))

/-- `TestSign` (test/sign_test.go:17-101) after `setupParties`, for the implementation `P` that has the keys and the message in it.  If party 1 has no
signature the test ends there.  `range` is the order of iteration in the last loop. -/
def testSignWith (sha : Sha512) (P : Impl G R (Sign.Output G)) (env : Env) (ord : MapOrder) (signSet : IDSlice) (pk : G) (message : Bytes) : End Bool := do
  let (states, ok) ← signStates P signSet [] true
  let (states, msgsOut1, ok) ← testStage P.impl env 0 [] states ok
  let (states, msgsOut2, ok) ← testStage P.impl env 1 msgsOut1 states ok
  let (states, _, ok) ← testStage P.impl env 2 msgsOut2 states ok
  let s1 ← End.deref (states.get? 1).join
  match (P.output s1.round).signature with
  | none => .done ok
  | some sig => do
    let ok1 ← End.ofRes (Ed25519.verify sha (PublicKey.toEd25519 pk) message (Signature.toEd25519 sig))
    let ok2 ← End.ofRes (PublicKey.verify sha pk message sig)
    signCompare P states sig (ord.order _ states).keys (ok && ok1 && ok2)

/-- `frost.NewSignState(signSet, secretShares[id], publicShares, MESSAGE, 0)` and its rounds, as `TestSign` uses them (test/sign_test.go:31); a missing share is
a nil pointer. -/
def signImpl (sha : Sha512) (env : Env) (signSet : IDSlice) (secretShares : GoMap (SecretShare G)) (publicShares : Public G) (message : Bytes) :
    Impl G (Sign.Round G) (Sign.Output G) where
  new id := match secretShares.get? id with
    | none => .panic
    | some secret => Sign.newSignState sha signSet secret publicShares message 0 (env.now id)
  impl := Sign.impl sha
  output r := r.output

/-- `TestSign` (test/sign_test.go:17-101) with threshold `T` and `N` parties (49 and 50 in the code) and any message ("Hello Everybody" in the code). -/
def testSign (sha : Sha512) (env : Env) (ord ord' : MapOrder) (coins : Coins) (T N : UInt16) (message : Bytes) : End Bool := do
  let (signSet, secretShares, publicShares) ← setupParties (G := G) ord coins T N
  testSignWith sha (signImpl sha env signSet secretShares publicShares message) env ord' signSet publicShares.groupKey message

end Verif.Integration
