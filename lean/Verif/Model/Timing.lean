import Verif.Model.Keygen
import Verif.Model.Sign

/-!
The calls whose running time depends on their arguments: `VarTimeDoubleScalarBaseMult` and `VarTimeMultiScalarMult` (pkg/ristretto/ristretto.go:380-402).
The functions that contain such calls are modelled again, with a log of the calls.  All other operations on scalars and points are those that the code
and its dependency document to take the same time for all values of their arguments (pkg/ristretto/ristretto.go:353-378); they are not logged.
-/

namespace Verif

variable {G : Type} [RGroup G]

/-- A call with its arguments: `VarTimeDoubleScalarBaseMult(a, A, b)` (pkg/ristretto/ristretto.go:395-402) or `VarTimeMultiScalarMult(s, p)`
(pkg/ristretto/ristretto.go:380-393). -/
inductive VarTime (G : Type)
  | double (a : Scalar) (A : G) (b : Scalar)
  | multi (s : List Scalar) (p : List G)
  deriving DecidableEq

/-- What a function of the code returns and the calls it made, in order.  Models no code of its own; it is the log added to `Outcome`. -/
structure Timed (G ε α : Type) where
  log : List (VarTime G)
  result : Outcome ε α

namespace Timed

variable {ε α β : Type}

/-- Code without such calls.  Models no code of its own. -/
def of (x : Outcome ε α) : Timed G ε α := ⟨[], x⟩

/-- One statement after the other: the second is not reached if the first returns an error or panics.  Models no code of its own. -/
def andThen (x : Timed G ε α) (f : α → Timed G ε β) : Timed G ε β :=
  match x.result with
  | .ok a => ⟨x.log ++ (f a).log, (f a).result⟩
  | .err e => ⟨x.log, .err e⟩
  | .panic => ⟨x.log, .panic⟩

instance : Monad (Timed G ε) where
  pure a := of (.ok a)
  bind := andThen

/-- `VarTimeDoubleScalarBaseMult(a, A, b)` (pkg/ristretto/ristretto.go:395-402). -/
def double (a : Scalar) (A : G) (b : Scalar) : Timed G ε G := ⟨[.double a A b], .ok (a • A + b • base)⟩

/-- `VarTimeMultiScalarMult(s, p)` (pkg/ristretto/ristretto.go:380-393).  On different lengths it panics without having called the dependency. -/
def multi (s : List Scalar) (p : List G) : Timed G GoErr G :=
  if p.length ≠ s.length then ⟨[], .panic⟩ else ⟨[.multi s p], Exponent.multiScalarMult s p⟩

/-- `Keygen.lift` with the log: a call inside a method that returns `*state.Error`.  Models no code of its own. -/
def lift {R : Type} (r : R) (x : Timed G GoErr α) : Timed G (StateErr × R) α :=
  match x.result with
  | .ok a => ⟨x.log, .ok a⟩
  | .err e => ⟨x.log, .err (.new 0 e, r)⟩
  | .panic => ⟨x.log, .panic⟩

/-- The log of a session `l` continued by that of a call of one of its round's methods.  Models no code of its own. -/
def keep {R : Type} (l : List (VarTime G)) (x : Timed G (StateErr × R) R) : Outcome (StateErr × (R × List (VarTime G))) (R × List (VarTime G)) :=
  match x.result with
  | .ok r => .ok (r, l ++ x.log)
  | .err (e, r) => .err (e, (r, l ++ x.log))
  | .panic => .panic

/-- The same for `GenerateMessages`.  Models no code of its own. -/
def keepOut {R : Type} (l : List (VarTime G)) (x : Timed G (StateErr × R) (R × List (Message G))) :
    Outcome (StateErr × (R × List (VarTime G))) ((R × List (VarTime G)) × List (Message G)) :=
  match x.result with
  | .ok (r, out) => .ok ((r, l ++ x.log), out)
  | .err (e, r) => .err (e, (r, l ++ x.log))
  | .panic => .panic

/-- A `Round` whose object also has the log of the calls made so far.  Models no code of its own. -/
def impl {R : Type} (impl : RoundImpl G R) (process : R → Option (Message G) → Timed G (StateErr × R) R)
    (generate : MapOrder → Coins → R → Timed G (StateErr × R) (R × List (Message G))) : RoundImpl G (R × List (VarTime G)) where
  selfID r := impl.selfID r.1
  partyIDs r := impl.partyIDs r.1
  acceptedMessageTypes r := impl.acceptedMessageTypes r.1
  processMessage r msg := keep r.2 (process r.1 msg)
  generateMessages ord coins r := keepOut r.2 (generate ord coins r.1)
  nextRound r := (impl.nextRound r.1).map fun r' => (r', r.2)
  reset r := (impl.reset r.1).map fun r' => (r', r.2)

end Timed

/-- `evaluateVar` with the log (pkg/internal/polynomial/exponent.go:60-82), which is what `Evaluate` calls
(pkg/internal/polynomial/exponent.go:30-35). -/
def Exponent.evaluateTimed (p : Exponent G) (index : Scalar) : Timed G GoErr G :=
  if index = 0 then .of .panic
  else Timed.multi (powersFrom index p.length 0 0) p

/-- The loop calling `Evaluate` for every party (pkg/frost/keygen/round2.go:33-35) with the log. -/
def Exponent.evaluateMultiTimed (p : Exponent G) : List ID → GoMap G → Timed G GoErr (GoMap G)
  | [], m => .of (.ok m)
  | id :: ids, m => do
    let x ← .of id.scalar
    let e ← evaluateTimed p x
    evaluateMultiTimed p ids (m.set id e)

/-- `Verify(partyID, public, context)` of a Schnorr proof with the log (pkg/internal/zk/schnorr.go:59-69). -/
def Schnorr.verifyTimed (sha : Sha512) (proof : Schnorr) (partyID : ID) (pub : G) (context : Bytes) : Timed G GoErr Bool := do
  let publicNeg := -pub
  let MPrime ← Timed.double proof.S publicNeg proof.R
  let SPrime ← .of (challenge sha partyID context pub MPrime)
  return decide (proof.S = SPrime)

/-- `Verify(message, sig)` of a public key with the log (pkg/eddsa/public_key.go:22-31). -/
def PublicKey.verifyTimed (sha : Sha512) (pk : G) (message : Bytes) (sig : Signature G) : Timed G GoErr Bool := do
  let challenge ← .of (computeChallenge sha sig.R pk message)
  let publicNeg := -pk
  let RPrime ← Timed.double challenge publicNeg sig.S
  return decide (RPrime = sig.R)

namespace Keygen

/-- `round1.ProcessMessage(msg)` with the log (pkg/frost/keygen/round1.go:10-25). -/
def process1Timed (sha : Sha512) (r : Round G) (msg : Option (Message G)) : Timed G (StateErr × Round G) (Round G) := do
  let msg ← .of (Outcome.deref msg)
  let sender := msg.header.fromID
  let k ← .of (Outcome.deref msg.keyGen1)
  let pub ← .of (lift r (Exponent.constant k.commitments))
  let valid ← Timed.lift r (Schnorr.verifyTimed sha k.proof sender pub ctx)
  if valid = false then .of (.err (.new sender .zkFailed, r))
  else do
    let sum ← .of (Outcome.deref r.commitmentsSum)
    let sum := match Exponent.add sum k.commitments with
      | .ok s => s
      | _ => sum
    return { r with commitments := r.commitments.set sender k.commitments, commitmentsSum := some sum }

/-- `round2.ProcessMessage(msg)` with the log (pkg/frost/keygen/round2.go:13-29). -/
def process2Timed (r : Round G) (msg : Option (Message G)) : Timed G (StateErr × Round G) (Round G) := do
  let msg ← .of (Outcome.deref msg)
  let k ← .of (Outcome.deref msg.keyGen2)
  let computedShareExp : G := k.share • base
  let id := msg.header.fromID
  let commitment ← .of (Outcome.deref (r.commitments.get? id))
  let x ← .of (lift r r.selfID.scalar)
  let shareExp ← Timed.lift r (Exponent.evaluateTimed commitment x)
  if computedShareExp ≠ shareExp then .of (.err (.new id .vssFailed, r))
  else return { r with secret := r.secret + k.share }

/-- `round2.GenerateMessages()` with the log (pkg/frost/keygen/round2.go:31-44). -/
def generate2Timed (r : Round G) : Timed G (StateErr × Round G) (Round G × List (Message G)) := do
  let sum ← .of (Outcome.deref r.commitmentsSum)
  let shares ← Timed.lift r (Exponent.evaluateMultiTimed sum r.partyIDs [])
  let groupKey ← .of (lift r (Exponent.constant sum))
  if r.hasOutput = false then .of .panic
  else return ({ r with output := { pub := some ⟨r.partyIDs.copy, r.threshold, shares, groupKey⟩,
                                    secretKey := some (SecretShare.new r.selfID r.secret) } }, [])

/-- The rounds of key generation with the log.  `round0` and `round1.GenerateMessages` (pkg/frost/keygen/round0.go:11-40,
pkg/frost/keygen/round1.go:27-41) make no such call: they use `ScalarBaseMult` (pkg/internal/polynomial/exponent.go:24,
pkg/internal/zk/schnorr.go:46) and arithmetic on scalars. -/
def timedImpl (sha : Sha512) : RoundImpl G (Round G × List (VarTime G)) :=
  Timed.impl (impl sha)
    (fun r msg => match r.stage with
      | .r0 => .of (.ok r)
      | .r1 => process1Timed sha r msg
      | .r2 => process2Timed r msg)
    (fun _ coins r => match r.stage with
      | .r0 => .of (generate0 sha coins r)
      | .r1 => .of (generate1 r)
      | .r2 => generate2Timed r)

end Keygen

namespace Sign

/-- `round2.ProcessMessage(msg)` with the log (pkg/frost/sign/round2.go:17-31). -/
def process2Timed (r : Round G) (msg : Option (Message G)) : Timed G (StateErr × Round G) (Round G) := do
  let msg ← .of (Outcome.deref msg)
  let id := msg.header.fromID
  let otherParty ← .of (Outcome.deref (r.parties.get? id))
  let publicNeg := -otherParty.pub
  let m ← .of (Outcome.deref msg.sign2)
  let RPrime ← Timed.double r.C publicNeg m.Zi
  let Ri ← .of (Outcome.deref otherParty.Ri)
  if RPrime ≠ Ri then .of (.err (.new id .badSigShare, r))
  else return { r with parties := r.parties.set id { otherParty with Zi := m.Zi } }

/-- `round2.GenerateMessages()` with the log (pkg/frost/sign/round2.go:33-53). -/
def generate2Timed (sha : Sha512) (ord : MapOrder) (r : Round G) : Timed G (StateErr × Round G) (Round G × List (Message G)) := do
  let S := (ord.order _ r.parties).foldl (fun S p => S + p.2.Zi) 0
  let sig : Signature G := ⟨r.R, S⟩
  let valid ← Timed.lift r (PublicKey.verifyTimed sha r.groupKey r.message sig)
  if valid = false then .of (.err (.new 0 .badSignature, r))
  else if r.hasOutput = false then .of .panic
  else return ({ r with output := ⟨some sig⟩ }, [])

/-- The rounds of signing with the log.  `round0` and `round1` (pkg/frost/sign/round0.go:9-27, pkg/frost/sign/round1.go:16-107) make no such call:
they use `ScalarBaseMult` (pkg/frost/sign/round0.go:18-22), `ScalarMult` (pkg/frost/sign/round1.go:84) and arithmetic on scalars. -/
def timedImpl (sha : Sha512) : RoundImpl G (Round G × List (VarTime G)) :=
  Timed.impl (impl sha)
    (fun r msg => match r.stage with
      | .r0 => .of (.ok r)
      | .r1 => .of (process1 r msg)
      | .r2 => process2Timed r msg)
    (fun ord coins r => match r.stage with
      | .r0 => .of (generate0 coins r)
      | .r1 => .of (generate1 sha ord r)
      | .r2 => generate2Timed sha ord r)

end Sign

end Verif
