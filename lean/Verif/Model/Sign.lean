import Verif.Model.State
import Verif.Model.Eddsa
import Verif.Model.Keygen

/-!
`pkg/frost/sign`: the three rounds of signing.
-/

namespace Verif.Sign

variable {G : Type} [RGroup G]

/-- `type Output struct` (pkg/frost/sign/output.go:5-7). -/
structure Output (G : Type) where
  signature : Option (Signature G) := none

/-- Which of the types `round0`, `round1`, `round2` the `Round` value has (pkg/frost/sign/base.go:15-43). -/
inductive Stage
  | r0 | r1 | r2
  deriving DecidableEq

/-- `type signer struct` (pkg/frost/sign/party.go:10-31); `none` is the zero value of an `Element`, which panics when used. -/
structure Signer (G : Type) where
  pub : G
  Di : Option G := none
  Ei : Option G := none
  Ri : Option G := none
  Pi : Scalar := 0
  Zi : Scalar := 0

/-- `type round0 struct` (pkg/frost/sign/base.go:15-37), which all three rounds share by pointer.  `R` starts as the zero value
but is set before it is used; here it starts as the identity. -/
structure Round (G : Type) where
  stage : Stage
  selfID : ID
  partyIDs : IDSlice
  message : Bytes
  parties : GoMap (Signer G)
  groupKey : G
  secretKeyShare : Scalar
  e : Scalar
  d : Scalar
  C : Scalar
  R : G
  hasOutput : Bool
  output : Output G

/-- The loop setting up the parties (pkg/frost/sign/base.go:68-80); a missing share is a nil pointer and panics in
`ScalarMult`. -/
def setupLoop (partyIDs : IDSlice) (shares : GoMap G) : List ID → GoMap (Signer G) → GoRes (GoMap (Signer G))
  | [], m => .ok m
  | id :: ids, m => do
    Outcome.failIf (id = 0) .idZero
    let originalShare := shares.get? id
    let lagrange ← id.lagrange partyIDs
    let share ← Outcome.deref originalShare
    setupLoop partyIDs shares ids (m.set id { pub := lagrange • share })

/-- `NewRound(partyIDs, secret, shares, message)` (pkg/frost/sign/base.go:46-90) for non-nil `secret`, `shares` and
`shares.GroupKey`. -/
def newRound (partyIDs : IDSlice) (secret : SecretShare G) (shares : Public G) (message : Bytes) : GoRes (Round G) := do
  Outcome.failIf (IDSlice.contains partyIDs secret.id = false) .selfNotInParties
  Outcome.failIf (IDSlice.isSubsetOf partyIDs shares.partyIDs = false) .notSubset
  Keygen.newBaseRound secret.id partyIDs
  let parties ← setupLoop partyIDs shares.shares partyIDs []
  let lagrange ← secret.id.lagrange partyIDs
  return { stage := .r0, selfID := secret.id, partyIDs, message, parties, groupKey := shares.groupKey,
           secretKeyShare := lagrange * secret.secret, e := 0, d := 0, C := 0, R := 0, hasOutput := true, output := {} }

/-- `Reset()` (pkg/frost/sign/base.go:92-109; the signers, reset by pkg/frost/sign/party.go:35-46, are deleted). -/
def reset (r : Round G) : Option (Round G) :=
  some { r with message := [], secretKeyShare := 0, e := 0, d := 0, C := 0, R := 0, parties := [], hasOutput := false }

/-- `AcceptedMessageTypes()` (pkg/frost/sign/base.go:111-117). -/
def acceptedMessageTypes : List MsgType := [MsgType.none, MsgType.sign1, MsgType.sign2]

/-- `round0.GenerateMessages()` (pkg/frost/sign/round0.go:13-27); coin 0 is `d`, coin 1 is `e`. -/
def generate0 (coins : Coins) (r : Round G) : Outcome (StateErr × Round G) (Round G × List (Message G)) := do
  let selfParty ← Outcome.deref (r.parties.get? r.selfID)
  let d := coins 0
  let D : G := d • base
  let e := coins 1
  let E : G := e • base
  let r := { r with d := d, e := e, parties := r.parties.set r.selfID { selfParty with Di := some D, Ei := some E } }
  return (r, [Message.newSign1 r.selfID D E])

/-- `round1.ProcessMessage(msg)` (pkg/frost/sign/round1.go:16-26). -/
def process1 (r : Round G) (msg : Option (Message G)) : Outcome (StateErr × Round G) (Round G) := do
  let msg ← Outcome.deref msg
  let id := msg.header.fromID
  let m ← Outcome.deref msg.sign1
  if m.Di = 0 ∨ m.Ei = 0 then .err (.new id .identityCommitment, r)
  else do
    let otherParty ← Outcome.deref (r.parties.get? id)
    return { r with parties := r.parties.set id { otherParty with Di := some m.Di, Ei := some m.Ei } }

/-- `hashDomainSeparation`, the bytes of "FROST-SHA512" (pkg/frost/sign/round1.go:14). -/
def hashDomainSeparation : Bytes := [0x46, 0x52, 0x4f, 0x53, 0x54, 0x2d, 0x53, 0x48, 0x41, 0x35, 0x31, 0x32]

/-- The loop computing B (pkg/frost/sign/round1.go:60-65), appending to `buffer`. -/
def rhoBufferLoop (parties : GoMap (Signer G)) : List ID → Bytes → GoRes Bytes
  | [], buffer => .ok buffer
  | id :: ids, buffer => do
    let otherParty ← Outcome.deref (parties.get? id)
    let D ← Outcome.deref otherParty.Di
    let E ← Outcome.deref otherParty.Ei
    rhoBufferLoop parties ids (buffer ++ id.bytes ++ RGroup.bytes D ++ RGroup.bytes E)

/-- `copy(buffer[offsetID:], id.Bytes())` (pkg/frost/sign/round1.go:69). -/
def overwriteID (buffer : Bytes) (id : ID) : Bytes :=
  buffer.take hashDomainSeparation.length ++ id.bytes ++ buffer.drop (hashDomainSeparation.length + 2)

/-- The loop hashing for every party (pkg/frost/sign/round1.go:67-74); the buffer is changed in place. -/
def rhoLoop (sha : Sha512) : List ID → Bytes → GoMap (Signer G) → GoRes (GoMap (Signer G))
  | [], _, parties => .ok parties
  | id :: ids, buffer, parties => do
    let buffer := overwriteID buffer id
    let digest := sha.sum buffer
    let p ← Outcome.deref (parties.get? id)
    rhoLoop sha ids buffer (parties.set id { p with Pi := (Scalar.setUniformBytes p.Pi digest).1 })

/-- `computeRhos()` (pkg/frost/sign/round1.go:28-75).  `sizeB` (line 38), computed in `uint16`, is only a capacity. -/
def computeRhos (sha : Sha512) (r : Round G) : GoRes (GoMap (Signer G)) := do
  let messageHash := sha.sum r.message
  let buffer := hashDomainSeparation ++ r.selfID.bytes ++ messageHash
  let buffer ← rhoBufferLoop r.parties r.partyIDs buffer
  rhoLoop sha r.partyIDs buffer r.parties

/-- The loop over `round.Parties` computing the `Ri` and `R` (pkg/frost/sign/round1.go:81-89), over the entries in iteration
order. -/
def nonceLoop : List (ID × Signer G) → GoMap (Signer G) → G → GoRes (GoMap (Signer G) × G)
  | [], parties, R => .ok (parties, R)
  | (id, p) :: rest, parties, R => do
    let E ← Outcome.deref p.Ei
    let D ← Outcome.deref p.Di
    let Ri := p.Pi • E + D
    nonceLoop rest (parties.set id { p with Ri := some Ri }) (R + Ri)

/-- `round1.GenerateMessages()` (pkg/frost/sign/round1.go:77-107). -/
def generate1 (sha : Sha512) (ord : MapOrder) (r : Round G) : Outcome (StateErr × Round G) (Round G × List (Message G)) :=
  match computeRhos sha r with
  | .panic => .panic
  | .err e => .err (.new 0 e, r)
  | .ok parties =>
    match nonceLoop (ord.order _ parties) parties 0 with
    | .panic => .panic
    | .err e => .err (.new 0 e, r)
    | .ok (parties, R) =>
      match computeChallenge sha R r.groupKey r.message with
      | .panic => .panic
      | .err e => .err (.new 0 e, r)
      | .ok C =>
        match parties.get? r.selfID with
        | none => .panic
        | some selfParty =>
          let z := r.secretKeyShare * C
          let z := r.e * selfParty.Pi + z
          let z := z + r.d
          .ok ({ r with parties := parties.set r.selfID { selfParty with Zi := z }, R := R, C := C },
            [Message.newSign2 r.selfID z])

/-- `round2.ProcessMessage(msg)` (pkg/frost/sign/round2.go:17-31). -/
def process2 (r : Round G) (msg : Option (Message G)) : Outcome (StateErr × Round G) (Round G) := do
  let msg ← Outcome.deref msg
  let id := msg.header.fromID
  let otherParty ← Outcome.deref (r.parties.get? id)
  let publicNeg := -otherParty.pub
  let m ← Outcome.deref msg.sign2
  let RPrime := r.C • publicNeg + m.Zi • (base : G)
  let Ri ← Outcome.deref otherParty.Ri
  if RPrime ≠ Ri then .err (.new id .badSigShare, r)
  else return { r with parties := r.parties.set id { otherParty with Zi := m.Zi } }

/-- `round2.GenerateMessages()` (pkg/frost/sign/round2.go:33-53). -/
def generate2 (sha : Sha512) (ord : MapOrder) (r : Round G) : Outcome (StateErr × Round G) (Round G × List (Message G)) :=
  let S := (ord.order _ r.parties).foldl (fun S p => S + p.2.Zi) 0
  let sig : Signature G := ⟨r.R, S⟩
  match PublicKey.verify sha r.groupKey r.message sig with
  | .panic => .panic
  | .err e => .err (.new 0 e, r)
  | .ok false => .err (.new 0 .badSignature, r)
  | .ok true => if r.hasOutput = false then .panic else .ok ({ r with output := ⟨some sig⟩ }, [])

/-- The three rounds as a `Round` (`ProcessMessage` and `NextRound`: pkg/frost/sign/round0.go:9-11, pkg/frost/sign/round0.go:29-31,
pkg/frost/sign/round1.go:109-111, pkg/frost/sign/round2.go:55-57; pkg/state/base_round.go:25-35, of which `ProcessMessage` is hidden by those of the rounds). -/
def impl (sha : Sha512) : RoundImpl G (Round G) where
  selfID r := r.selfID
  partyIDs r := r.partyIDs
  acceptedMessageTypes _ := acceptedMessageTypes
  processMessage r msg := match r.stage with
    | .r0 => .ok r
    | .r1 => process1 r msg
    | .r2 => process2 r msg
  generateMessages ord coins r := match r.stage with
    | .r0 => generate0 coins r
    | .r1 => generate1 sha ord r
    | .r2 => generate2 sha ord r
  nextRound r := match r.stage with
    | .r0 => some { r with stage := .r1 }
    | .r1 => some { r with stage := .r2 }
    | .r2 => none
  reset := reset

/-- `frost.NewSignState` (pkg/frost/frost.go:33-41) at time `now`. -/
def newSignState (sha : Sha512) (partyIDs : IDSlice) (secret : SecretShare G) (shares : Public G) (message : Bytes)
    (timeout now : Nat) : GoRes (State G (Round G)) := do
  let r ← newRound partyIDs secret shares message
  return State.newBaseState (impl sha) r timeout now

end Verif.Sign
