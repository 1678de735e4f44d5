import Verif.Model.State
import Verif.Model.Eddsa

/-!
`pkg/frost/keygen`: the three rounds of key generation.
-/

namespace Verif.Keygen

variable {G : Type} [RGroup G]

/-- `type Output struct` (pkg/frost/keygen/output.go:5-8). -/
structure Output (G : Type) where
  pub : Option (Public G) := none
  secretKey : Option (SecretShare G) := none

/-- Which of the types `round0`, `round1`, `round2` the `Round` value has (pkg/frost/keygen/base.go:14-42). -/
inductive Stage
  | r0 | r1 | r2
  deriving DecidableEq

/-- `type round0 struct` (pkg/frost/keygen/base.go:14-36), which all three rounds share by pointer.  `hasOutput` tells whether
`round.Output` is non-nil; `output` is the object it was made to point to, which the caller of `NewRound` holds as well. -/
structure Round (G : Type) where
  stage : Stage
  selfID : ID
  partyIDs : IDSlice
  threshold : UInt16
  secret : Scalar
  polynomial : Option Poly
  commitmentsSum : Option (Exponent G)
  commitments : GoMap (Exponent G)
  hasOutput : Bool
  output : Output G

/-- `NewBaseRound(selfID, partyIDs)` (pkg/state/base_round.go:15-23), the check. -/
def newBaseRound (selfID : ID) (partyIDs : IDSlice) : GoRes Unit :=
  Outcome.failIf (IDSlice.contains partyIDs selfID = false) .selfNotInParties

/-- `NewRound(selfID, partyIDs, threshold)` (pkg/frost/keygen/base.go:45-68); `N-1` is computed in `uint16`. -/
def newRound (selfID : ID) (partyIDs : IDSlice) (threshold : UInt16) : GoRes (Round G) := do
  Outcome.failIf (threshold = 0) .thresholdZero
  Outcome.failIf (threshold > IDSlice.N partyIDs - 1) .thresholdTooLarge
  newBaseRound selfID partyIDs
  return { stage := .r0, selfID, partyIDs, threshold, secret := 0, polynomial := none, commitmentsSum := none,
           commitments := [], hasOutput := true, output := {} }

/-- `Reset()` (pkg/frost/keygen/base.go:70-78); `none` is a panic: `Polynomial` or `CommitmentsSum` is nil. -/
def reset (r : Round G) : Option (Round G) := do
  let p ← r.polynomial
  let c ← r.commitmentsSum
  some { r with secret := 0, polynomial := some p.reset, commitmentsSum := some (Exponent.reset c),
                commitments := r.commitments.map fun (id, e) => (id, Exponent.reset e), hasOutput := false }

/-- `AcceptedMessageTypes()` (pkg/frost/keygen/base.go:84-86). -/
def acceptedMessageTypes : List MsgType := [MsgType.none, MsgType.keyGen1, MsgType.keyGen2]

/-- `ctx := make([]byte, 32)` (pkg/frost/keygen/round0.go:28, round1.go:12). -/
def ctx : Bytes := List.replicate 32 0

/-- An error-free call inside a method that returns `*state.Error`: `err` does not occur (none of the callees returns one). -/
def lift {α : Type} (r : Round G) : GoRes α → Outcome (StateErr × Round G) α
  | .ok a => .ok a
  | .err e => .err (.new 0 e, r)
  | .panic => .panic

/-- `round0.GenerateMessages()` (pkg/frost/keygen/round0.go:15-40).  Coin 0 is the secret, coins 1 to `threshold` the other
coefficients, coin `threshold + 1` the nonce of the proof. -/
def generate0 (sha : Sha512) (coins : Coins) (r : Round G) : Outcome (StateErr × Round G) (Round G × List (Message G)) := do
  let secret := coins 0
  let poly ← lift r (Poly.new r.threshold secret fun i => coins (i + 1))
  let sum : Exponent G := Exponent.ofPoly poly
  let pub ← lift r (Exponent.constant sum)
  let proof ← lift r (Schnorr.new sha r.selfID pub ctx secret (coins (r.threshold.toNat + 1)))
  let x ← lift r r.selfID.scalar
  let share ← lift r (Poly.evaluate poly x)
  let r := { r with secret := share, polynomial := some poly, commitmentsSum := some sum }
  return (r, [Message.newKeyGen1 r.selfID proof sum])

/-- `round1.ProcessMessage(msg)` (pkg/frost/keygen/round1.go:10-25). -/
def process1 (sha : Sha512) (r : Round G) (msg : Option (Message G)) : Outcome (StateErr × Round G) (Round G) := do
  let msg ← Outcome.deref msg
  let sender := msg.header.fromID
  let k ← Outcome.deref msg.keyGen1
  let pub ← lift r (Exponent.constant k.commitments)
  let valid ← lift r (Schnorr.verify sha k.proof sender pub ctx)
  if valid = false then .err (.new sender .zkFailed, r)
  else do
    let sum ← Outcome.deref r.commitmentsSum
    let sum := match Exponent.add sum k.commitments with
      | .ok s => s
      | _ => sum
    return { r with commitments := r.commitments.set sender k.commitments, commitmentsSum := some sum }

/-- The loop of `round1.GenerateMessages()` (pkg/frost/keygen/round1.go:29-34). -/
def generate1Loop (selfID : ID) (poly : Poly) : List ID → GoRes (List (Message G))
  | [] => .ok []
  | id :: ids =>
    if id = selfID then generate1Loop selfID poly ids
    else do
      let x ← id.scalar
      let share ← Poly.evaluate poly x
      let rest ← generate1Loop selfID poly ids
      return Message.newKeyGen2 selfID id share :: rest

/-- `round1.GenerateMessages()` (pkg/frost/keygen/round1.go:27-41). -/
def generate1 (r : Round G) : Outcome (StateErr × Round G) (Round G × List (Message G)) := do
  let poly ← Outcome.deref r.polynomial
  let out ← lift r (generate1Loop r.selfID poly r.partyIDs)
  return ({ r with polynomial := some poly.reset }, out)

/-- `round2.ProcessMessage(msg)` (pkg/frost/keygen/round2.go:13-29).  Line 26 zeroes the share inside the message, which the
driver drops right afterwards; the effect on a caller that keeps the message is in `Verif/Model/Heap.lean`. -/
def process2 (r : Round G) (msg : Option (Message G)) : Outcome (StateErr × Round G) (Round G) := do
  let msg ← Outcome.deref msg
  let k ← Outcome.deref msg.keyGen2
  let computedShareExp : G := k.share • base
  let id := msg.header.fromID
  let commitment ← Outcome.deref (r.commitments.get? id)
  let x ← lift r r.selfID.scalar
  let shareExp ← lift r (Exponent.evaluate commitment x)
  if computedShareExp ≠ shareExp then .err (.new id .vssFailed, r)
  else return { r with secret := r.secret + k.share }

/-- `round2.GenerateMessages()` (pkg/frost/keygen/round2.go:31-44). -/
def generate2 (r : Round G) : Outcome (StateErr × Round G) (Round G × List (Message G)) := do
  let sum ← Outcome.deref r.commitmentsSum
  let shares ← lift r (Exponent.evaluateMulti sum r.partyIDs [])
  let groupKey ← lift r (Exponent.constant sum)
  if r.hasOutput = false then .panic
  else return ({ r with output := { pub := some ⟨r.partyIDs.copy, r.threshold, shares, groupKey⟩,
                                    secretKey := some (SecretShare.new r.selfID r.secret) } }, [])

/-- The three rounds as a `Round` (`ProcessMessage` and `NextRound`: pkg/frost/keygen/round0.go:11-13, pkg/frost/keygen/round0.go:42-44,
pkg/frost/keygen/round1.go:43-45, pkg/frost/keygen/round2.go:46-48; pkg/state/base_round.go:29-35).  `MessageType`
(pkg/frost/keygen/round1.go:47-49, pkg/frost/keygen/round2.go:50-52) is not part of the interface and nothing calls it. -/
def impl (sha : Sha512) : RoundImpl G (Round G) where
  selfID r := r.selfID
  partyIDs r := r.partyIDs
  acceptedMessageTypes _ := acceptedMessageTypes
  processMessage r msg := match r.stage with
    | .r0 => .ok r
    | .r1 => process1 sha r msg
    | .r2 => process2 r msg
  generateMessages _ coins r := match r.stage with
    | .r0 => generate0 sha coins r
    | .r1 => generate1 r
    | .r2 => generate2 r
  nextRound r := match r.stage with
    | .r0 => some { r with stage := .r1 }
    | .r1 => some { r with stage := .r2 }
    | .r2 => none
  reset := reset

/-- `frost.NewKeygenState` (pkg/frost/frost.go:16-28) at time `now`. -/
def newKeygenState (sha : Sha512) (selfID : ID) (partyIDs : IDSlice) (threshold : UInt16) (timeout now : Nat) :
    GoRes (State G (Round G)) := do
  let r ← newRound selfID partyIDs threshold
  return State.newBaseState (impl sha) r timeout now

end Verif.Keygen
