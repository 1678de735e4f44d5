import Verif.Model.ErrorValue
import Verif.Model.Sign

/-!
The constructors of sessions and of public keys, followed once more with the errors they return (see `Verif/Model/ErrorValue.lean`).
-/

namespace Verif

open Verif.Cmd (lit)

variable {G : Type} [RGroup G]

/-- `(id ID) Lagrange(partyIDs)` (pkg/frost/party/id.go:113-154) with its errors. -/
def ID.lagrangeE (id : ID) (partyIDs : List ID) : Outcome ErrVal Scalar := do
  Outcome.failIf (id = 0) (.new (lit "party.ID: Lagrange: id was 0 (invalid)"))
  let xJ ← Outcome.noErr id.scalar
  let (num, denum, found) ← Outcome.noErr (ID.lagrangeLoop id xJ partyIDs (1, 1, false))
  Outcome.failIf (found = false) (.new (lit "party.ID: Lagrange: partyIDs does not containd id"))
  Outcome.failIf (denum = 0) (.new (lit "party.ID: Lagrange: denominator was 0"))
  return num * denum⁻¹

/-- `NewBaseRound(selfID, partyIDs)` (pkg/state/base_round.go:15-23), the check, with its error. -/
def Keygen.newBaseRoundE (selfID : ID) (partyIDs : IDSlice) : Outcome ErrVal Unit :=
  Outcome.failIf (IDSlice.contains partyIDs selfID = false) (.new (lit "PartyIDs should contain selfID"))

/-- `NewRound(selfID, partyIDs, threshold)` (pkg/frost/keygen/base.go:45-68) with its errors. -/
def Keygen.newRoundE (selfID : ID) (partyIDs : IDSlice) (threshold : UInt16) : Outcome ErrVal (Keygen.Round G) := do
  Outcome.failIf (threshold = 0) (.new (lit "threshold must be at least 1, or a minimum of T+1=2 signers"))
  Outcome.failIf (threshold > IDSlice.N partyIDs - 1) (.new (lit "threshold must be at most N-1, or a maximum of T+1=N signers"))
  Keygen.newBaseRoundE selfID partyIDs
  return { stage := .r0, selfID, partyIDs, threshold, secret := 0, polynomial := none, commitmentsSum := none,
           commitments := [], hasOutput := true, output := {} }

/-- `frost.NewKeygenState` (pkg/frost/frost.go:16-28) with its errors; `NewBaseState` (pkg/state/state.go:36-58) returns none. -/
def Keygen.newKeygenStateE (sha : Sha512) (selfID : ID) (partyIDs : IDSlice) (threshold : UInt16) (timeout now : Nat) :
    Outcome ErrVal (State G (Keygen.Round G)) := do
  let r ← Keygen.newRoundE selfID partyIDs threshold
  return State.newBaseState (Keygen.impl sha) r timeout now

/-- The loop setting up the parties (pkg/frost/sign/base.go:68-80) with its errors. -/
def Sign.setupLoopE (partyIDs : IDSlice) (shares : GoMap G) : List ID → GoMap (Sign.Signer G) → Outcome ErrVal (GoMap (Sign.Signer G))
  | [], m => .ok m
  | id :: ids, m => do
    Outcome.failIf (id = 0) (.new (lit "base.NewRound: id 0 is not valid"))
    let originalShare := shares.get? id
    let lagrange ← Outcome.wrapErr "base.NewRound: " (id.lagrangeE partyIDs)
    let share ← Outcome.deref originalShare
    Sign.setupLoopE partyIDs shares ids (m.set id { pub := lagrange • share })

/-- `NewRound(partyIDs, secret, shares, message)` (pkg/frost/sign/base.go:46-90) for non-nil arguments, with its errors. -/
def Sign.newRoundE (partyIDs : IDSlice) (secret : SecretShare G) (shares : Public G) (message : Bytes) : Outcome ErrVal (Sign.Round G) := do
  Outcome.failIf (IDSlice.contains partyIDs secret.id = false)
    (.new (lit "base.NewRound: owner of SecretShare is not contained in partyIDs"))
  Outcome.failIf (IDSlice.isSubsetOf partyIDs shares.partyIDs = false)
    (.new (lit "base.NewRound: not all parties of partyIDs are contained in shares"))
  Outcome.wrapErr "base.NewRound: " (Keygen.newBaseRoundE secret.id partyIDs)
  let parties ← Sign.setupLoopE partyIDs shares.shares partyIDs []
  let lagrange ← Outcome.wrapErr "base.NewRound: " (secret.id.lagrangeE partyIDs)
  return { stage := .r0, selfID := secret.id, partyIDs, message, parties, groupKey := shares.groupKey,
           secretKeyShare := lagrange * secret.secret, e := 0, d := 0, C := 0, R := 0, hasOutput := true, output := {} }

/-- `frost.NewSignState` (pkg/frost/frost.go:33-41) with its errors. -/
def Sign.newSignStateE (sha : Sha512) (partyIDs : IDSlice) (secret : SecretShare G) (shares : Public G) (message : Bytes)
    (timeout now : Nat) : Outcome ErrVal (State G (Sign.Round G)) := do
  let r ← Sign.newRoundE partyIDs secret shares message
  return State.newBaseState (Sign.impl sha) r timeout now

/-- `NewPublic(shares, threshold)` (pkg/eddsa/public.go:28-50) with its error. -/
def newPublicE (ord : MapOrder) (shares : GoMap (Option G)) (threshold : UInt16) : Outcome ErrVal (Public G) := do
  let ids := (ord.order _ shares).keys
  let set := IDSlice.new ids
  let groupKey ← Outcome.noErr (computeGroupKey set shares)
  Outcome.failIf (threshold + 1 > IDSlice.N set) (.new (lit "PublicShares: Threshold should be < N - 1"))
  return ⟨set, threshold, shares.filterMap fun (id, s) => s.map fun g => (id, g), groupKey⟩

/-- `(*Public).UnmarshalJSON` after `json.Unmarshal` succeeded (pkg/eddsa/public.go:80-100), with its errors. -/
def Public.unmarshalJSONE (ord : MapOrder) (out : Public.Json G) : Outcome ErrVal (Public G) := do
  let newS ← newPublicE ord out.shares (UInt16.ofNat (out.threshold % 65536).toNat)
  let computedGroupKey ← Outcome.noErr (computeGroupKey newS.partyIDs out.shares)
  let other ← Outcome.deref out.groupKey
  Outcome.failIf (PublicKey.equal computedGroupKey other = false) (.new (lit "PublicShares: inconsistent group key"))
  return newS

end Verif
