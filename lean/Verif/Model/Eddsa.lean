import Verif.Model.Polynomial

/-!
`pkg/eddsa`: keys, shares and signatures; `pkg/helpers/keys.go`.

JSON is modelled at the level of the Go structs handed to and received from `encoding/json`
(`jsonSecretShare`, `sharesJSON`); the text layer is in Verif/Model/JsonText.lean.
-/

namespace Verif

variable {G : Type} [RGroup G]

/-- `type SecretShare struct` (pkg/eddsa/secret_share.go:11-21). -/
structure SecretShare (G : Type) where
  id : ID
  secret : Scalar
  pub : G
  deriving DecidableEq

/-- `type Signature struct` (pkg/eddsa/signature.go:15-21). -/
structure Signature (G : Type) where
  R : G
  S : Scalar
  deriving DecidableEq

/-- `type Public struct` (pkg/eddsa/public.go:11-26).  `groupKey` stands for the pointed-to `PublicKey`, whose only field is
an element (`PublicKey` and `NewPublicKeyFromPoint`, pkg/eddsa/public_key.go:10-20); a nil `GroupKey` and nil entries of `Shares` are not represented here (they are in
`SharesJSON` and in the argument of `newPublic`). -/
structure Public (G : Type) where
  partyIDs : IDSlice
  threshold : UInt16
  shares : GoMap G
  groupKey : G
  deriving DecidableEq

namespace SecretShare

/-- `NewSecretShare` (pkg/eddsa/secret_share.go:23-31). -/
def new (id : ID) (secret : Scalar) : SecretShare G := ⟨id, secret, secret • base⟩

/-- `MarshalBinary` (pkg/eddsa/secret_share.go:33-39). -/
def marshalBinary (sk : SecretShare G) : Bytes := sk.id.bytes ++ sk.secret.bytes

/-- `UnmarshalBinary` (pkg/eddsa/secret_share.go:41-57).  On an error only the error is kept; `SecretShare.unmarshalInto`
of `Model/Receiver` says what the receiver holds then. -/
def unmarshalBinary (data : Bytes) : GoRes (SecretShare G) := do
  Outcome.failIf (data.length ≠ 34) .wrongLength
  let id ← ID.fromBytes data
  let data ← sliceFrom data 2
  let secret ← Outcome.orErr (Scalar.setCanonicalBytes data) .nonCanonical
  return ⟨id, secret, secret • base⟩

/-- `Equal` (pkg/eddsa/secret_share.go:86-91). -/
def equal (a b : SecretShare G) : Bool := if a.id ≠ b.id then false else decide (a.secret = b.secret)

/-- `type jsonSecretShare struct` (pkg/eddsa/secret_share.go:59-62); the ID is a Go `int`. -/
structure Json where
  id : Int
  secret : Bytes

/-- `MarshalJSON` up to the call of `json.Marshal` (pkg/eddsa/secret_share.go:64-70). -/
def marshalJSON (sk : SecretShare G) : Json := ⟨sk.id.toNat, sk.secret.bytes⟩

/-- `UnmarshalJSON` after `json.Unmarshal` succeeded (pkg/eddsa/secret_share.go:72-84): `party.ID(out.ID)` keeps the low 16
bits of the `int`. -/
def unmarshalJSON (out : Json) : GoRes (SecretShare G) := do
  let id : ID := UInt16.ofNat (out.id % 65536).toNat
  let secret ← Outcome.orErr (Scalar.setCanonicalBytes out.secret) .nonCanonical
  return ⟨id, secret, secret • base⟩

end SecretShare

namespace Signature

/-- `ToEd25519` (pkg/eddsa/signature.go:23-29). -/
def toEd25519 (sig : Signature G) : Bytes := RGroup.bytesEd25519 sig.R ++ sig.S.bytes

/-- `BytesAppend` (pkg/eddsa/signature.go:75-79): never fails. -/
def bytesAppend (sig : Signature G) (existing : Bytes) : Bytes := existing ++ RGroup.bytes sig.R ++ sig.S.bytes

/-- `MarshalBinary` (pkg/eddsa/signature.go:50-54). -/
def marshalBinary (sig : Signature G) : Bytes := bytesAppend sig []

/-- `UnmarshalBinary` (pkg/eddsa/signature.go:56-73).  On an error only the error is kept; see `Signature.unmarshalInto`
of `Model/Receiver`. -/
def unmarshalBinary (data : Bytes) : GoRes (Signature G) := do
  Outcome.failIf (data.length < 64) .tooShort
  let b ← sliceTo data 32
  let R ← Outcome.orErr (RGroup.setCanonicalBytes b) .nonCanonical
  let b ← sliceFrom data 32
  let S ← Outcome.orErr (Scalar.setCanonicalBytes b) .nonCanonical
  return ⟨R, S⟩

/-- `Size` (pkg/eddsa/signature.go:81-83). -/
def size (_ : Signature G) : Nat := 64

/-- `Equal` for a `*Signature` argument (pkg/eddsa/signature.go:85-97). -/
def equal (sig other : Signature G) : Bool :=
  if other.R ≠ sig.R then false else if other.S ≠ sig.S then false else true

end Signature

namespace PublicKey

/-- `ToEd25519` (pkg/eddsa/public_key.go:38-41). -/
def toEd25519 (pk : G) : Bytes := RGroup.bytesEd25519 pk

end PublicKey

/-- `ComputeChallenge(R, groupKey, message)` (pkg/eddsa/signature.go:31-44): panics if `SetUniformBytes` fails. -/
def computeChallenge (sha : Sha512) (R groupKey : G) (message : Bytes) : GoRes Scalar :=
  let data := RGroup.bytesEd25519 R ++ PublicKey.toEd25519 groupKey ++ message
  let digest := sha.sum data
  match Scalar.setUniformBytes 0 digest with
  | (_, true) => .panic
  | (s, false) => .ok s

namespace PublicKey

/-- `Verify(message, sig)` (pkg/eddsa/public_key.go:22-31). -/
def verify (sha : Sha512) (pk : G) (message : Bytes) (sig : Signature G) : GoRes Bool := do
  let challenge ← computeChallenge sha sig.R pk message
  let publicNeg := -pk
  let RPrime := challenge • publicNeg + sig.S • (base : G)
  return decide (RPrime = sig.R)

/-- `Equal` (pkg/eddsa/public_key.go:33-36). -/
def equal (pk other : G) : Bool := decide (pk = other)

end PublicKey

/-- The loop of `computeGroupKey` (pkg/eddsa/public.go:57-61).  The error of `Lagrange` is dropped, leaving a nil scalar, and a
missing share is a nil element: using either panics. -/
def computeGroupKeyLoop (partyIDs : IDSlice) (shares : GoMap (Option G)) : List ID → G → GoRes G
  | [], groupKey => .ok groupKey
  | id :: rest, groupKey =>
    match ID.lagrange id partyIDs with
    | .ok lagrange => do
      let share ← Outcome.deref (shares.get? id).join
      computeGroupKeyLoop partyIDs shares rest (groupKey + lagrange • share)
    | _ => .panic

/-- `computeGroupKey` (pkg/eddsa/public.go:52-63). -/
def computeGroupKey (partyIDs : IDSlice) (shares : GoMap (Option G)) : GoRes G :=
  computeGroupKeyLoop partyIDs shares partyIDs 0

/-- `NewPublic(shares, threshold)` (pkg/eddsa/public.go:28-50); `Threshold+1` is computed in `uint16`.  `ord` is the order of
`range shares`.  The result shares the caller's map; nil entries cannot survive (`computeGroupKey` panics on them) and are
dropped from the type here. -/
def newPublic (ord : MapOrder) (shares : GoMap (Option G)) (threshold : UInt16) : GoRes (Public G) := do
  let ids := (ord.order _ shares).keys
  let set := IDSlice.new ids
  let groupKey ← computeGroupKey set shares
  Outcome.failIf (threshold + 1 > IDSlice.N set) .thresholdTooLarge
  return ⟨set, threshold, shares.filterMap fun (id, s) => s.map fun g => (id, g), groupKey⟩

namespace Public

/-- `type sharesJSON struct` (pkg/eddsa/public.go:65-69): Go `int` threshold, pointers that may be null. -/
structure Json (G : Type) where
  threshold : Int
  groupKey : Option G
  shares : GoMap (Option G)

/-- `MarshalJSON` up to the call of `json.Marshal` (pkg/eddsa/public.go:71-78). -/
def marshalJSON (s : Public G) : Json G := ⟨s.threshold.toNat, some s.groupKey, s.shares.map fun (id, g) => (id, some g)⟩

/-- `UnmarshalJSON` after `json.Unmarshal` succeeded (pkg/eddsa/public.go:80-100): `party.Size(out.Threshold)` keeps the low 16
bits; comparing with a nil group key panics. -/
def unmarshalJSON (ord : MapOrder) (out : Json G) : GoRes (Public G) := do
  let newS ← newPublic ord out.shares (UInt16.ofNat (out.threshold % 65536).toNat)
  let computedGroupKey ← computeGroupKey newS.partyIDs out.shares
  let other ← Outcome.deref out.groupKey
  Outcome.failIf (PublicKey.equal computedGroupKey other = false) .inconsistentKey
  return newS

/-- The loop of `Equal` (pkg/eddsa/public.go:119-125): comparing a missing share panics. -/
def equalLoop (s s2 : Public G) : List ID → GoRes Bool
  | [] => .ok true
  | id :: rest => do
    let p1 ← Outcome.deref (s.shares.get? id)
    let p2 ← Outcome.deref (s2.shares.get? id)
    if p1 ≠ p2 then return false else equalLoop s s2 rest

/-- `Equal` (pkg/eddsa/public.go:102-128). -/
def equal (s s2 : Public G) : GoRes Bool := do
  if s.shares.length ≠ s2.shares.length then return false
  else do
    let b ← IDSlice.equal s.partyIDs s2.partyIDs
    if b = false then return false
    else if s.threshold ≠ s2.threshold then return false
    else if PublicKey.equal s.groupKey s2.groupKey = false then return false
    else equalLoop s s2 s.partyIDs

end Public

/-- The loop of `GenerateSecrets` (pkg/helpers/keys.go:18-20). -/
def generateSecretsLoop (poly : Poly) : List ID → GoMap (SecretShare G) → GoRes (GoMap (SecretShare G))
  | [], shares => .ok shares
  | id :: rest, shares => do
    let x ← id.scalar
    let y ← Poly.evaluate poly x
    generateSecretsLoop poly rest (shares.set id (SecretShare.new id y))

/-- `GenerateSecrets(set, threshold)` (pkg/helpers/keys.go:11-22): `coins 0` is the secret, `coins (i+1)` the other
coefficients. -/
def generateSecrets (set : IDSlice) (threshold : UInt16) (coins : Coins) : GoRes (Scalar × GoMap (SecretShare G)) :=
  if threshold ≥ IDSlice.N set then .panic
  else do
    let secret := coins 0
    let poly ← Poly.new threshold secret (fun i => coins (i + 1))
    let shares ← generateSecretsLoop poly set []
    return (secret, shares)

/-- `GeneratePublic(threshold, secretShares)` (pkg/helpers/keys.go:24-35): panics if `NewPublic` fails. -/
def generatePublic (ord : MapOrder) (threshold : UInt16) (secretShares : GoMap (SecretShare G)) : GoRes (Public G) :=
  match newPublic ord ((ord.order _ secretShares).map fun (id, s) => (id, some (s.secret • (base : G)))) threshold with
  | .ok p => .ok p
  | _ => .panic

end Verif
