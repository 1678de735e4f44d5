import Verif.Model.Marshalling
import Verif.Model.JsonText
import Verif.Model.Ed25519

/-!
The unit tests of the packages under pkg/, as functions of their random choices and, where it says something, of the implementation that they test.

A test that ends is a Boolean: whether nothing was noted (`t.Error`, `assert`) and nothing stopped it (`t.Fatal`, `require`).  `.panic` is a
run-time panic, which stops the test binary.  The benchmarks and what is only printed are left out.
-/

namespace Verif.UnitTest

open Verif

variable {G : Type} [RGroup G]

/-- The value of a call whose error makes the test fail, where the test goes on only with the value. -/
def require {α : Type} (x : GoRes α) (k : α → GoRes Bool) : GoRes Bool :=
  match x with
  | .ok a => k a
  | .err _ => .ok false
  | .panic => .panic

/-! ### pkg/internal/zk, pkg/internal/polynomial, pkg/internal/scalar -/

/-- `TestSchnorrProof` (pkg/internal/zk/schnorr_test.go:12-21), for the two functions that it tests. -/
def schnorrProof (new : ID → G → Bytes → Scalar → GoRes Schnorr) (verify : Schnorr → ID → G → Bytes → GoRes Bool) (priv : Scalar) : GoRes Bool := do
  let ctx : Bytes := List.replicate 32 0
  let pub : G := priv • base
  let proof ← new 42 pub ctx priv
  let publicComputed : G := priv • base
  if publicComputed ≠ pub then return false
  else verify proof 42 pub ctx

/-- The body of the loop of `TestExponent_Evaluate` (pkg/internal/polynomial/exponent_test.go:17-31), for polynomials of degree `N`; `r` is
what `RandID` draws. -/
def exponentOnce (G : Type) [RGroup G] (N : UInt16) (secret : Scalar) (coins : Coins) (r : Nat) : GoRes Bool := do
  let poly ← Poly.new N secret coins
  let polyExp : Exponent G := Exponent.ofPoly poly
  let randomIndex ← (ID.randID r).scalar
  let y ← Poly.evaluate poly randomIndex
  let lhs : G := y • base
  let rhs1 ← Exponent.evaluateHorner polyExp randomIndex
  let rhs2 ← Exponent.evaluateClassic polyExp randomIndex
  let rhs3 ← Exponent.evaluateVar polyExp randomIndex
  return decide (lhs = rhs1) && decide (lhs = rhs2) && decide (lhs = rhs3)

/-- `TestExponent_Evaluate` (pkg/internal/polynomial/exponent_test.go:13-33): one entry of the list for each of the five times. -/
def exponentEvaluate (G : Type) [RGroup G] : List (Scalar × Coins × Nat) → GoRes Bool
  | [] => .ok true
  | (secret, coins, r) :: rest => do
    let a ← exponentOnce G 1000 secret coins r
    let b ← exponentEvaluate G rest
    return a && b

/-- The loop of `TestSum` (pkg/internal/polynomial/exponent_test.go:77-84). -/
def sumLoop (G : Type) [RGroup G] (deg : UInt16) (randomIndex : Scalar) :
    List (Scalar × Coins) → Scalar → G → List (Exponent G) → GoRes (Scalar × G × List (Exponent G))
  | [], evaluationScalar, evaluationPartial, polysExp => .ok (evaluationScalar, evaluationPartial, polysExp)
  | (sec, coins) :: rest, evaluationScalar, evaluationPartial, polysExp => do
    let poly ← Poly.new deg sec coins
    let polyExp : Exponent G := Exponent.ofPoly poly
    let y ← Poly.evaluate poly randomIndex
    let Y ← Exponent.evaluate polyExp randomIndex
    sumLoop G deg randomIndex rest (evaluationScalar + y) (evaluationPartial + Y) (polysExp ++ [polyExp])

/-- `TestSum` (pkg/internal/polynomial/exponent_test.go:64-94): one entry of the list for each of the 20 polynomials.  The error of `Sum` is
dropped, and the nil result then used. -/
def sum (G : Type) [RGroup G] (deg : UInt16) (polys : List (Scalar × Coins)) (r : Nat) : GoRes Bool := do
  let randomIndex ← (ID.randID r).scalar
  let (evaluationScalar, evaluationPartial, polysExp) ← sumLoop G deg randomIndex polys 0 0 []
  match Exponent.sum polysExp with
  | .ok summedExp => do
    let evaluationSum ← Exponent.evaluate summedExp randomIndex
    let evaluationFromScalar : G := evaluationScalar • base
    return decide (evaluationSum = evaluationFromScalar) && decide (evaluationSum = evaluationPartial)
  | _ => .panic

/-- `TestPolynomial_Evaluate` (pkg/internal/polynomial/polynomial_test.go:13-29), for the function that it tests: one entry of the list for each
of the 100 draws.  `1 + xUint*xUint` is computed in `uint64`; both sides are converted to `int`, which loses nothing. -/
def polynomialEvaluate (evaluate : Poly → Scalar → GoRes Scalar) : List Nat → GoRes Bool
  | [] => .ok true
  | r :: rest => do
    let c0 ← Scalar.setScalarUInt32 1
    let c1 ← Scalar.setScalarUInt32 0
    let c2 ← Scalar.setScalarUInt32 1
    let x := ID.randID r
    let xUint : UInt64 := x.toUInt64
    let expectedResult := 1 + xUint * xUint
    let xs ← x.scalar
    let computedResultScalar ← evaluate [c0, c1, c2] xs
    let computedResult := UInt64.ofNat (leNat (computedResultScalar.bytes.take 8))
    let b ← polynomialEvaluate evaluate rest
    return decide (expectedResult = computedResult) && b

/-- `TestNewScalarUInt32` (pkg/internal/scalar/scalar_test.go:11-28) on the values of `tests`. -/
def newScalarUInt32 (tests : List UInt32) : GoRes Bool :=
  require (Outcome.orErr (Scalar.setCanonicalBytes (1 :: List.replicate 31 0)) .nonCanonical) fun one => go one tests
where
  /-- The loop (lines 20-27); the inner loop adds one `test` times. -/
  go (one : Scalar) : List UInt32 → GoRes Bool
    | [] => .ok true
    | test :: rest => do
      let computed ← Scalar.setScalarUInt32 test
      let newScalar := Nat.repeat (fun s : Scalar => s + one) test.toNat 0
      let b ← go one rest
      return decide (computed = newScalar) && b

/-! ### pkg/frost/party -/

/-- A row of the table of `TestFromBytes` (pkg/frost/party/id_test.go:52-63).  The test compares the ID also after an error; the code gives 0
then (pkg/frost/party/id.go:59). -/
def fromBytesRow (fromBytes : Bytes → GoRes ID) (b : Bytes) (want : ID) (wantErr : Bool) : GoRes Bool :=
  match fromBytes b with
  | .ok got => .ok (!wantErr && decide (got = want))
  | .err _ => .ok (wantErr && decide (want = 0))
  | .panic => .panic

/-- `TestFromBytes` (pkg/frost/party/id_test.go:11-64). -/
def fromBytes (impl : Bytes → GoRes ID) : GoRes Bool := do
  let a ← fromBytesRow impl [0, 1] 1 false
  let b ← fromBytesRow impl [255, 255] 65535 false
  let c ← fromBytesRow impl [0, 1, 0] 1 false
  let d ← fromBytesRow impl [0, 0, 1] 0 false
  let e ← fromBytesRow impl [1] 0 true
  return a && b && c && d && e

/-- `TestID_MarshalText` (pkg/frost/party/id_test.go:66-98); `MarshalText` has no error. -/
def idMarshalText (marshalText : ID → Bytes) : Bool := decide (marshalText 42 = [52, 50]) && decide (marshalText 0 = [48])

/-- A row of the table of `TestID_UnmarshalText` (pkg/frost/party/id_test.go:148-153): only whether there was an error. -/
def unmarshalTextRow (unmarshalText : Bytes → GoRes ID) (text : Bytes) (wantErr : Bool) : GoRes Bool :=
  match unmarshalText text with
  | .ok _ => .ok !wantErr
  | .err _ => .ok wantErr
  | .panic => .panic

/-- `TestID_UnmarshalText` (pkg/frost/party/id_test.go:100-154). -/
def idUnmarshalText (impl : Bytes → GoRes ID) : GoRes Bool := do
  let a ← unmarshalTextRow impl [52, 50] false
  let b ← unmarshalTextRow impl [48] false
  let c ← unmarshalTextRow impl [54, 53, 53, 51, 53] false
  let d ← unmarshalTextRow impl [54, 53, 53, 51, 54] true
  let e ← unmarshalTextRow impl [] true
  let f ← unmarshalTextRow impl [100, 102, 104, 103] true
  return a && b && c && d && e && f

/-- The loop of `TestID_Lagrange` (pkg/frost/party/id_test.go:167-173): after an error the nil coefficient is added, which panics. -/
def lagrangeSum (lagrange : ID → List ID → GoRes Scalar) (partyIDs : List ID) : List ID → Scalar → GoRes Scalar
  | [], sum => .ok sum
  | id :: rest, sum =>
    match lagrange id partyIDs with
    | .ok c => lagrangeSum lagrange partyIDs rest (sum + c)
    | _ => .panic

/-- A row of the table of `TestID_Lagrange` (pkg/frost/party/id_test.go:203-213): both rows want an error, with a nil scalar, which is what
the code gives (pkg/frost/party/id.go:115, 144, 148). -/
def lagrangeRow (lagrange : ID → List ID → GoRes Scalar) (id : ID) (partyIDs : List ID) : GoRes Bool :=
  match lagrange id partyIDs with
  | .ok _ => .ok false
  | .err _ => .ok true
  | .panic => .panic

/-- `TestID_Lagrange` (pkg/frost/party/id_test.go:156-215) with `N` parties; `N` is 16 there. -/
def idLagrange (N : Nat) (lagrange : ID → List ID → GoRes Scalar) : GoRes Bool := do
  let partyIDs : List ID := (List.range N).map fun i => UInt16.ofNat (i + 1)
  let sum ← lagrangeSum lagrange partyIDs partyIDs 0
  let one ← Scalar.setScalarUInt32 1
  let a ← lagrangeRow lagrange 0 partyIDs
  let b ← lagrangeRow lagrange 42 partyIDs
  return decide (one = sum) && a && b

/-! ### pkg/messages -/

/-- A row of the table of `TestHeader_UnmarshalBinary` (pkg/messages/header_test.go:115-131). -/
def headerRow (unmarshalBinary : Bytes → GoRes Header) (h : Header) (data : Bytes) (wantErr : Bool) : GoRes Bool :=
  match unmarshalBinary data with
  | .ok h2 => .ok (!wantErr && h.equal h2)
  | .err _ => .ok wantErr
  | .panic => .panic

/-- `TestHeader_UnmarshalBinary` (pkg/messages/header_test.go:9-132). -/
def headerUnmarshal (impl : Bytes → GoRes Header) : GoRes Bool := do
  let a ← headerRow impl ⟨1, 1, 0⟩ [1, 0, 1, 0, 0] false
  let b ← headerRow impl ⟨1, 1, 2⟩ [1, 0, 1, 0, 2] true
  let c ← headerRow impl ⟨2, 2, 1⟩ [2, 0, 2, 0, 1] false
  let d ← headerRow impl ⟨2, 2, 0⟩ [2, 0, 2, 0, 0] true
  let e ← headerRow impl ⟨3, 2, 0⟩ [3, 0, 2, 0, 0] false
  let f ← headerRow impl ⟨3, 2, 1⟩ [3, 0, 2, 0, 1] true
  let g ← headerRow impl ⟨4, 2, 0⟩ [4, 0, 2, 0, 0] false
  let h ← headerRow impl ⟨4, 2, 1⟩ [4, 0, 2, 0, 1] true
  let i ← headerRow impl ⟨0, 2, 1⟩ [4, 0, 2, 0, 1] true
  return a && b && c && d && e && f && g && h && i

/-- `require.NoError(t, CheckFROSTMarshaler(msg, &msg2))`, then the comparison of the two messages. -/
def marshals (msg : Message G) (compare : Message G → Bool) : GoRes Bool :=
  match checkMarshaler Marshaler.message msg Message.fresh with
  | .ok msg2 => .ok (compare msg2)
  | .err _ => .ok false
  | .panic => .panic

/-- `TestKeyGen1_MarshalBinary` (pkg/messages/keygen1_test.go:14-30); `k` is the nonce of the proof. -/
def keyGen1 (G : Type) [RGroup G] (sha : Sha512) (r : Nat) (secret k : Scalar) (coins : Coins) : GoRes Bool := do
  let fromID := ID.randID r
  let context : Bytes := List.replicate 32 0
  let poly ← Poly.new 25 secret coins
  let comm : Exponent G := Exponent.ofPoly poly
  let C ← Exponent.constant comm
  let c ← Poly.constant poly
  let proof ← Schnorr.new sha fromID C context c k
  let msg := Message.newKeyGen1 fromID proof comm
  marshals msg fun msg2 => Message.equal msg2 msg

/-- `TestKeyGen2_MarshalBinary` (pkg/messages/keygen2_test.go:13-23); `a` and `b` are the values of `rand.Uint32()`, of which
`party.ID` keeps the low 16 bits.  `assert.Equal` compares the structures, following the pointers. -/
def keyGen2 (G : Type) [RGroup G] (a b : UInt32) (secret : Scalar) : GoRes Bool :=
  let msg : Message G := Message.newKeyGen2 a.toUInt16 b.toUInt16 secret
  marshals msg fun msg2 => decide (msg.header = msg2.header) && decide (msg.keyGen1.isNone = msg2.keyGen1.isNone) && decide (msg.keyGen2 = msg2.keyGen2) &&
    decide (msg.sign1.isNone = msg2.sign1.isNone) && decide (msg.sign2 = msg2.sign2)

/-- `TestSign1_MarshalBinary` (pkg/messages/sign1_test.go:12-25). -/
def sign1 (G : Type) [RGroup G] (d e : Scalar) : GoRes Bool :=
  let msg : Message G := Message.newSign1 42 (d • base) (e • base)
  marshals msg fun msgDec => Message.equal msg msgDec

/-- `TestSign2_MarshalBinary` (pkg/messages/sign2_test.go:12-21); `assert.Equal` as in `keyGen2`. -/
def sign2 (G : Type) [RGroup G] (r : Nat) (s : Scalar) : GoRes Bool :=
  let msg : Message G := Message.newSign2 (ID.randID r) s
  marshals msg fun msg2 => decide (msg.header = msg2.header) && decide (msg.keyGen1.isNone = msg2.keyGen1.isNone) && decide (msg.keyGen2 = msg2.keyGen2) &&
    decide (msg.sign1.isNone = msg2.sign1.isNone) && decide (msg.sign2 = msg2.sign2)

/-! ### pkg/eddsa -/

/-- `newKeyPair(key)` (pkg/eddsa/public_key_test.go:13-24): the secret scalar, and its public key. -/
def newKeyPair (sha : Sha512) (key : Bytes) : GoRes (Scalar × G) := do
  let b ← sliceTo key 32
  let digest := sha.sum b
  let d ← sliceTo digest 32
  let sk := Scalar.setBytesWithClamping 0 d
  return (sk, sk • base)

/-- `TestPrivateKey_ToEd25519` (pkg/eddsa/public_key_test.go:26-40); `seed` is what `ed25519.GenerateKey` reads. -/
def toEd25519 (G : Type) [RGroup G] (sha : Sha512) (seed : Bytes) : GoRes Bool := do
  let (pkbytes, skBytes) := Ed25519.generateKey sha seed
  let (sk, pk) ← (newKeyPair sha skBytes : GoRes (Scalar × G))
  let pkComputed : G := sk • base
  let pkFromSk : G := sk • base
  return decide (pk = pkComputed) && decide (pk = pkFromSk) && decide (PublicKey.toEd25519 pk = pkbytes)

/-- `sk.sign(message)` (pkg/eddsa/secret_share_test.go:10-25); `r` is the nonce. -/
def sign (sha : Sha512) (sk : SecretShare G) (message : Bytes) (r : Scalar) : GoRes (Signature G) := do
  let R : G := r • base
  let c ← computeChallenge sha R sk.pub message
  return ⟨R, sk.secret * c + r⟩

/-- `sampleMessage` (pkg/eddsa/signature_test.go:13): "This is a test for FROST". -/
def sampleMessage : Bytes :=
  [84, 104, 105, 115, 32, 105, 115, 32, 97, 32, 116, 101, 115, 116, 32, 102, 111, 114, 32, 70, 82, 79, 83, 84]

/-- `generateSignature()` (pkg/eddsa/signature_test.go:15-24). -/
def generateSignature (sha : Sha512) (seed : Bytes) (r : Scalar) : GoRes (Signature G × G) := do
  let (_, skBytes) := Ed25519.generateKey sha seed
  let (sk, pk) ← (newKeyPair sha skBytes : GoRes (Scalar × G))
  let skShare : SecretShare G := SecretShare.new 0 sk
  let signature ← sign sha skShare sampleMessage r
  return (signature, pk)

/-- `TestSignature_Verify` (pkg/eddsa/signature_test.go:26-35). -/
def signatureVerify (G : Type) [RGroup G] (sha : Sha512) (seed : Bytes) (r : Scalar) : GoRes Bool := do
  let (sig, pk) ← (generateSignature sha seed r : GoRes (Signature G × G))
  let a ← PublicKey.verify sha pk sampleMessage sig
  if a = false then return false
  else Ed25519.verify sha (PublicKey.toEd25519 pk) sampleMessage (Signature.toEd25519 sig)

/-- `TestSignatureEncode_Decode` (pkg/eddsa/signature_test.go:37-47).  After an error of the check the test goes on with what was left in
`signatureOutput`; it has then failed, and nothing after it panics. -/
def signatureEncode (G : Type) [RGroup G] (sha : Sha512) (seed : Bytes) (r : Scalar) : GoRes Bool := do
  let (signature, _) ← (generateSignature sha seed r : GoRes (Signature G × G))
  match checkMarshaler Marshaler.signature signature ⟨0, 0⟩ with
  | .ok signatureOutput => return decide (signature.R = signatureOutput.R) && decide (signature.S = signatureOutput.S)
  | .err _ => return false
  | .panic => .panic

/-- `TestSecretShare_MarshalJSON` (pkg/eddsa/secret_share_test.go:27-42).  After an error the test goes on, and has failed. -/
def secretShareJSON (G : Type) [RGroup G] : GoRes Bool := do
  let secret ← Scalar.setScalarUInt32 42
  let s : SecretShare G := SecretShare.new 42 secret
  require (Json.readSecretShare (Json.writeSecretShare s) : GoRes (SecretShare G)) fun s2 => .ok (SecretShare.equal s2 s)

/-- `TestSecretShare_MarshalBinary` (pkg/eddsa/secret_share_test.go:44-59).  After an error the test goes on, and has failed. -/
def secretShareBinary (G : Type) [RGroup G] : GoRes Bool := do
  let secret ← Scalar.setScalarUInt32 42
  let s : SecretShare G := SecretShare.new 42 secret
  require (SecretShare.unmarshalBinary (SecretShare.marshalBinary s) : GoRes (SecretShare G)) fun s2 => .ok (SecretShare.equal s2 s)

/-- The loop of `fakeShares` and of `TestShares_GroupKey` (pkg/eddsa/public_test.go:19-24, 37-42): one entry of the list for each draw of
`RandID`. -/
def sharesLoop (poly : Poly) : List Nat → GoMap G → GoRes (GoMap G)
  | [], shares => .ok shares
  | r :: rest, shares => do
    let id := ID.randID r
    let x ← id.scalar
    let s ← Poly.evaluate poly x
    let p : G := s • base
    sharesLoop poly rest (shares.set id p)

/-- `TestShares_GroupKey` (pkg/eddsa/public_test.go:29-50) with threshold `T`, which is 40 there; 50 IDs are drawn.  The test notes an error of
`NewPublic` and goes on; the group key of the nil result panics. -/
def groupKey (G : Type) [RGroup G] (ord : MapOrder) (T : UInt16) (draws : List Nat) (secret : Scalar) (coins : Coins) : GoRes Bool := do
  let pub : G := secret • base
  let poly ← Poly.new T secret coins
  let shares ← (sharesLoop poly draws [] : GoRes (GoMap G))
  match newPublic ord (shares.map fun e => (e.1, some e.2)) T with
  | .ok s1 => return PublicKey.equal pub s1.groupKey
  | _ => .panic

/-- `fakeShares(n, t)` (pkg/eddsa/public_test.go:15-27): `n` is the number of draws; the error of `NewPublic` is dropped, the result is nil
then. -/
def fakeShares (G : Type) [RGroup G] (ord : MapOrder) (t : UInt16) (draws : List Nat) (secret : Scalar) (coins : Coins) : GoRes (Option (Public G)) := do
  let poly ← Poly.new t secret coins
  let shares ← (sharesLoop poly draws [] : GoRes (GoMap G))
  match newPublic ord (shares.map fun e => (e.1, some e.2)) t with
  | .ok p => return some p
  | .err _ => return none
  | .panic => .panic

/-- `TestShares_MarshalJSON` (pkg/eddsa/public_test.go:53-77) with threshold `t`, which is 38 there; 40 IDs are drawn.  `ord'` is the order of
iteration in `UnmarshalJSON`.  After an error of `Unmarshal` the test goes on with a zero `Public`, compares, and has failed. -/
def publicJSON (G : Type) [RGroup G] (ord ord' : MapOrder) (t : UInt16) (draws : List Nat) (secret : Scalar) (coins : Coins) : GoRes Bool := do
  let shares ← fakeShares G ord t draws secret coins
  let pub : G := secret • base
  let shares ← Outcome.deref shares
  let a := PublicKey.equal pub shares.groupKey
  let out := Json.indent 4 0 (Json.ofPublic (Public.marshalJSON shares))
  require (Json.readPublic ord' out : GoRes (Public G)) fun s2 => do
    let b ← Public.equal shares s2
    return a && b

/-! ### pkg/ristretto -/

/-- `TestMarshalElement` (pkg/ristretto/ristretto_test.go:215-230), for any element. -/
def marshalElement (x : G) : GoRes Bool :=
  match Json.parse (Json.compact (Json.ofElement (some x))) with
  | some v => require (Json.elementPtr v) fun r => .ok (!r.2 && decide (r.1 = some x))
  | none => .ok false

/-- `TestElementSet` (pkg/ristretto/ristretto_test.go:232-255), `Set` being a copy. -/
def elementSet (G : Type) [RGroup G] : Bool :=
  let el1 : G := 0
  let el2 : G := base
  let a := decide (el1 ≠ el2)
  let el1 := el2
  let b := decide (el1 = el2)
  let el2 := el2 + el2
  a && b && decide (el1 ≠ el2)

/-- `TestScalarSet` (pkg/ristretto/ristretto_test.go:257-289), `Set` being a copy. -/
def scalarSet : GoRes Bool :=
  let sc1 := (Scalar.setCanonicalBytes (1 :: List.replicate 31 0)).getD 0
  let sc2 : Scalar := 0
  let a := decide (sc1 ≠ sc2)
  let sc2 := sc1
  let b := decide (sc1 = sc2)
  let sc1 := sc1 + sc1
  .ok (a && b && decide (sc1 ≠ sc2))

end Verif.UnitTest
