import Verif.Model.Messages
import Verif.Model.JsonText

/-!
The decoding methods of /repo as Go runs them: on a receiver that already holds something, which they change one assignment at a time,
so that an error in the middle leaves part of the new value behind.  (The functions named `unmarshalBinary` elsewhere in the model give the new value
or the error only.)
-/

namespace Verif

variable {G : Type} [RGroup G]

/-- A method with a pointer receiver: from the receiver's value to its value afterwards and what is returned. -/
def Method (S α : Type) := S → S × GoRes α

namespace Method

variable {S α β : Type}

instance : Monad (Method S) where
  pure a := fun s => (s, .ok a)
  bind x f := fun s =>
    match x s with
    | (s, .ok a) => f a s
    | (s, .err e) => (s, .err e)
    | (s, .panic) => (s, .panic)

/-- A call that does not touch the receiver; an error is returned at once. -/
def call (x : GoRes α) : Method S α := fun s => (s, x)

/-- An assignment to (part of) the receiver. -/
def assign (f : S → S) : Method S Unit := fun s => (f s, .ok ())

end Method

open Method

/-- `(h *Header) UnmarshalBinary` (pkg/messages/header.go:31-68): three assignments at the end. -/
def Header.unmarshalInto (data : Bytes) : Method Header Unit := do
  call (Outcome.failIf (data.length < headerSize) .tooShort)
  let msgType ← call (goIndex data 0)
  let rest ← call (sliceFrom data 1)
  let fromID ← call (ID.fromBytes rest)
  let rest ← call (sliceFrom data (1 + 2))
  let toID ← call (ID.fromBytes rest)
  call (Header.check msgType fromID toID)
  assign fun h => { h with type := msgType }
  assign fun h => { h with fromID := fromID }
  assign fun h => { h with toID := toID }

/-- `(m *KeyGen2) UnmarshalBinary` (pkg/messages/keygen2.go:39-46). -/
def KeyGen2.unmarshalInto (data : Bytes) : Method KeyGen2 Unit := do
  call (Outcome.failIf (data.length ≠ 32) .wrongLength)
  let share ← call (Outcome.orErr (Scalar.setCanonicalBytes data) .nonCanonical)
  assign fun m => { m with share := share }

/-- `(m *Sign2) UnmarshalBinary` (pkg/messages/sign2.go:39-50). -/
def Sign2.unmarshalInto (data : Bytes) : Method Sign2 Unit := do
  call (Outcome.failIf (data.length ≠ 32) .wrongLength)
  let Zi ← call (Outcome.orErr (Scalar.setCanonicalBytes data) .nonCanonical)
  assign fun m => { m with Zi := Zi }

/-- `(m *Sign1) UnmarshalBinary` (pkg/messages/sign1.go:44-62): `Di` is set before the second half is looked at. -/
def Sign1.unmarshalInto (data : Bytes) : Method (Sign1 G) Unit := do
  call (Outcome.failIf (data.length ≠ 64) .wrongLength)
  let b ← call (sliceTo data 32)
  let D ← call (Outcome.orErr (RGroup.setCanonicalBytes b) .nonCanonical)
  assign fun m => { m with Di := D }
  let b ← call (sliceFrom data 32)
  let E ← call (Outcome.orErr (RGroup.setCanonicalBytes b) .nonCanonical)
  assign fun m => { m with Ei := E }

/-- `(proof *Schnorr) UnmarshalBinary` (pkg/internal/zk/schnorr.go:103-117): `S` is set before the second half is looked at. -/
def Schnorr.unmarshalInto (data : Bytes) : Method Schnorr Unit := do
  call (Outcome.failIf (data.length < 64) .tooShort)
  let b ← call (sliceTo data 32)
  let S ← call (Outcome.orErr (Scalar.setCanonicalBytes b) .nonCanonical)
  assign fun p => { p with S := S }
  let b ← call (sliceFrom data 32)
  let R ← call (Outcome.orErr (Scalar.setCanonicalBytes b) .nonCanonical)
  assign fun p => { p with R := R }

/-- `(sig *Signature) UnmarshalBinary` (pkg/eddsa/signature.go:56-73): `R` is set before the second half is looked at. -/
def Signature.unmarshalInto (data : Bytes) : Method (Signature G) Unit := do
  call (Outcome.failIf (data.length < 64) .tooShort)
  let b ← call (sliceTo data 32)
  let R ← call (Outcome.orErr (RGroup.setCanonicalBytes b) .nonCanonical)
  assign fun sig => { sig with R := R }
  let b ← call (sliceFrom data 32)
  let S ← call (Outcome.orErr (Scalar.setCanonicalBytes b) .nonCanonical)
  assign fun sig => { sig with S := S }

/-- `(sk *SecretShare) UnmarshalBinary` (pkg/eddsa/secret_share.go:41-57).  `sk.ID, err = party.FromBytes(data)` assigns whatever is returned, 0
with an error. -/
def SecretShare.unmarshalInto (data : Bytes) : Method (SecretShare G) Unit := do
  call (Outcome.failIf (data.length ≠ 34) .wrongLength)
  assign fun sk => { sk with id := match ID.fromBytes data with | .ok id => id | _ => 0 }
  let _ ← call (ID.fromBytes data)
  let data ← call (sliceFrom data 2)
  let secret ← call (Outcome.orErr (Scalar.setCanonicalBytes data) .nonCanonical)
  assign fun sk => { sk with secret := secret }
  assign fun sk => { sk with pub := sk.secret • base }

/-- `(sk *SecretShare) UnmarshalJSON` (pkg/eddsa/secret_share.go:72-84) after `json.Unmarshal(data, &out)`. -/
def SecretShare.unmarshalJSONInto (out : SecretShare.Json) : Method (SecretShare G) Unit := do
  assign fun sk => { sk with id := UInt16.ofNat (out.id % 65536).toNat }
  let secret ← call (Outcome.orErr (Scalar.setCanonicalBytes out.secret) .nonCanonical)
  assign fun sk => { sk with secret := secret }
  assign fun sk => { sk with pub := sk.secret • base }

/-- `(sk *SecretShare) UnmarshalJSON` (pkg/eddsa/secret_share.go:72-84) of bytes; the members go into a fresh `jsonSecretShare`. -/
def SecretShare.readInto (data : Bytes) : Method (SecretShare G) Unit :=
  match Json.parse data with
  | some (.obj l) =>
    match Json.secretMembers l ⟨0, []⟩ false with
    | (_, true) => call (.err .json)
    | (out, false) => SecretShare.unmarshalJSONInto out
  | some .null => SecretShare.unmarshalJSONInto ⟨0, []⟩
  | _ => call (.err .json)

/-- `(s *Public) UnmarshalJSON` (pkg/eddsa/public.go:80-100) of bytes: one assignment at the end. -/
def Public.readInto (ord : MapOrder) (data : Bytes) : Method (Public G) Unit := do
  let newS ← call (Json.readPublic ord data)
  assign fun _ => newS

/-- `(id *ID) UnmarshalText` (pkg/frost/party/id.go:81-93). -/
def ID.unmarshalInto (text : Bytes) : Method ID Unit := do
  let id ← call (ID.unmarshalText text)
  assign fun _ => id

/-- `(e *Element) UnmarshalText` (pkg/ristretto/ristretto.go:428-438); `SetCanonicalBytes` sets the receiver at its end (lines 346-350). -/
def elementInto (text : Bytes) : Method G Unit := do
  let eb ← call (Outcome.orErr (Base64.decode text) .base64)
  let e ← call (Outcome.orErr (RGroup.setCanonicalBytes eb) .nonCanonical)
  assign fun _ => e

/-- `(pk *PublicKey) UnmarshalJSON` (pkg/eddsa/public_key.go:48-51), that is `json.Unmarshal(data, &pk.pk)`: a string goes to
`Element.UnmarshalText`, null is ignored (`indirect` of decode.go does not look for a `TextUnmarshaler` when decoding null, and `literalStore` then ignores it),
everything else is a type error. -/
def PublicKey.readInto (data : Bytes) : Method G Unit :=
  match Json.parse data with
  | some (.str s) => elementInto s
  | some .null => pure ()
  | _ => call (.err .json)

/-- `type Exponent struct` (pkg/internal/polynomial/exponent.go:12-14) with the pointers in its slice as they are: `none` is nil. -/
abbrev Exponent.Ptrs (G : Type) := List (Option G)

namespace Exponent

/-- The decoding loop (pkg/internal/polynomial/exponent.go:204-211), `k` coefficients to go from index `i` on.  `p.coefficients[i], err = …` assigns nil
with an error. -/
def decodeInto : Nat → Nat → Bytes → Method (Ptrs G) Unit
  | 0, _, _ => pure ()
  | k + 1, i, remaining => do
    let b ← call (sliceTo remaining 32)
    assign fun p => p.set i (RGroup.setCanonicalBytes b)
    let _ ← call (Outcome.orErr (RGroup.setCanonicalBytes (G := G) b) .nonCanonical)
    let remaining ← call (sliceFrom remaining 32)
    decodeInto k (i + 1) remaining

/-- `(p *Exponent) UnmarshalBinary` (pkg/internal/polynomial/exponent.go:184-213): the slice is replaced by one of nil pointers before the
loop. -/
def unmarshalInto (data : Bytes) : Method (Ptrs G) Unit := do
  let degree ← call (ID.fromBytes data)
  let coefficientCount := degree + 1
  let remaining ← call (sliceFrom data 2)
  let count := remaining.length
  call (Outcome.failIf (count % 32 ≠ 0) .wrongLength)
  call (Outcome.failIf (count ≠ coefficientCount.toNat * 32) .wrongLength)
  assign fun _ => List.replicate coefficientCount.toNat none
  decodeInto coefficientCount.toNat 0 remaining

/-- The loop of `BytesAppend` (pkg/internal/polynomial/exponent.go:217-219): `Bytes` of a nil pointer panics. -/
def ptrBytesLoop : Ptrs G → Bytes → GoRes Bytes
  | [], existing => .ok existing
  | c :: rest, existing => do
    let c ← Outcome.deref c
    ptrBytesLoop rest (existing ++ RGroup.bytes c)

/-- `BytesAppend` (pkg/internal/polynomial/exponent.go:215-221) on the pointers. -/
def ptrBytesAppend (p : Ptrs G) (existing : Bytes) : GoRes Bytes :=
  ptrBytesLoop p (existing ++ ID.bytes (UInt16.ofNat p.length - 1))

end Exponent

/-- `type KeyGen1 struct` (pkg/messages/keygen1.go:11-14) with its pointers as they are. -/
structure KeyGen1.Ptrs (G : Type) where
  proof : Option Schnorr
  commitments : Option (Exponent.Ptrs G)

namespace KeyGen1

/-- A method of `*m.Proof` run on the receiver `m`, for a pointer that is not shared with anything else: it panics if the pointer is nil. -/
def onProof {α : Type} (f : Method Schnorr α) : Method (KeyGen1.Ptrs G) α := fun m =>
  match m.proof with
  | none => (m, .panic)
  | some p => ({ m with proof := some (f p).1 }, (f p).2)

/-- The same for `*m.Commitments`. -/
def onCommitments {α : Type} (f : Method (Exponent.Ptrs G) α) : Method (KeyGen1.Ptrs G) α := fun m =>
  match m.commitments with
  | none => (m, .panic)
  | some p => ({ m with commitments := some (f p).1 }, (f p).2)

/-- `(m *KeyGen1) UnmarshalBinary` (pkg/messages/keygen1.go:49-65): both pointers are replaced by new objects, which are then decoded
into. -/
def unmarshalInto (data : Bytes) : Method (KeyGen1.Ptrs G) Unit := do
  call (Outcome.failIf (data.length < 64) .tooShort)
  assign fun m => { m with proof := some ⟨0, 0⟩ }
  assign fun m => { m with commitments := some [] }
  let b ← call (sliceTo data 64)
  onProof (Schnorr.unmarshalInto b)
  let b ← call (sliceFrom data 64)
  onCommitments (Exponent.unmarshalInto b)

end KeyGen1

/-- The `switch` of `(m *Message) UnmarshalBinary` (pkg/messages/messages.go:95-120): a payload is decoded into a variable of its own and a pointer
to it is assigned if that went well.  Simplified: a `KeyGen1` that was decoded without an error has no nil pointers
(`C87_keygen1_refines`), so the payload is that of `KeyGen1.unmarshalBinary`. -/
def Message.payloadInto (type : MsgType) (data : Bytes) : Method (Message G) Unit :=
  if type = MsgType.keyGen1 then do
    let p ← fun (m : Message G) => (m, Message.payload m.keyGen1 (KeyGen1.unmarshalBinary data))
    assign fun m => { m with keyGen1 := p }
  else if type = MsgType.keyGen2 then do
    let p ← fun (m : Message G) => (m, Message.payload m.keyGen2 (KeyGen2.unmarshalBinary data))
    assign fun m => { m with keyGen2 := p }
  else if type = MsgType.sign1 then do
    let p ← fun (m : Message G) => (m, Message.payload m.sign1 (Sign1.unmarshalBinary data))
    assign fun m => { m with sign1 := p }
  else if type = MsgType.sign2 then do
    let p ← fun (m : Message G) => (m, Message.payload m.sign2 (Sign2.unmarshalBinary data))
    assign fun m => { m with sign2 := p }
  else call (.err .invalidType)

/-- `(m *Message) UnmarshalBinary` (pkg/messages/messages.go:87-123): the header is decoded into the receiver, then the payload. -/
def Message.unmarshalInto (data : Bytes) : Method (Message G) Unit := fun m =>
  match Header.unmarshalInto data m.header with
  | (h, .err e) => ({ m with header := h }, .err e)
  | (h, .panic) => ({ m with header := h }, .panic)
  | (h, .ok ()) =>
    match sliceFrom data h.size with
    | .ok data => Message.payloadInto h.type data { m with header := h }
    | .err e => ({ m with header := h }, .err e)
    | .panic => ({ m with header := h }, .panic)

end Verif
