import Verif.Model.Schnorr
import Verif.Model.Polynomial

/-!
`pkg/messages`: the wire format.
-/

namespace Verif

variable {G : Type} [RGroup G]

/-- `type MessageType uint8` (pkg/messages/messages.go:18). -/
abbrev MsgType := UInt8

namespace MsgType
/-- `MessageTypeNone` (pkg/messages/messages.go:22). -/
def none : MsgType := 0
/-- `MessageTypeKeyGen1` (pkg/messages/messages.go:23). -/
def keyGen1 : MsgType := 1
/-- `MessageTypeKeyGen2` (pkg/messages/messages.go:24). -/
def keyGen2 : MsgType := 2
/-- `MessageTypeSign1` (pkg/messages/messages.go:25). -/
def sign1 : MsgType := 3
/-- `MessageTypeSign2` (pkg/messages/messages.go:26). -/
def sign2 : MsgType := 4
end MsgType

/-- `type Header struct` (pkg/messages/header.go:12-24). -/
structure Header where
  type : MsgType
  fromID : ID
  toID : ID
  deriving DecidableEq

/-- `headerSize` (pkg/messages/header.go:10). -/
def headerSize : Nat := 1 + 2 * 2

namespace Header

/-- The checks shared by `UnmarshalBinary` (pkg/messages/header.go:48-62) and `BytesAppend` (lines 71-85): a `switch` on the
type, then the sender. -/
def check (type : MsgType) (fromID toID : ID) : GoRes Unit := do
  if type = MsgType.keyGen1 ∨ type = MsgType.sign1 ∨ type = MsgType.sign2 then
    Outcome.failIf (toID ≠ 0) .broadcastWithTo
  else if type = MsgType.keyGen2 then
    Outcome.failIf (toID = 0) .keygen2WithoutTo
  else .err .invalidType
  Outcome.failIf (fromID = 0) .zeroFrom

/-- `UnmarshalBinary(data)` (pkg/messages/header.go:31-68): the new header, or an error with the receiver unchanged. -/
def unmarshalBinary (data : Bytes) : GoRes Header := do
  Outcome.failIf (data.length < headerSize) .tooShort
  let msgType ← goIndex data 0
  let rest ← sliceFrom data 1
  let fromID ← ID.fromBytes rest
  let rest ← sliceFrom data (1 + 2)
  let toID ← ID.fromBytes rest
  check msgType fromID toID
  return ⟨msgType, fromID, toID⟩

/-- `BytesAppend(existing)` (pkg/messages/header.go:70-90). -/
def bytesAppend (h : Header) (existing : Bytes) : GoRes Bytes := do
  check h.type h.fromID h.toID
  return existing ++ [h.type] ++ h.fromID.bytes ++ h.toID.bytes

/-- `MarshalBinary()` (pkg/messages/header.go:26-29). -/
def marshalBinary (h : Header) : GoRes Bytes := bytesAppend h []

/-- `Size()` (pkg/messages/header.go:92-94). -/
def size (_ : Header) : Nat := headerSize

/-- `Equal(other)` for a `Header` or `*Header` argument (pkg/messages/header.go:96-104). -/
def equal (h other : Header) : Bool := decide (h = other)

/-- `IsBroadcast()` (pkg/messages/header.go:106-109). -/
def isBroadcast (h : Header) : Bool := decide (h.toID = 0)

end Header

/-- `type KeyGen1 struct` (pkg/messages/keygen1.go:11-14).  Simplified: the two pointers are taken to be non-nil, as in every
message built by `NewKeyGen1` from actual values or by `UnmarshalBinary`. -/
structure KeyGen1 (G : Type) where
  proof : Schnorr
  commitments : Exponent G
  deriving DecidableEq

/-- `type KeyGen2 struct` (pkg/messages/keygen2.go:12-15). -/
structure KeyGen2 where
  share : Scalar
  deriving DecidableEq

/-- `type Sign1 struct` (pkg/messages/sign1.go:12-16). -/
structure Sign1 (G : Type) where
  Di : G
  Ei : G
  deriving DecidableEq

/-- `type Sign2 struct` (pkg/messages/sign2.go:12-16). -/
structure Sign2 where
  Zi : Scalar
  deriving DecidableEq

/-- `type Message struct` (pkg/messages/messages.go:8-14); `none` is a nil pointer. -/
structure Message (G : Type) where
  header : Header
  keyGen1 : Option (KeyGen1 G) := none
  keyGen2 : Option KeyGen2 := none
  sign1 : Option (Sign1 G) := none
  sign2 : Option Sign2 := none
  deriving DecidableEq

namespace KeyGen1

/-- `BytesAppend(existing)` (pkg/messages/keygen1.go:29-40): the two errors it forwards are never returned. -/
def bytesAppend (m : KeyGen1 G) (existing : Bytes) : Bytes := m.commitments.bytesAppend (m.proof.bytesAppend existing)

/-- `MarshalBinary()` (pkg/messages/keygen1.go:43-46). -/
def marshalBinary (m : KeyGen1 G) : Bytes := bytesAppend m []

/-- `UnmarshalBinary(data)` (pkg/messages/keygen1.go:49-65). -/
def unmarshalBinary (data : Bytes) : GoRes (KeyGen1 G) := do
  Outcome.failIf (data.length < 64) .tooShort
  let b ← sliceTo data 64
  let proof ← Schnorr.unmarshalBinary b
  let b ← sliceFrom data 64
  let commitments ← Exponent.unmarshalBinary b
  return ⟨proof, commitments⟩

/-- `Size()` (pkg/messages/keygen1.go:67-69). -/
def size (m : KeyGen1 G) : Nat := m.proof.size + m.commitments.size

/-- `Equal(other)` for a `*KeyGen1` argument (pkg/messages/keygen1.go:71-83). -/
def equal (m other : KeyGen1 G) : Bool :=
  if other.proof.equal m.proof = false then false
  else if other.commitments.equal m.commitments = false then false else true

end KeyGen1

namespace KeyGen2

/-- `BytesAppend(existing)` (pkg/messages/keygen2.go:28-30). -/
def bytesAppend (m : KeyGen2) (existing : Bytes) : Bytes := existing ++ m.share.bytes

/-- `MarshalBinary()` (pkg/messages/keygen2.go:33-36). -/
def marshalBinary (m : KeyGen2) : Bytes := bytesAppend m []

/-- `UnmarshalBinary(data)` (pkg/messages/keygen2.go:39-46). -/
def unmarshalBinary (data : Bytes) : GoRes KeyGen2 := do
  Outcome.failIf (data.length ≠ 32) .wrongLength
  let share ← Outcome.orErr (Scalar.setCanonicalBytes data) .nonCanonical
  return ⟨share⟩

/-- `Size()` (pkg/messages/keygen2.go:48-50). -/
def size (_ : KeyGen2) : Nat := 32

/-- `Equal(other)` for a `*KeyGen2` argument (pkg/messages/keygen2.go:52-61). -/
def equal (m other : KeyGen2) : Bool := if other.share ≠ m.share then false else true

end KeyGen2

namespace Sign1

/-- `BytesAppend(existing)` (pkg/messages/sign1.go:31-35). -/
def bytesAppend (m : Sign1 G) (existing : Bytes) : Bytes := existing ++ RGroup.bytes m.Di ++ RGroup.bytes m.Ei

/-- `MarshalBinary()` (pkg/messages/sign1.go:38-41). -/
def marshalBinary (m : Sign1 G) : Bytes := bytesAppend m []

/-- `UnmarshalBinary(data)` (pkg/messages/sign1.go:44-62). -/
def unmarshalBinary (data : Bytes) : GoRes (Sign1 G) := do
  Outcome.failIf (data.length ≠ 64) .wrongLength
  let b ← sliceTo data 32
  let D ← Outcome.orErr (RGroup.setCanonicalBytes b) .nonCanonical
  let b ← sliceFrom data 32
  let E ← Outcome.orErr (RGroup.setCanonicalBytes b) .nonCanonical
  return ⟨D, E⟩

/-- `Size()` (pkg/messages/sign1.go:64-66). -/
def size (_ : Sign1 G) : Nat := 64

/-- `Equal(other)` for a `*Sign1` argument (pkg/messages/sign1.go:68-80). -/
def equal (m other : Sign1 G) : Bool :=
  if other.Di ≠ m.Di then false else if other.Ei ≠ m.Ei then false else true

end Sign1

namespace Sign2

/-- `BytesAppend(existing)` (pkg/messages/sign2.go:28-30). -/
def bytesAppend (m : Sign2) (existing : Bytes) : Bytes := existing ++ m.Zi.bytes

/-- `MarshalBinary()` (pkg/messages/sign2.go:33-36). -/
def marshalBinary (m : Sign2) : Bytes := bytesAppend m []

/-- `UnmarshalBinary(data)` (pkg/messages/sign2.go:39-50). -/
def unmarshalBinary (data : Bytes) : GoRes Sign2 := do
  Outcome.failIf (data.length ≠ 32) .wrongLength
  let Zi ← Outcome.orErr (Scalar.setCanonicalBytes data) .nonCanonical
  return ⟨Zi⟩

/-- `Size()` (pkg/messages/sign2.go:52-54). -/
def size (_ : Sign2) : Nat := 32

/-- `Equal(other)` for a `*Sign2` argument (pkg/messages/sign2.go:56-65). -/
def equal (m other : Sign2) : Bool := if other.Zi ≠ m.Zi then false else true

end Sign2

namespace Message

/-- `NewKeyGen1` (pkg/messages/keygen1.go:16-27). -/
def newKeyGen1 (fromID : ID) (proof : Schnorr) (commitments : Exponent G) : Message G :=
  { header := ⟨MsgType.keyGen1, fromID, 0⟩, keyGen1 := some ⟨proof, commitments⟩ }

/-- `NewKeyGen2` (pkg/messages/keygen2.go:17-26). -/
def newKeyGen2 (fromID toID : ID) (share : Scalar) : Message G :=
  { header := ⟨MsgType.keyGen2, fromID, toID⟩, keyGen2 := some ⟨share⟩ }

/-- `NewSign1` (pkg/messages/sign1.go:18-29). -/
def newSign1 (fromID : ID) (D E : G) : Message G :=
  { header := ⟨MsgType.sign1, fromID, 0⟩, sign1 := some ⟨D, E⟩ }

/-- `NewSign2` (pkg/messages/sign2.go:18-26). -/
def newSign2 (fromID : ID) (z : Scalar) : Message G :=
  { header := ⟨MsgType.sign2, fromID, 0⟩, sign2 := some ⟨z⟩ }

/-- `BytesAppend(existing)` (pkg/messages/messages.go:29-55). -/
def bytesAppend (m : Message G) (existing : Bytes) : GoRes Bytes := do
  let existing ← m.header.bytesAppend existing
  if m.header.type = MsgType.keyGen1 then
    match m.keyGen1 with
    | some p => return p.bytesAppend existing
    | none => .err .noData
  else if m.header.type = MsgType.keyGen2 then
    match m.keyGen2 with
    | some p => return p.bytesAppend existing
    | none => .err .noData
  else if m.header.type = MsgType.sign1 then
    match m.sign1 with
    | some p => return p.bytesAppend existing
    | none => .err .noData
  else if m.header.type = MsgType.sign2 then
    match m.sign2 with
    | some p => return p.bytesAppend existing
    | none => .err .noData
  else .err .noData

/-- `Size()` (pkg/messages/messages.go:57-78). -/
def size (m : Message G) : Nat :=
  m.header.size +
    if m.header.type = MsgType.keyGen1 then (m.keyGen1.map KeyGen1.size).getD 0
    else if m.header.type = MsgType.keyGen2 then (m.keyGen2.map KeyGen2.size).getD 0
    else if m.header.type = MsgType.sign1 then (m.sign1.map Sign1.size).getD 0
    else if m.header.type = MsgType.sign2 then (m.sign2.map Sign2.size).getD 0
    else 0

/-- `MarshalBinary()` (pkg/messages/messages.go:81-84). -/
def marshalBinary (m : Message G) : GoRes Bytes := bytesAppend m []

/-- `if err = p.UnmarshalBinary(data); err == nil { m.P = &p }` (pkg/messages/messages.go:96-117): the old pointer stays when
decoding the payload fails, and the error is not returned. -/
def payload {α : Type} (old : Option α) (decoded : GoRes α) : GoRes (Option α) :=
  match decoded with
  | .ok p => .ok (some p)
  | .err _ => .ok old
  | .panic => .panic

/-- `m.UnmarshalBinary(data)` (pkg/messages/messages.go:87-123) on a receiver `m` that may already hold something: the new value
of the receiver, or an error with the receiver unchanged. -/
def unmarshalBinary (m : Message G) (data : Bytes) : GoRes (Message G) := do
  let header ← Header.unmarshalBinary data
  let data ← sliceFrom data header.size
  if header.type = MsgType.keyGen1 then do
    let p ← payload m.keyGen1 (KeyGen1.unmarshalBinary data)
    return { m with header := header, keyGen1 := p }
  else if header.type = MsgType.keyGen2 then do
    let p ← payload m.keyGen2 (KeyGen2.unmarshalBinary data)
    return { m with header := header, keyGen2 := p }
  else if header.type = MsgType.sign1 then do
    let p ← payload m.sign1 (Sign1.unmarshalBinary data)
    return { m with header := header, sign1 := p }
  else if header.type = MsgType.sign2 then do
    let p ← payload m.sign2 (Sign2.unmarshalBinary data)
    return { m with header := header, sign2 := p }
  else .err .invalidType

/-- The zero value `Message{}` (`var msgTmp messages.Message`, pkg/helpers/parties.go:26). -/
def fresh : Message G := { header := ⟨0, 0, 0⟩ }

/-- `Equal(other)` for a `*Message` argument (pkg/messages/messages.go:125-154). -/
def equal (m other : Message G) : Bool :=
  if m.header.equal other.header = false then false
  else if m.header.type = MsgType.keyGen1 then
    match m.keyGen1, other.keyGen1 with
    | some a, some b => a.equal b
    | _, _ => false
  else if m.header.type = MsgType.keyGen2 then
    match m.keyGen2, other.keyGen2 with
    | some a, some b => a.equal b
    | _, _ => false
  else if m.header.type = MsgType.sign1 then
    match m.sign1, other.sign1 with
    | some a, some b => a.equal b
    | _, _ => false
  else if m.header.type = MsgType.sign2 then
    match m.sign2, other.sign2 with
    | some a, some b => a.equal b
    | _, _ => false
  else false

end Message

end Verif
