import Verif.Model.Keygen

/-!
`KeyGen1` payloads whose two pointers may be nil, which `Verif/Model/Messages.lean` leaves out.  Both fields are exported, so that such a
message can be put together by a caller (in Go: `&messages.KeyGen1{}`), although not by decoding.
-/

namespace Verif.Raw

variable {G : Type} [RGroup G]

/-- `type KeyGen1 struct` (pkg/messages/keygen1.go:11-14) with its pointers; the elements of the commitments are not nil. -/
structure KeyGen1 (G : Type) where
  proof : Option Schnorr
  commitments : Option (Exponent G)
  deriving DecidableEq

/-- `type Message struct` (pkg/messages/messages.go:8-14) with such a payload. -/
structure Message (G : Type) where
  header : Header
  keyGen1 : Option (KeyGen1 G) := none
  keyGen2 : Option KeyGen2 := none
  sign1 : Option (Sign1 G) := none
  sign2 : Option Sign2 := none
  deriving DecidableEq

namespace KeyGen1

/-- `BytesAppend(existing)` (pkg/messages/keygen1.go:29-40): `proof.S` (pkg/internal/zk/schnorr.go:120) and `p.coefficients`
(pkg/internal/polynomial/exponent.go:116) panic for a nil receiver. -/
def bytesAppend (m : KeyGen1 G) (existing : Bytes) : GoRes Bytes := do
  let proof ← Outcome.deref m.proof
  let existing := proof.bytesAppend existing
  let commitments ← Outcome.deref m.commitments
  return commitments.bytesAppend existing

/-- `Size()` (pkg/messages/keygen1.go:67-69): that of the proof does not look at its receiver (pkg/internal/zk/schnorr.go:125-127), that of
the commitments does (pkg/internal/polynomial/exponent.go:223-225). -/
def size (m : KeyGen1 G) : GoRes Nat := do
  let commitments ← Outcome.deref m.commitments
  return 64 + commitments.size

/-- `Equal(other)` for a `*KeyGen1` argument (pkg/messages/keygen1.go:71-83).  A nil pointer in an interface passes the type assertions
(pkg/internal/zk/schnorr.go:130, pkg/internal/polynomial/exponent.go:228), then reading its fields panics. -/
def equal (m other : KeyGen1 G) : GoRes Bool := do
  let a ← Outcome.deref m.proof
  let b ← Outcome.deref other.proof
  if b.equal a = false then return false
  else do
    let b ← Outcome.deref other.commitments
    let a ← Outcome.deref m.commitments
    if b.equal a = false then return false else return true

end KeyGen1

namespace Message

/-- The message as `Verif/Model/Messages.lean` has it; a payload with a nil pointer is left out.  Not in the code (a function for the
statements and for the cases of pkg/messages/messages.go:29-154 that do not read `KeyGen1`). -/
def value (m : Message G) : Verif.Message G :=
  { header := m.header, keyGen1 := m.keyGen1.bind fun k => k.proof.bind fun p => k.commitments.map fun c => ⟨p, c⟩, keyGen2 := m.keyGen2,
    sign1 := m.sign1, sign2 := m.sign2 }

/-- `BytesAppend(existing)` (pkg/messages/messages.go:29-55); the cases of the other types do not read `KeyGen1`. -/
def bytesAppend (m : Message G) (existing : Bytes) : GoRes Bytes :=
  if m.header.type = MsgType.keyGen1 then do
    let existing ← m.header.bytesAppend existing
    match m.keyGen1 with
    | some p => p.bytesAppend existing
    | none => .err .noData
  else m.value.bytesAppend existing

/-- `Size()` (pkg/messages/messages.go:57-78). -/
def size (m : Message G) : GoRes Nat :=
  if m.header.type = MsgType.keyGen1 then
    match m.keyGen1 with
    | some p => do
      let n ← p.size
      return m.header.size + n
    | none => return m.header.size + 0
  else return m.value.size

/-- `MarshalBinary()` (pkg/messages/messages.go:81-84): the size is computed first. -/
def marshalBinary (m : Message G) : GoRes Bytes := do
  let _ ← m.size
  m.bytesAppend []

/-- `Equal(other)` for a `*Message` argument (pkg/messages/messages.go:125-154). -/
def equal (m other : Message G) : GoRes Bool :=
  if m.header.equal other.header = false then return false
  else if m.header.type = MsgType.keyGen1 then
    match m.keyGen1, other.keyGen1 with
    | some a, some b => a.equal b
    | _, _ => return false
  else return m.value.equal other.value

end Message

/-- `round1.ProcessMessage(msg)` of the key generation (pkg/frost/keygen/round1.go:10-25): `Constant` of nil commitments panics
(pkg/internal/polynomial/exponent.go:158-161), and so does `Verify` of a nil proof (pkg/internal/zk/schnorr.go:59-69). -/
def process1 (sha : Sha512) (r : Keygen.Round G) (msg : Option (Message G)) : Outcome (StateErr × Keygen.Round G) (Keygen.Round G) := do
  let msg ← Outcome.deref msg
  let sender := msg.header.fromID
  let k ← Outcome.deref msg.keyGen1
  let commitments ← Outcome.deref k.commitments
  let pub ← Keygen.lift r (Exponent.constant commitments)
  let proof ← Outcome.deref k.proof
  let valid ← Keygen.lift r (Schnorr.verify sha proof sender pub Keygen.ctx)
  if valid = false then .err (.new sender .zkFailed, r)
  else do
    let sum ← Outcome.deref r.commitmentsSum
    let sum := match Exponent.add sum commitments with
      | .ok s => s
      | _ => sum
    return { r with commitments := r.commitments.set sender commitments, commitmentsSum := some sum }

end Verif.Raw
