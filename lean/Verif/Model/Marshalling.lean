import Verif.Model.Messages
import Verif.Model.Eddsa

/-!
Model of pkg/messages/marshalling.go: the interface `FROSTMarshaler` and the self-test `CheckFROSTMarshaler`, with which the
tests of the message types and of the signature decide that a type is marshalled properly.
-/

namespace Verif

variable {G : Type} [RGroup G]

/-- `type FROSTMarshaler interface` (pkg/messages/marshalling.go:9-19) as a record of its methods.  `unmarshal` takes the receiver
and gives its new value.  `Equal` is left out: `CheckFROSTMarshaler` does not call it. -/
structure Marshaler (α : Type) where
  marshal : α → GoRes Bytes
  unmarshal : α → Bytes → GoRes α
  append : α → Bytes → GoRes Bytes
  size : α → Nat

/-- The errors of `CheckFROSTMarshaler`, one for each `return` (pkg/messages/marshalling.go:30,36,43,47,52,58,62). -/
inductive CheckErr
  | marshal (e : GoErr)
  | unmarshal (e : GoErr)
  | remarshal (e : GoErr)
  | differ
  | size
  | append (e : GoErr)
  | appendDiffer
  deriving DecidableEq

/-- `fmt.Errorf("...: %w", err)` (pkg/messages/marshalling.go:30,36,43,58): the error of a call, wrapped. -/
def CheckErr.wrap {α : Type} (f : GoErr → CheckErr) : GoRes α → Outcome CheckErr α
  | .ok a => .ok a
  | .err e => .err (f e)
  | .panic => .panic

/-- `CheckFROSTMarshaler(input, output)` (pkg/messages/marshalling.go:23-65); on success, the new value of `output`.  Simplified:
`input` and `output` are different objects, as in every call of the function. -/
def checkMarshaler {α : Type} (M : Marshaler α) (input output : α) : Outcome CheckErr α := do
  let firstData ← CheckErr.wrap .marshal (M.marshal input)
  let output ← CheckErr.wrap .unmarshal (M.unmarshal output firstData)
  let secondData ← CheckErr.wrap .remarshal (M.marshal output)
  Outcome.failIf (firstData ≠ secondData) .differ
  Outcome.failIf (M.size input ≠ firstData.length) .size
  let thirdData ← CheckErr.wrap .append (M.append input [])
  Outcome.failIf (firstData ≠ thirdData) .appendDiffer
  return output

/-- `*Header` as a `FROSTMarshaler` (pkg/messages/header.go:26-104). -/
def Marshaler.header : Marshaler Header := ⟨Header.marshalBinary, fun _ => Header.unmarshalBinary, Header.bytesAppend, Header.size⟩

/-- `*Message` as a `FROSTMarshaler` (pkg/messages/messages.go:29-154). -/
def Marshaler.message : Marshaler (Message G) :=
  ⟨Message.marshalBinary, Message.unmarshalBinary, Message.bytesAppend, Message.size⟩

/-- `*KeyGen1` as a `FROSTMarshaler` (pkg/messages/keygen1.go:29-83).  Simplified: the receiver of a failed `UnmarshalBinary` is not
described (the check stops there). -/
def Marshaler.keyGen1 : Marshaler (KeyGen1 G) :=
  ⟨fun m => .ok m.marshalBinary, fun _ => KeyGen1.unmarshalBinary, fun m e => .ok (m.bytesAppend e), KeyGen1.size⟩

/-- `*KeyGen2` as a `FROSTMarshaler` (pkg/messages/keygen2.go:28-61). -/
def Marshaler.keyGen2 : Marshaler KeyGen2 :=
  ⟨fun m => .ok m.marshalBinary, fun _ => KeyGen2.unmarshalBinary, fun m e => .ok (m.bytesAppend e), KeyGen2.size⟩

/-- `*Sign1` as a `FROSTMarshaler` (pkg/messages/sign1.go:31-80). -/
def Marshaler.sign1 : Marshaler (Sign1 G) :=
  ⟨fun m => .ok m.marshalBinary, fun _ => Sign1.unmarshalBinary, fun m e => .ok (m.bytesAppend e), Sign1.size⟩

/-- `*Sign2` as a `FROSTMarshaler` (pkg/messages/sign2.go:28-65). -/
def Marshaler.sign2 : Marshaler Sign2 :=
  ⟨fun m => .ok m.marshalBinary, fun _ => Sign2.unmarshalBinary, fun m e => .ok (m.bytesAppend e), Sign2.size⟩

/-- `*polynomial.Exponent` as a `FROSTMarshaler` (pkg/internal/polynomial/exponent.go:179-241). -/
def Marshaler.exponent : Marshaler (Exponent G) :=
  ⟨fun p => .ok p.marshalBinary, fun _ => Exponent.unmarshalBinary, fun p e => .ok (p.bytesAppend e), Exponent.size⟩

/-- `*zk.Schnorr` as a `FROSTMarshaler` (pkg/internal/zk/schnorr.go:97-141). -/
def Marshaler.schnorr : Marshaler Schnorr :=
  ⟨fun p => .ok p.marshalBinary, fun _ => Schnorr.unmarshalBinary, fun p e => .ok (p.bytesAppend e), Schnorr.size⟩

/-- `*Signature` as a `FROSTMarshaler` (pkg/eddsa/signature.go:51-97). -/
def Marshaler.signature : Marshaler (Signature G) :=
  ⟨fun s => .ok s.marshalBinary, fun _ => Signature.unmarshalBinary, fun s e => .ok (s.bytesAppend e), Signature.size⟩

end Verif
