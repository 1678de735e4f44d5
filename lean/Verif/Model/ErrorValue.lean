import Verif.Model.Helpers
import Verif.Model.Print

/-!
The error values that the code returns: their texts, what they wrap, and what `errors.Is` says about them.

Elsewhere an error is a tag (`GoErr`) and the place it comes from.  Here `errors.New`, `fmt.Errorf` with `%w` and `*state.Error` are values
as in Go, and the decoders are followed once more with the errors they return.
-/

namespace Verif

open Verif.Cmd (lit)

variable {G R : Type} [RGroup G]

/-- The package-level error variables: `messages.ErrInvalidMessage` (pkg/messages/messages.go:16), `eddsa.ErrInvalidMessage`
(pkg/eddsa/signature.go:13), `sign.ErrValidateSigShare` and `sign.ErrValidateSignature` (pkg/frost/sign/round2.go:12-15), and
`errInvalidEncoding` (pkg/ristretto/ristretto.go:278).  Each is a pointer of its own, whatever its text. -/
inductive Sentinel
  | messagesInvalid
  | eddsaInvalid
  | sigShare
  | signature
  | encoding
  deriving DecidableEq, Repr

/-- The text of each (pkg/messages/messages.go:16, pkg/eddsa/signature.go:13, pkg/frost/sign/round2.go:13-14,
pkg/ristretto/ristretto.go:278). -/
def Sentinel.text : Sentinel → Bytes
  | .messagesInvalid => lit "invalid message"
  | .eddsaInvalid => lit "invalid message"
  | .sigShare => lit "signature share is invalid"
  | .signature => lit "full signature is invalid"
  | .encoding => lit "ristretto: invalid element encoding"

/-- An `error`: the result of a call of `errors.New` where it is returned (a pointer that is equal to no other), a package-level
variable, an error made by another library, `fmt.Errorf` with one `%w` at the end of the format (standard library), or a
`*state.Error` (pkg/state/error.go:11-15). -/
inductive ErrVal
  | new (text : Bytes)
  | var (s : Sentinel)
  | library
  | wrap (pre : Bytes) (e : ErrVal)
  | state (partyID : ID) (roundNumber : Nat) (e : ErrVal)
  deriving DecidableEq, Repr

namespace ErrVal

/-- `Error()`: of the standard library's errors, and of `state.Error` (pkg/state/error.go:25-28).  `lib` is the text of the errors of
other libraries. -/
def text (lib : Bytes) : ErrVal → Bytes
  | .new t => t
  | .var s => s.text
  | .library => lib
  | .wrap pre e => pre ++ text lib e
  | .state p r e =>
    lit "party " ++ ID.formatUint p.toNat ++ lit ": round " ++ ID.formatUint r ++ lit ": " ++ text lib e

/-- `errors.Unwrap(err)` (standard library): only the values of `fmt.Errorf` have a method `Unwrap`; `state.Error`
(pkg/state/error.go:11-28) has none. -/
def unwrap : ErrVal → Option ErrVal
  | .wrap _ e => some e
  | _ => none

/-- `errors.Is(err, target)` (standard library) for a package-level `target`: compares pointers along the chain of `Unwrap`.
No error here has a method `Is`. -/
def is (target : Sentinel) : ErrVal → Bool
  | .var s => decide (s = target)
  | .wrap pre e => (unwrap (.wrap pre e)).isSome && is target e
  | .state p r e => (unwrap (.state p r e)).isSome && is target e
  | .new _ => false
  | .library => false

end ErrVal

/-- The errors that the rounds and `State` put into a `*state.Error` or wrap, by their tag: pkg/state/state.go:47, 87, 91, 105, 111, 115;
pkg/frost/keygen/round1.go:17, round2.go:21; pkg/frost/sign/round1.go:21, round2.go:13-14.  The other tags do not occur there. -/
def GoErr.value : GoErr → ErrVal
  | .timeout => .new (lit "message timeout")
  | .finished => .new (lit "protocol already finished")
  | .noMoreMessages => .new (lit "no more messages being accepted")
  | .notAParty => .new (lit "sender is not a party")
  | .alreadyReceived => .new (lit "message from this party was already received")
  | .typeNotAccepted => .new (lit "message type is not accepted for this type of round")
  | .zkFailed => .new (lit "ZK Schnorr failed")
  | .vssFailed => .new (lit "VSS failed to validate")
  | .identityCommitment => .new (lit "commitment Ei or Di was the identity")
  | .badSigShare => .var .sigShare
  | .badSignature => .var .signature
  | _ => .library

/-- The error `Err()` returns (pkg/state/state.go:239-244), a `*state.Error`. -/
def StateErr.value (e : StateErr) : ErrVal := .state e.partyID e.roundNumber e.cause.value

/-- The error of `wrapError` (pkg/state/state.go:60-65): the format with the numbers that stand in it. -/
def HandleErr.value (e : HandleErr) : ErrVal :=
  match e.culprit with
  | none => .wrap (lit "party " ++ ID.formatUint e.party ++ lit ", round " ++ ID.formatUint e.round ++ lit ": ") e.cause.value
  | some c => .wrap (lit "party " ++ ID.formatUint e.party ++ lit ", round " ++ ID.formatUint e.round ++ lit ", culprit " ++ ID.formatUint c ++
      lit ": ") e.cause.value

/-- The result of a call in a function that returns errors as values, for calls that return none (slicing, indexing). -/
def Outcome.noErr {α : Type} : GoRes α → Outcome ErrVal α
  | .ok a => .ok a
  | .err _ => .err .library
  | .panic => .panic

/-- `fmt.Errorf("…%w", err)` around the error of a call. -/
def Outcome.wrapErr {α : Type} (pre : String) : Outcome ErrVal α → Outcome ErrVal α
  | .ok a => .ok a
  | .err e => .err (.wrap (lit pre) e)
  | .panic => .panic

/-- `party.FromBytes(b)` (pkg/frost/party/id.go:58-64) with its error. -/
def ID.fromBytesE (b : Bytes) : Outcome ErrVal ID := do
  Outcome.failIf (b.length < 2) (.new (lit "party.FromBytes: b is not long enough to hold an ID"))
  Outcome.noErr (readBE16 b)

/-- `Scalar.SetCanonicalBytes(b)` (pkg/ristretto/ristretto.go:24, a method of filippo.io/edwards25519): the error is made by the library. -/
def Scalar.setCanonicalBytesE (b : Bytes) : Outcome ErrVal Scalar := Outcome.orErr (Scalar.setCanonicalBytes b) .library

/-- `Element.SetCanonicalBytes(b)` (pkg/ristretto/ristretto.go:278-348) with its error. -/
def elementSetCanonicalBytesE (b : Bytes) : Outcome ErrVal G := Outcome.orErr (RGroup.setCanonicalBytes b) (.var .encoding)

/-- The `switch` and the check of the sender in `Header.UnmarshalBinary` (pkg/messages/header.go:48-62) and in `Header.BytesAppend`
(pkg/messages/header.go:71-85), whose texts start with the name of the method. -/
def Header.checkE (method : String) (type : MsgType) (fromID toID : ID) : Outcome ErrVal Unit := do
  if type = MsgType.keyGen1 ∨ type = MsgType.sign1 ∨ type = MsgType.sign2 then
    Outcome.failIf (toID ≠ 0) (.new (lit method ++ lit ": .To field must be 0 to indicate broadcast"))
  else if type = MsgType.keyGen2 then
    Outcome.failIf (toID = 0) (.new (lit method ++ lit ": MessageTypeKeyGen2 requires a sender (.To field)"))
  else .err (.new (lit method ++ lit ": invalid message type"))
  Outcome.failIf (fromID = 0) (.new (lit method ++ lit ": message must include a non 0 From value"))

/-- `Header.UnmarshalBinary(data)` (pkg/messages/header.go:31-68) with its errors. -/
def Header.unmarshalBinaryE (data : Bytes) : Outcome ErrVal Header := do
  Outcome.failIf (data.length < headerSize) (.new (lit "Header.UnmarshalBinary: data should be at least " ++ ID.formatUint headerSize ++
    lit " bytes (got " ++ ID.formatUint data.length ++ lit ")"))
  let msgType ← Outcome.noErr (goIndex data 0)
  let rest ← Outcome.noErr (sliceFrom data 1)
  let fromID ← Outcome.wrapErr "Header.UnmarshalBinary: from: " (ID.fromBytesE rest)
  let rest ← Outcome.noErr (sliceFrom data (1 + 2))
  let toID ← Outcome.wrapErr "Header.UnmarshalBinary: from: " (ID.fromBytesE rest)
  Header.checkE "Header.UnmarshalBinary" msgType fromID toID
  return ⟨msgType, fromID, toID⟩

/-- `Schnorr.UnmarshalBinary(data)` (pkg/internal/zk/schnorr.go:103-117) with its errors. -/
def Schnorr.unmarshalBinaryE (data : Bytes) : Outcome ErrVal Schnorr := do
  Outcome.failIf (data.length < 64) (.new (lit "length is wrong"))
  let b ← Outcome.noErr (sliceTo data 32)
  let S ← Scalar.setCanonicalBytesE b
  let b ← Outcome.noErr (sliceFrom data 32)
  let R ← Scalar.setCanonicalBytesE b
  return ⟨S, R⟩

/-- The loop of `Exponent.UnmarshalBinary` (pkg/internal/polynomial/exponent.go:204-211) with its errors. -/
def Exponent.decodeLoopE : Nat → Bytes → Outcome ErrVal (Exponent G)
  | 0, _ => .ok []
  | k + 1, remaining => do
    let b ← Outcome.noErr (sliceTo remaining 32)
    let c ← elementSetCanonicalBytesE b
    let remaining ← Outcome.noErr (sliceFrom remaining 32)
    let cs ← decodeLoopE k remaining
    return c :: cs

/-- `Exponent.UnmarshalBinary(data)` (pkg/internal/polynomial/exponent.go:184-213) with its errors. -/
def Exponent.unmarshalBinaryE (data : Bytes) : Outcome ErrVal (Exponent G) := do
  let degree ← ID.fromBytesE data
  let coefficientCount := degree + 1
  let remaining ← Outcome.noErr (sliceFrom data 2)
  let count := remaining.length
  Outcome.failIf (count % 32 ≠ 0) (.new (lit "length of data is wrong"))
  Outcome.failIf (count ≠ coefficientCount.toNat * 32) (.new (lit "wrong number of coefficients embedded"))
  decodeLoopE coefficientCount.toNat remaining

/-- `KeyGen1.UnmarshalBinary(data)` (pkg/messages/keygen1.go:49-65) with its errors. -/
def KeyGen1.unmarshalBinaryE (data : Bytes) : Outcome ErrVal (KeyGen1 G) := do
  Outcome.failIf (data.length < 64) (.wrap (lit "msg1: ") (.var .messagesInvalid))
  let b ← Outcome.noErr (sliceTo data 64)
  let proof ← Schnorr.unmarshalBinaryE b
  let b ← Outcome.noErr (sliceFrom data 64)
  let commitments ← Exponent.unmarshalBinaryE b
  return ⟨proof, commitments⟩

/-- `KeyGen2.UnmarshalBinary(data)` (pkg/messages/keygen2.go:39-46) with its errors. -/
def KeyGen2.unmarshalBinaryE (data : Bytes) : Outcome ErrVal KeyGen2 := do
  Outcome.failIf (data.length ≠ 32) (.wrap (lit "msg2: ") (.var .messagesInvalid))
  let share ← Scalar.setCanonicalBytesE data
  return ⟨share⟩

/-- `Sign1.UnmarshalBinary(data)` (pkg/messages/sign1.go:44-62) with its errors. -/
def Sign1.unmarshalBinaryE (data : Bytes) : Outcome ErrVal (Sign1 G) := do
  Outcome.failIf (data.length ≠ 64) (.wrap (lit "msg1: ") (.var .messagesInvalid))
  let b ← Outcome.noErr (sliceTo data 32)
  let D ← Outcome.wrapErr "msg1.D: " (elementSetCanonicalBytesE b)
  let b ← Outcome.noErr (sliceFrom data 32)
  let E ← Outcome.wrapErr "msg1.E: " (elementSetCanonicalBytesE b)
  return ⟨D, E⟩

/-- `Sign2.UnmarshalBinary(data)` (pkg/messages/sign2.go:39-50) with its errors. -/
def Sign2.unmarshalBinaryE (data : Bytes) : Outcome ErrVal Sign2 := do
  Outcome.failIf (data.length ≠ 32) (.wrap (lit "msg2: ") (.var .messagesInvalid))
  let Zi ← Outcome.wrapErr "msg2.Zi: " (Scalar.setCanonicalBytesE data)
  return ⟨Zi⟩

/-- `Signature.UnmarshalBinary(data)` (pkg/eddsa/signature.go:56-73) with its errors. -/
def Signature.unmarshalBinaryE (data : Bytes) : Outcome ErrVal (Signature G) := do
  Outcome.failIf (data.length < 64) (.wrap (lit "sig: ") (.var .eddsaInvalid))
  let b ← Outcome.noErr (sliceTo data 32)
  let R ← Outcome.wrapErr "sig.Ri: " (elementSetCanonicalBytesE b)
  let b ← Outcome.noErr (sliceFrom data 32)
  let S ← Outcome.wrapErr "sig.S: " (Scalar.setCanonicalBytesE b)
  return ⟨R, S⟩

/-- `SecretShare.UnmarshalBinary(data)` (pkg/eddsa/secret_share.go:41-57) with its errors. -/
def SecretShare.unmarshalBinaryE (data : Bytes) : Outcome ErrVal (SecretShare G) := do
  Outcome.failIf (data.length ≠ 34) (.new (lit "SecretShare: data is not the right size"))
  let id ← ID.fromBytesE data
  let data ← Outcome.noErr (sliceFrom data 2)
  let secret ← Scalar.setCanonicalBytesE data
  return ⟨id, secret, secret • base⟩

/-- `if err = p.UnmarshalBinary(data); err == nil { m.P = &p }` (pkg/messages/messages.go:96-117): `err` is not looked at again. -/
def Message.payloadE {α : Type} (old : Option α) (decoded : Outcome ErrVal α) : Outcome ErrVal (Option α) :=
  match decoded with
  | .ok p => .ok (some p)
  | .err _ => .ok old
  | .panic => .panic

/-- `Message.UnmarshalBinary(data)` (pkg/messages/messages.go:87-123) with its errors. -/
def Message.unmarshalBinaryE (m : Message G) (data : Bytes) : Outcome ErrVal (Message G) := do
  let header ← Header.unmarshalBinaryE data
  let data ← Outcome.noErr (sliceFrom data header.size)
  if header.type = MsgType.keyGen1 then do
    let p ← payloadE m.keyGen1 (KeyGen1.unmarshalBinaryE data)
    return { m with header := header, keyGen1 := p }
  else if header.type = MsgType.keyGen2 then do
    let p ← payloadE m.keyGen2 (KeyGen2.unmarshalBinaryE data)
    return { m with header := header, keyGen2 := p }
  else if header.type = MsgType.sign1 then do
    let p ← payloadE m.sign1 (Sign1.unmarshalBinaryE data)
    return { m with header := header, sign1 := p }
  else if header.type = MsgType.sign2 then do
    let p ← payloadE m.sign2 (Sign2.unmarshalBinaryE data)
    return { m with header := header, sign2 := p }
  else .err (.new (lit "messages.UnmarshalBinary: invalid message type"))

/-- `Header.BytesAppend(existing)` (pkg/messages/header.go:70-90) with its errors. -/
def Header.bytesAppendE (h : Header) (existing : Bytes) : Outcome ErrVal Bytes := do
  Header.checkE "Header.BytesAppend" h.type h.fromID h.toID
  return existing ++ [h.type] ++ h.fromID.bytes ++ h.toID.bytes

/-- The error at the end of `Message.BytesAppend` (pkg/messages/messages.go:54). -/
def Message.noData : ErrVal := .new (lit "message does not contain any data")

/-- `Message.BytesAppend(existing)` (pkg/messages/messages.go:29-55) with its errors. -/
def Message.bytesAppendE (m : Message G) (existing : Bytes) : Outcome ErrVal Bytes := do
  let existing ← Outcome.wrapErr "message.BytesAppend: " (m.header.bytesAppendE existing)
  if m.header.type = MsgType.keyGen1 then
    match m.keyGen1 with
    | some p => return p.bytesAppend existing
    | none => .err noData
  else if m.header.type = MsgType.keyGen2 then
    match m.keyGen2 with
    | some p => return p.bytesAppend existing
    | none => .err noData
  else if m.header.type = MsgType.sign1 then
    match m.sign1 with
    | some p => return p.bytesAppend existing
    | none => .err noData
  else if m.header.type = MsgType.sign2 then
    match m.sign2 with
    | some p => return p.bytesAppend existing
    | none => .err noData
  else .err noData

/-- The loop over the inputs of `PartyRoutine` (pkg/helpers/parties.go:25-34) with the error it returns. -/
def routineInputsE (impl : RoundImpl G R) : List Bytes → State G R → Option (State G R × Option ErrVal)
  | [], s => some (s, none)
  | m :: rest, s =>
    match Message.unmarshalBinaryE (Message.fresh : Message G) m with
    | .panic => none
    | .err e => some (s, some (.wrap (lit "failed to unmarshal message: ") e))
    | .ok msgTmp =>
      match State.handleMessage impl s msgTmp with
      | (s, some e) => some (s, some (.wrap (lit "failed to handle message: ") e.value))
      | (s, none) => routineInputsE impl rest s

/-- The loop over the outputs of `PartyRoutine` (pkg/helpers/parties.go:36-43) with the error it returns. -/
def routineOutputsE : List (Message G) → List Bytes → Outcome ErrVal (List Bytes)
  | [], out => .ok out
  | msgOut :: rest, out =>
    match Message.bytesAppendE msgOut [] with
    | .ok b => routineOutputsE rest (out ++ [b])
    | .err e => .err e
    | .panic => .panic

/-- `PartyRoutine(in, s)` (pkg/helpers/parties.go:24-51) with the error it returns; simplified as `partyRoutine` is. -/
def partyRoutineE (impl : RoundImpl G R) (ord : MapOrder) (coins : Coins) (input : List Bytes) (s : State G R) :
    Option (State G R × Except ErrVal (List Bytes)) :=
  match routineInputsE impl input s with
  | none => none
  | some (s, some e) => some (s, .error e)
  | some (s, none) =>
    match State.processAll impl ord coins s with
    | none => none
    | some (s, msgsOut) =>
      match routineOutputsE msgsOut [] with
      | .panic => none
      | .err e => some (s, .error e)
      | .ok out =>
        if s.isFinished then
          match s.waitForError with
          | some (some err) => some (s, .error err.value)
          | _ => some (s, .ok out)
        else some (s, .ok out)

end Verif
