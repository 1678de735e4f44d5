import Verif.Model.State
import Verif.Model.Sign

/-!
Slices in memory.  Elsewhere in the model a slice is the list of its elements.  Here it is what the Go language defines, a window into an array that
other slices may look at as well, and the functions that append to a slice, copy it, or write into it are followed write by write.

The arrays are numbered in the order they are allocated.  The length of an array never changes, so all that can happen to it is that cells are written.
-/

namespace Verif

/-- The memory for elements of one type: arrays, of which the first `next` are allocated.  Simplified: arrays are never freed, as nothing with a slice of
them could tell. -/
structure Mem (α : Type) where
  array : Nat → List α
  next : Nat

/-- A slice: a pointer into an array, a length and a capacity, such as `existing` of `BytesAppend` (pkg/messages/messages.go:29). -/
structure Slice where
  arr : Nat
  off : Nat
  len : Nat
  cap : Nat
  deriving DecidableEq

namespace Mem

variable {α : Type}

/-- What is found in memory after running a piece of code, and its result; the code is that of the functions below, starting with
`BytesAppend` (pkg/messages/header.go:70-90). -/
abbrev Run (α β : Type) := StateM (Mem α) β

/-- A slice as the language makes them: its array is allocated, and has room for its capacity (as `data`, pkg/messages/header.go:27). -/
structure Wf (m : Mem α) (s : Slice) : Prop where
  arr : s.arr < m.next
  len : s.len ≤ s.cap
  cap : s.off + s.cap ≤ (m.array s.arr).length

/-- The elements of a slice, as `range` or `sha512.Sum512(buffer)` see them (pkg/frost/sign/round1.go:72). -/
def read (m : Mem α) (s : Slice) : List α := ((m.array s.arr).drop s.off).take s.len

/-- `s[i]`, when it is in range (`msg` of the `range` loop at pkg/state/state.go:171). -/
def cell (m : Mem α) (s : Slice) (i : Nat) : Option α := if i < s.len then (m.array s.arr)[s.off + i]? else none

/-- Writing `vs` into the cells of the slice's array from index `i` of the slice on: the copying done by `append` and `copy`
(pkg/messages/header.go:86-88, pkg/frost/sign/round1.go:69, pkg/frost/party/idslice.go:59). -/
def write (m : Mem α) (s : Slice) (i : Nat) (vs : List α) : Mem α :=
  { m with array := fun a =>
      if a = s.arr then (m.array a).take (s.off + i) ++ vs ++ (m.array a).drop (s.off + i + vs.length) else m.array a }

/-- A new array, for `make` or `append` (pkg/messages/header.go:27, 86-88). -/
def allocate (m : Mem α) (content : List α) : Mem α :=
  { array := fun a => if a = m.next then content else m.array a, next := m.next + 1 }

/-- `make([]T, len, cap)` (pkg/messages/header.go:27, pkg/frost/party/idslice.go:58): a new array of zero values. -/
def make [Inhabited α] (len cap : Nat) : Run α Slice := fun m =>
  (⟨m.next, 0, len, cap⟩, m.allocate (List.replicate cap default))

/-- `append(s, vs...)` (pkg/messages/header.go:86-88): in place when there is room, otherwise into a new array, whose capacity the runtime chooses.
`grow` is that choice, given the old capacity and the length needed. -/
def append [Inhabited α] (grow : Nat → Nat → Nat) (s : Slice) (vs : List α) : Run α Slice := fun m =>
  let len := s.len + vs.length
  if len ≤ s.cap then ({ s with len := len }, m.write s s.len vs)
  else
    let cap := max len (grow s.cap len)
    (⟨m.next, 0, len, cap⟩, m.allocate (m.read s ++ vs ++ List.replicate (cap - len) default))

/-- `copy(s[i:], vs)` for `i` at most the length of `s` (pkg/frost/sign/round1.go:69, pkg/frost/party/idslice.go:59): as many elements as both have. -/
def copy (s : Slice) (i : Nat) (vs : List α) : Run α Unit := fun m =>
  ((), m.write s i (vs.take (s.len - i)))

/-- `s[:n]`, for `n` at most the capacity (`s.queue[:0]`, pkg/state/state.go:169). -/
def upTo (s : Slice) (n : Nat) : Slice := { s with len := n }

end Mem

open Mem

variable {G : Type} [RGroup G]

/-- `Header.BytesAppend(existing)` (pkg/messages/header.go:70-90), in memory.  Here and below what `Bytes()` of an ID, a scalar or an element returns is
taken as a value: it is a fresh slice that nothing else looks at. -/
def Header.bytesAppendMem (grow : Nat → Nat → Nat) (h : Header) (existing : Slice) : Run UInt8 (GoRes Slice) :=
  match Header.check h.type h.fromID h.toID with
  | .err e => return .err e
  | .panic => return .panic
  | .ok () => do
    let existing ← append grow existing [h.type]
    let existing ← append grow existing h.fromID.bytes
    let existing ← append grow existing h.toID.bytes
    return .ok existing

/-- `Header.MarshalBinary()` (pkg/messages/header.go:26-29), in memory. -/
def Header.marshalBinaryMem (grow : Nat → Nat → Nat) (h : Header) : Run UInt8 (GoRes Slice) := do
  let data ← make 0 headerSize
  h.bytesAppendMem grow data

/-- `Schnorr.BytesAppend(existing)` (pkg/internal/zk/schnorr.go:119-123), in memory. -/
def Schnorr.bytesAppendMem (grow : Nat → Nat → Nat) (proof : Schnorr) (existing : Slice) : Run UInt8 Slice := do
  let existing ← append grow existing proof.S.bytes
  let existing ← append grow existing proof.R.bytes
  return existing

/-- `Schnorr.MarshalBinary()` (pkg/internal/zk/schnorr.go:97-100), in memory. -/
def Schnorr.marshalBinaryMem (grow : Nat → Nat → Nat) (proof : Schnorr) : Run UInt8 Slice := do
  let buf ← make 0 64
  proof.bytesAppendMem grow buf

/-- The loop of `Exponent.BytesAppend` (pkg/internal/polynomial/exponent.go:217-219), in memory. -/
def Exponent.appendLoopMem (grow : Nat → Nat → Nat) : List G → Slice → Run UInt8 Slice
  | [], existing => return existing
  | c :: cs, existing => do
    let existing ← append grow existing (RGroup.bytes c)
    appendLoopMem grow cs existing

/-- `Exponent.BytesAppend(existing)` (pkg/internal/polynomial/exponent.go:215-221), in memory. -/
def Exponent.bytesAppendMem (grow : Nat → Nat → Nat) (p : Exponent G) (existing : Slice) : Run UInt8 Slice := do
  let existing ← append grow existing (ID.bytes (Exponent.degree p))
  Exponent.appendLoopMem grow p existing

/-- `Exponent.MarshalBinary()` (pkg/internal/polynomial/exponent.go:179-182), in memory. -/
def Exponent.marshalBinaryMem (grow : Nat → Nat → Nat) (p : Exponent G) : Run UInt8 Slice := do
  let buf ← make 0 (Exponent.size p)
  Exponent.bytesAppendMem grow p buf

/-- `KeyGen1.BytesAppend(existing)` (pkg/messages/keygen1.go:29-40), in memory. -/
def KeyGen1.bytesAppendMem (grow : Nat → Nat → Nat) (m : KeyGen1 G) (existing : Slice) : Run UInt8 Slice := do
  let existing ← m.proof.bytesAppendMem grow existing
  let existing ← Exponent.bytesAppendMem grow m.commitments existing
  return existing

/-- `KeyGen1.MarshalBinary()` (pkg/messages/keygen1.go:43-46), in memory. -/
def KeyGen1.marshalBinaryMem (grow : Nat → Nat → Nat) (m : KeyGen1 G) : Run UInt8 Slice := do
  let buf ← make 0 m.size
  m.bytesAppendMem grow buf

/-- `KeyGen2.BytesAppend(existing)` (pkg/messages/keygen2.go:28-30), in memory. -/
def KeyGen2.bytesAppendMem (grow : Nat → Nat → Nat) (m : KeyGen2) (existing : Slice) : Run UInt8 Slice :=
  append grow existing m.share.bytes

/-- `KeyGen2.MarshalBinary()` (pkg/messages/keygen2.go:33-36), in memory. -/
def KeyGen2.marshalBinaryMem (grow : Nat → Nat → Nat) (m : KeyGen2) : Run UInt8 Slice := do
  let buf ← make 0 32
  m.bytesAppendMem grow buf

/-- `Sign1.BytesAppend(existing)` (pkg/messages/sign1.go:31-35), in memory. -/
def Sign1.bytesAppendMem (grow : Nat → Nat → Nat) (m : Sign1 G) (existing : Slice) : Run UInt8 Slice := do
  let existing ← append grow existing (RGroup.bytes m.Di)
  let existing ← append grow existing (RGroup.bytes m.Ei)
  return existing

/-- `Sign1.MarshalBinary()` (pkg/messages/sign1.go:38-41), in memory. -/
def Sign1.marshalBinaryMem (grow : Nat → Nat → Nat) (m : Sign1 G) : Run UInt8 Slice := do
  let buf ← make 0 64
  m.bytesAppendMem grow buf

/-- `Sign2.BytesAppend(existing)` (pkg/messages/sign2.go:28-30), in memory. -/
def Sign2.bytesAppendMem (grow : Nat → Nat → Nat) (m : Sign2) (existing : Slice) : Run UInt8 Slice :=
  append grow existing m.Zi.bytes

/-- `Sign2.MarshalBinary()` (pkg/messages/sign2.go:33-36), in memory. -/
def Sign2.marshalBinaryMem (grow : Nat → Nat → Nat) (m : Sign2) : Run UInt8 Slice := do
  let buf ← make 0 32
  m.bytesAppendMem grow buf

/-- `Message.BytesAppend(existing)` (pkg/messages/messages.go:29-55), in memory. -/
def Message.bytesAppendMem (grow : Nat → Nat → Nat) (m : Message G) (existing : Slice) : Run UInt8 (GoRes Slice) := do
  match ← m.header.bytesAppendMem grow existing with
  | .err e => return .err e
  | .panic => return .panic
  | .ok existing =>
    if m.header.type = MsgType.keyGen1 then
      match m.keyGen1 with
      | some p => return .ok (← p.bytesAppendMem grow existing)
      | none => return .err .noData
    else if m.header.type = MsgType.keyGen2 then
      match m.keyGen2 with
      | some p => return .ok (← p.bytesAppendMem grow existing)
      | none => return .err .noData
    else if m.header.type = MsgType.sign1 then
      match m.sign1 with
      | some p => return .ok (← p.bytesAppendMem grow existing)
      | none => return .err .noData
    else if m.header.type = MsgType.sign2 then
      match m.sign2 with
      | some p => return .ok (← p.bytesAppendMem grow existing)
      | none => return .err .noData
    else return .err .noData

/-- `Message.MarshalBinary()` (pkg/messages/messages.go:81-84), in memory. -/
def Message.marshalBinaryMem (grow : Nat → Nat → Nat) (m : Message G) : Run UInt8 (GoRes Slice) := do
  let buf ← make 0 m.size
  m.bytesAppendMem grow buf

/-- `SecretShare.MarshalBinary()` (pkg/eddsa/secret_share.go:34-39), in memory. -/
def SecretShare.marshalBinaryMem (grow : Nat → Nat → Nat) (sk : SecretShare G) : Run UInt8 Slice := do
  let data ← make 0 (2 + 32)
  let data ← append grow data sk.id.bytes
  let data ← append grow data sk.secret.bytes
  return data

/-- `Signature.ToEd25519()` (pkg/eddsa/signature.go:24-29), in memory. -/
def Signature.toEd25519Mem (grow : Nat → Nat → Nat) (sig : Signature G) : Run UInt8 Slice := do
  let out ← make 0 64
  let out ← append grow out (RGroup.bytesEd25519 sig.R)
  let out ← append grow out sig.S.bytes
  return out

/-- `Signature.BytesAppend(existing)` (pkg/eddsa/signature.go:75-79), in memory. -/
def Signature.bytesAppendMem (grow : Nat → Nat → Nat) (sig : Signature G) (existing : Slice) : Run UInt8 Slice := do
  let existing ← append grow existing (RGroup.bytes sig.R)
  let existing ← append grow existing sig.S.bytes
  return existing

/-- `Signature.MarshalBinary()` (pkg/eddsa/signature.go:51-54), in memory. -/
def Signature.marshalBinaryMem (grow : Nat → Nat → Nat) (sig : Signature G) : Run UInt8 Slice := do
  let out ← make 0 64
  sig.bytesAppendMem grow out

/-- `ComputeChallenge(R, groupKey, message)` (pkg/eddsa/signature.go:32-44), in memory: `message` is a slice of the caller. -/
def computeChallengeMem (sha : Sha512) (grow : Nat → Nat → Nat) (R groupKey : G) (message : Slice) : Run UInt8 (GoRes Scalar) := do
  let data ← make 0 (64 + message.len)
  let data ← append grow data (RGroup.bytesEd25519 R)
  let data ← append grow data (PublicKey.toEd25519 groupKey)
  let data ← append grow data ((← get).read message)
  let digest := sha.sum ((← get).read data)
  match Scalar.setUniformBytes 0 digest with
  | (_, true) => return .panic
  | (s, false) => return .ok s

namespace IDSlice

/-- `Copy()` (pkg/frost/party/idslice.go:55-61), in memory. -/
def copyMem (ids : Slice) : Run ID Slice := do
  let newIds ← make ids.len ids.len
  Mem.copy newIds 0 ((← get).read ids)
  return newIds

/-- `sort.Slice(ids, …)` (pkg/frost/party/idslice.go:13), in place.  Simplified: the swaps of the library are one write of the sorted list. -/
def sortMem (ids : Slice) : Run ID Unit := do
  Mem.copy ids 0 (((← get).read ids).insertionSort (· ≤ ·))

/-- `NewIDSlice(partyIDs)` (pkg/frost/party/idslice.go:11-15), in memory. -/
def newMem (partyIDs : Slice) : Run ID Slice := do
  let ids ← copyMem partyIDs
  sortMem ids
  return ids

end IDSlice

namespace Sign

/-- `sizeBuffer` of `computeRhos` (pkg/frost/sign/round1.go:38-40): `N() * (IDByteSize + 32 + 32)` is a product of `uint16`, which keeps the low 16 bits. -/
def sizeBuffer (n : Nat) : Nat :=
  hashDomainSeparation.length + 2 + 64 + (UInt16.ofNat n * (2 + 32 + 32)).toNat

/-- The loop computing B (pkg/frost/sign/round1.go:60-65), in memory. -/
def rhoBufferLoopMem (grow : Nat → Nat → Nat) (parties : GoMap (Signer G)) : List ID → Slice → Run UInt8 (GoRes Slice)
  | [], buffer => return .ok buffer
  | id :: ids, buffer =>
    match parties.get? id with
    | none => return .panic
    | some otherParty => do
      let buffer ← append grow buffer id.bytes
      match otherParty.Di with
      | none => return .panic
      | some D =>
        let buffer ← append grow buffer (RGroup.bytes D)
        match otherParty.Ei with
        | none => return .panic
        | some E =>
          let buffer ← append grow buffer (RGroup.bytes E)
          rhoBufferLoopMem grow parties ids buffer

/-- The loop hashing for every party (pkg/frost/sign/round1.go:67-74), in memory. -/
def rhoLoopMem (sha : Sha512) (buffer : Slice) : List ID → GoMap (Signer G) → Run UInt8 (GoRes (GoMap (Signer G)))
  | [], parties => return .ok parties
  | id :: ids, parties => do
    Mem.copy buffer hashDomainSeparation.length id.bytes
    let digest := sha.sum ((← get).read buffer)
    match parties.get? id with
    | none => return .panic
    | some p => rhoLoopMem sha buffer ids (parties.set id { p with Pi := (Scalar.setUniformBytes p.Pi digest).1 })

/-- `computeRhos()` (pkg/frost/sign/round1.go:28-75), in memory. -/
def computeRhosMem (sha : Sha512) (grow : Nat → Nat → Nat) (r : Round G) : Run UInt8 (GoRes (GoMap (Signer G))) := do
  let messageHash := sha.sum r.message
  let buffer ← make 0 (sizeBuffer r.partyIDs.length)
  let buffer ← append grow buffer hashDomainSeparation
  let buffer ← append grow buffer r.selfID.bytes
  let buffer ← append grow buffer messageHash
  match ← rhoBufferLoopMem grow r.parties r.partyIDs buffer with
  | .err e => return .err e
  | .panic => return .panic
  | .ok buffer => rhoLoopMem sha buffer r.partyIDs r.parties

end Sign

namespace State

/-- The loop moving messages of the new current type out of the queue (pkg/state/state.go:171-178), in memory: `newQueue` is a slice of the array that is
being read.  There are `k` messages to go, the next at index `i`. -/
def dequeueLoopMem (grow : Nat → Nat → Nat) (current : MsgType) (queue : Slice) :
    (k i : Nat) → GoMap (Option (Message G)) → Slice → Run (Option (Message G)) (GoRes (GoMap (Option (Message G)) × Slice))
  | 0, _, received, newQueue => return .ok (received, newQueue)
  | k + 1, i, received, newQueue => do
    match (← get).cell queue i with
    | none => return .panic
    | some none => return .panic
    | some (some msg) =>
      if msg.header.type = current then
        dequeueLoopMem grow current queue k (i + 1) (received.set msg.header.fromID (some msg)) newQueue
      else
        let newQueue ← append grow newQueue [some msg]
        dequeueLoopMem grow current queue k (i + 1) received newQueue

/-- The part of `ProcessAll` that goes through the queue (pkg/state/state.go:169-179), in memory. -/
def dequeueMem (grow : Nat → Nat → Nat) (current : MsgType) (received : GoMap (Option (Message G))) (queue : Slice) :
    Run (Option (Message G)) (GoRes (GoMap (Option (Message G)) × Slice)) :=
  dequeueLoopMem grow current queue queue.len 0 received (upTo queue 0)

/-- `s.queue = append(s.queue, msg)` (pkg/state/state.go:123), in memory. -/
def enqueueMem (grow : Nat → Nat → Nat) (queue : Slice) (msg : Message G) : Run (Option (Message G)) Slice :=
  append grow queue [some msg]

end State

end Verif
