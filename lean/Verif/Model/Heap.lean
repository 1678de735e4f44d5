import Verif.Model.Keygen

/-!
Key generation once more, now with the pointers to group elements kept: which cells the round, the messages it is given and the
messages it hands out share.

An `Exponent` is a slice of pointers to elements, so here it is an `Exponent Addr`; a message is a `Message Addr`, and the driver
of `Verif/Model/State.lean` runs unchanged on such messages.  The round object carries the heap.  All other data the rounds use is
copied by the code (scalars are values; `Constant`, `Evaluate`, `NewPublicKeyFromPoint` and `NewSecretShare` return new objects)
and is modelled by value as before.  The messages `KeyGen2`, `Sign1` and `Sign2` hold their scalars and elements by value
(pkg/messages/keygen2.go:12-15, sign1.go:12-16, sign2.go:12-16) and their constructors copy (`*share`, `*commitmentD`,
`*commitmentE`, `*signatureShare`), so only `KeyGen1` is concerned.
-/

namespace Verif

/-- The address of a `ristretto.Element`. -/
abbrev Addr := Nat

/-- The memory holding group elements: the cells, and the first address not in use. -/
structure Heap (G : Type) where
  cell : Addr → G
  next : Addr

namespace Heap

variable {G : Type} [RGroup G]

/-- `*p = v` -/
def write (h : Heap G) (p : Addr) (v : G) : Heap G := { h with cell := fun a => if a = p then v else h.cell a }

/-- `make([]ristretto.Element, n)` and setting the elements to `vs` (pkg/internal/polynomial/exponent.go:19-25): the pointers. -/
def alloc (h : Heap G) (vs : List G) : Heap G × List Addr :=
  ({ cell := fun a => if a < h.next then h.cell a else (vs[a - h.next]?).getD (h.cell a), next := h.next + vs.length },
   (List.range vs.length).map (h.next + ·))

/-- The elements the pointers point to. -/
def read (h : Heap G) (ps : List Addr) : List G := ps.map h.cell

/-- The loop of `p.Add(q)` (pkg/internal/polynomial/exponent.go:126-128): `p.coefficients[i].Add(p.coefficients[i], q.coefficients[i])`,
in place. -/
def addLoop (h : Heap G) : List Addr → List Addr → Heap G
  | p :: ps, q :: qs => addLoop (h.write p (h.cell p + h.cell q)) ps qs
  | _, _ => h

/-- `_ = p.Add(q)` (pkg/internal/polynomial/exponent.go:119-131; pkg/frost/keygen/round1.go:23). -/
def add (h : Heap G) (ps qs : List Addr) : Heap G := if ps.length ≠ qs.length then h else h.addLoop ps qs

/-- `p.Reset()` (pkg/internal/polynomial/exponent.go:150-155). -/
def reset (h : Heap G) : List Addr → Heap G
  | [] => h
  | p :: ps => reset (h.write p 0) ps

end Heap

namespace KeygenHeap

variable {G : Type} [RGroup G]

open Keygen

/-- `type round0 struct` (pkg/frost/keygen/base.go:14-36) with `CommitmentsSum` and `Commitments` as pointers, and the heap. -/
structure Round (G : Type) where
  stage : Stage
  selfID : ID
  partyIDs : IDSlice
  threshold : UInt16
  secret : Scalar
  polynomial : Option Poly
  commitmentsSum : Option (Exponent Addr)
  commitments : GoMap (Exponent Addr)
  hasOutput : Bool
  output : Output G
  heap : Heap G

/-- `NewRound(selfID, partyIDs, threshold)` (pkg/frost/keygen/base.go:45-68) with memory `heap`. -/
def newRound (heap : Heap G) (selfID : ID) (partyIDs : IDSlice) (threshold : UInt16) : GoRes (Round G) := do
  Outcome.failIf (threshold = 0) .thresholdZero
  Outcome.failIf (threshold > IDSlice.N partyIDs - 1) .thresholdTooLarge
  newBaseRound selfID partyIDs
  return { stage := .r0, selfID, partyIDs, threshold, secret := 0, polynomial := none, commitmentsSum := none,
           commitments := [], hasOutput := true, output := {}, heap }

/-- The loop of `Reset()` over `Commitments` (pkg/frost/keygen/base.go:74-76); every order gives the same memory. -/
def resetLoop (h : Heap G) : GoMap (Exponent Addr) → Heap G
  | [] => h
  | (_, p) :: rest => resetLoop (h.reset p) rest

/-- `Reset()` (pkg/frost/keygen/base.go:70-78). -/
def reset (r : Round G) : Option (Round G) := do
  let p ← r.polynomial
  let c ← r.commitmentsSum
  some { r with secret := 0, polynomial := some p.reset, heap := resetLoop (r.heap.reset c) r.commitments, hasOutput := false }

/-- An error-free call inside a method that returns `*state.Error`, as `Keygen.lift`. -/
def lift {α : Type} (r : Round G) : GoRes α → Outcome (StateErr × Round G) α
  | .ok a => .ok a
  | .err e => .err (.new 0 e, r)
  | .panic => .panic

/-- `round0.GenerateMessages()` (pkg/frost/keygen/round0.go:15-40): the message gets the pointer `round.CommitmentsSum`
(line 38; pkg/messages/keygen1.go:16-27 does not copy). -/
def generate0 (sha : Sha512) (coins : Coins) (r : Round G) : Outcome (StateErr × Round G) (Round G × List (Message Addr)) := do
  let secret := coins 0
  let poly ← lift r (Poly.new r.threshold secret fun i => coins (i + 1))
  let heap := (r.heap.alloc (Exponent.ofPoly poly)).1
  let sum := (r.heap.alloc (Exponent.ofPoly poly : Exponent G)).2
  let pub ← lift r (Exponent.constant (heap.read sum))
  let proof ← lift r (Schnorr.new sha r.selfID pub ctx secret (coins (r.threshold.toNat + 1)))
  let x ← lift r r.selfID.scalar
  let share ← lift r (Poly.evaluate poly x)
  let r := { r with secret := share, polynomial := some poly, commitmentsSum := some sum, heap := heap }
  return (r, [Message.newKeyGen1 r.selfID proof sum])

/-- `round1.ProcessMessage(msg)` (pkg/frost/keygen/round1.go:10-25): line 20 keeps the pointer of the message, line 23 adds in
place. -/
def process1 (sha : Sha512) (r : Round G) (msg : Option (Message Addr)) : Outcome (StateErr × Round G) (Round G) := do
  let msg ← Outcome.deref msg
  let sender := msg.header.fromID
  let k ← Outcome.deref msg.keyGen1
  let pub ← lift r (Exponent.constant (r.heap.read k.commitments))
  let valid ← lift r (Schnorr.verify sha k.proof sender pub ctx)
  if valid = false then .err (.new sender .zkFailed, r)
  else do
    let sum ← Outcome.deref r.commitmentsSum
    return { r with commitments := r.commitments.set sender k.commitments, heap := r.heap.add sum k.commitments }

/-- The loop of `round1.GenerateMessages()` (pkg/frost/keygen/round1.go:29-34): `NewKeyGen2` copies the share. -/
def generate1Loop (selfID : ID) (poly : Poly) : List ID → GoRes (List (Message Addr))
  | [] => .ok []
  | id :: ids =>
    if id = selfID then generate1Loop selfID poly ids
    else do
      let x ← id.scalar
      let share ← Poly.evaluate poly x
      let rest ← generate1Loop selfID poly ids
      return Message.newKeyGen2 selfID id share :: rest

/-- `round1.GenerateMessages()` (pkg/frost/keygen/round1.go:27-41). -/
def generate1 (r : Round G) : Outcome (StateErr × Round G) (Round G × List (Message Addr)) := do
  let poly ← Outcome.deref r.polynomial
  let out ← lift r (generate1Loop r.selfID poly r.partyIDs)
  return ({ r with polynomial := some poly.reset }, out)

/-- `round2.ProcessMessage(msg)` (pkg/frost/keygen/round2.go:13-29).  Simplified: line 26, which zeroes the share in the message
object, is left out; the driver never looks at that message again.  `Verif/Model/Pointers.lean` has it. -/
def process2 (r : Round G) (msg : Option (Message Addr)) : Outcome (StateErr × Round G) (Round G) := do
  let msg ← Outcome.deref msg
  let k ← Outcome.deref msg.keyGen2
  let computedShareExp : G := k.share • base
  let id := msg.header.fromID
  let commitment ← Outcome.deref (r.commitments.get? id)
  let x ← lift r r.selfID.scalar
  let shareExp ← lift r (Exponent.evaluate (r.heap.read commitment) x)
  if computedShareExp ≠ shareExp then .err (.new id .vssFailed, r)
  else return { r with secret := r.secret + k.share }

/-- `round2.GenerateMessages()` (pkg/frost/keygen/round2.go:31-44). -/
def generate2 (r : Round G) : Outcome (StateErr × Round G) (Round G × List (Message Addr)) := do
  let sum ← Outcome.deref r.commitmentsSum
  let shares ← lift r (Exponent.evaluateMulti (r.heap.read sum) r.partyIDs [])
  let groupKey ← lift r (Exponent.constant (r.heap.read sum))
  if r.hasOutput = false then .panic
  else return ({ r with output := { pub := some ⟨r.partyIDs.copy, r.threshold, shares, groupKey⟩,
                                    secretKey := some (SecretShare.new r.selfID r.secret) } }, [])

/-- The three rounds as a `Round`, as `Keygen.impl` (pkg/frost/keygen/round0.go:11-13 and 42-44, round1.go:43-45,
round2.go:46-48). -/
def impl (sha : Sha512) : RoundImpl Addr (Round G) where
  selfID r := r.selfID
  partyIDs r := r.partyIDs
  acceptedMessageTypes _ := acceptedMessageTypes
  processMessage r msg := match r.stage with
    | .r0 => .ok r
    | .r1 => process1 sha r msg
    | .r2 => process2 r msg
  generateMessages _ coins r := match r.stage with
    | .r0 => generate0 sha coins r
    | .r1 => generate1 r
    | .r2 => generate2 r
  nextRound r := match r.stage with
    | .r0 => some { r with stage := .r1 }
    | .r1 => some { r with stage := .r2 }
    | .r2 => none
  reset := reset

/-- `frost.NewKeygenState` (pkg/frost/frost.go:16-28) at time `now` with memory `heap`. -/
def newKeygenState (sha : Sha512) (heap : Heap G) (selfID : ID) (partyIDs : IDSlice) (threshold : UInt16) (timeout now : Nat) :
    GoRes (State Addr (Round G)) := do
  let r ← newRound heap selfID partyIDs threshold
  return State.newBaseState (impl sha) r timeout now

end KeygenHeap

end Verif
