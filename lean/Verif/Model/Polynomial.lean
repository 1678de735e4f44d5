import Verif.Model.Group
import Verif.Model.Map

/-!
`pkg/internal/polynomial`: secret-sharing polynomials and polynomials in the exponent.
-/

namespace Verif

/-- `type Polynomial struct { coefficients []ristretto.Scalar }` (pkg/internal/polynomial/polynomial.go:11-13), lowest
degree first. -/
abbrev Poly := List Scalar

namespace Poly

/-- `NewPolynomial(degree, constant)` (pkg/internal/polynomial/polynomial.go:15-35): `degree+1` is computed in `uint16`, so
for degree 65535 the slice is empty and `coefficients[0]` panics.  `coins` are the scalars drawn in the loop. -/
def new (degree : UInt16) (constant : Scalar) (coins : Coins) : GoRes Poly :=
  if (degree + 1).toNat = 0 then .panic
  else .ok (constant :: (List.range degree.toNat).map coins)

/-- `Evaluate(index)` (pkg/internal/polynomial/polynomial.go:37-51): panics at 0, else Horner from the highest
coefficient down. -/
def evaluate (p : Poly) (index : Scalar) : GoRes Scalar :=
  if index = 0 then .panic
  else .ok (p.foldr (fun a result => result * index + a) 0)

/-- `Constant()` (pkg/internal/polynomial/polynomial.go:53-57). -/
def constant (p : Poly) : GoRes Scalar := Outcome.deref p[0]?

/-- `Degree()` (pkg/internal/polynomial/polynomial.go:59-62), in `uint16`. -/
def degree (p : Poly) : UInt16 := UInt16.ofNat p.length - 1

/-- `Size()` (pkg/internal/polynomial/polynomial.go:64-68). -/
def size (p : Poly) : Nat := p.length

/-- `Reset()` (pkg/internal/polynomial/polynomial.go:70-76). -/
def reset (p : Poly) : Poly := p.map fun _ => 0

end Poly

/-- `type Exponent struct { coefficients []*ristretto.Element }` (pkg/internal/polynomial/exponent.go:11-14).  The pointers
are non-nil in every value the code builds and hands out; sharing of the pointed-to elements is the subject of
`Verif/Model/Heap.lean`. -/
abbrev Exponent (G : Type) := List G

namespace Exponent

variable {G : Type} [RGroup G]

/-- `NewPolynomialExponent` (pkg/internal/polynomial/exponent.go:16-28). -/
def ofPoly (p : Poly) : Exponent G := p.map fun a => a • (base : G)

/-- The table of powers built in `evaluateVar` (pkg/internal/polynomial/exponent.go:70-79), `prev` being the previous
power: `1`, `index`, then each times `index`. -/
def powersFrom (index : Scalar) : Nat → Nat → Scalar → List Scalar
  | 0, _, _ => []
  | k + 1, i, prev =>
    let cur := if i = 0 then 1 else if i = 1 then index else prev * index
    cur :: powersFrom index k (i + 1) cur

/-- `VarTimeMultiScalarMult` (pkg/ristretto/ristretto.go:380-393): panics on different lengths, else the sum of the
products (dependency contract). -/
def multiScalarMult (s : List Scalar) (p : List G) : GoRes G :=
  if p.length ≠ s.length then .panic else .ok (List.zipWith (· • ·) s p).sum

/-- `evaluateVar` (pkg/internal/polynomial/exponent.go:60-82). -/
def evaluateVar (p : Exponent G) (index : Scalar) : GoRes G :=
  if index = 0 then .panic
  else multiScalarMult (powersFrom index p.length 0 0) p

/-- The loop of `evaluateClassic` (pkg/internal/polynomial/exponent.go:51-56). -/
def classicLoop (index : Scalar) : List G → Scalar → G → G
  | [], _, result => result
  | c :: cs, x, result => classicLoop index cs (x * index) (result + (x • c + (0 : Scalar) • base))

/-- `evaluateClassic` (pkg/internal/polynomial/exponent.go:37-58). -/
def evaluateClassic (p : Exponent G) (index : Scalar) : GoRes G :=
  if index = 0 then .panic else .ok (classicLoop index p 1 0)

/-- `evaluateHorner` (pkg/internal/polynomial/exponent.go:84-102). -/
def evaluateHorner (p : Exponent G) (index : Scalar) : GoRes G :=
  if index = 0 then .panic
  else .ok (p.foldr (fun c result => (index • result + (0 : Scalar) • base) + c) 0)

/-- `Evaluate(index)` (pkg/internal/polynomial/exponent.go:30-35). -/
def evaluate (p : Exponent G) (index : Scalar) : GoRes G := evaluateVar p index

/-- `EvaluateMulti` (pkg/internal/polynomial/exponent.go:104-112). -/
def evaluateMulti (p : Exponent G) : List ID → GoMap G → GoRes (GoMap G)
  | [], m => .ok m
  | id :: ids, m => do
    let x ← id.scalar
    let e ← evaluate p x
    evaluateMulti p ids (m.set id e)

/-- `Degree()` (pkg/internal/polynomial/exponent.go:114-117), in `uint16`. -/
def degree (p : Exponent G) : UInt16 := UInt16.ofNat p.length - 1

/-- `p.Add(q)` (pkg/internal/polynomial/exponent.go:119-131): the new `p`, or the error with `p` unchanged. -/
def add (p q : Exponent G) : GoRes (Exponent G) :=
  if p.length ≠ q.length then .err .lengthMismatch else .ok (List.zipWith (· + ·) p q)

/-- The loop of `Sum` (pkg/internal/polynomial/exponent.go:141-146). -/
def sumLoop : Exponent G → List (Exponent G) → GoRes (Exponent G)
  | summed, [] => .ok summed
  | summed, p :: ps => do
    let s ← add summed p
    sumLoop s ps

/-- `Sum(polynomials)` (pkg/internal/polynomial/exponent.go:133-148): panics on an empty slice. -/
def sum : List (Exponent G) → GoRes (Exponent G)
  | [] => .panic
  | p :: ps => sumLoop p ps

/-- `Reset()` (pkg/internal/polynomial/exponent.go:150-155). -/
def reset (p : Exponent G) : Exponent G := p.map fun _ => 0

/-- `Constant()` (pkg/internal/polynomial/exponent.go:157-161): panics when there is no coefficient. -/
def constant (p : Exponent G) : GoRes G := Outcome.deref p[0]?

/-- `Copy()` (pkg/internal/polynomial/exponent.go:163-172). -/
def copy (p : Exponent G) : Exponent G := p

/-- `BytesAppend(existing)` (pkg/internal/polynomial/exponent.go:215-221): never fails. -/
def bytesAppend (p : Exponent G) (existing : Bytes) : Bytes :=
  p.foldl (fun acc c => acc ++ RGroup.bytes c) (existing ++ ID.bytes (degree p))

/-- `MarshalBinary()` (pkg/internal/polynomial/exponent.go:178-182). -/
def marshalBinary (p : Exponent G) : Bytes := bytesAppend p []

/-- `Size()` (pkg/internal/polynomial/exponent.go:223-225). -/
def size (p : Exponent G) : Nat := 2 + 32 * p.length

/-- The decoding loop of `UnmarshalBinary` (pkg/internal/polynomial/exponent.go:204-211), `k` coefficients to go. -/
def decodeLoop : Nat → Bytes → GoRes (Exponent G)
  | 0, _ => .ok []
  | k + 1, remaining => do
    let b ← sliceTo remaining 32
    let c ← Outcome.orErr (RGroup.setCanonicalBytes b) .nonCanonical
    let remaining ← sliceFrom remaining 32
    let cs ← decodeLoop k remaining
    return c :: cs

/-- `UnmarshalBinary(data)` (pkg/internal/polynomial/exponent.go:184-213); `degree + 1` is computed in `uint16`.  On an
error in the loop the receiver has been partly overwritten; `Exponent.unmarshalInto` of `Model/Receiver` says how. -/
def unmarshalBinary (data : Bytes) : GoRes (Exponent G) := do
  let degree ← ID.fromBytes data
  let coefficientCount := degree + 1
  let remaining ← sliceFrom data 2
  let count := remaining.length
  Outcome.failIf (count % 32 ≠ 0) .wrongLength
  Outcome.failIf (count ≠ coefficientCount.toNat * 32) .wrongLength
  decodeLoop coefficientCount.toNat remaining

/-- `Equal(other)` for an `*Exponent` argument (pkg/internal/polynomial/exponent.go:227-241): lengths, then
coefficient by coefficient. -/
def equal (p q : Exponent G) : Bool :=
  if p.length ≠ q.length then false else (List.zipWith (fun a b => decide (a = b)) p q).all id

end Exponent

end Verif
