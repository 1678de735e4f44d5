import Verif.Model.Bytes
import Verif.Lemmas.Primes

/-!
`filippo.io/edwards25519/field` (v1.0.0-rc.1, a dependency that is not part of the repository): integers modulo `2^255 - 19`.
`Add`, `Subtract`, `Negate`, `Multiply`, `Square`, `Equal`, `Set`, `One` are the ring operations of `ZMod p`.
The other methods used by pkg/ristretto/ristretto.go are modelled here by the algorithm the library documents.
-/

namespace Verif

/-- `field.Element`, imported at pkg/ristretto/ristretto.go:21; limbs and carries are not modelled. -/
abbrev Fp := ZMod p

namespace Fp

/-- `SetBytes`, used at pkg/ristretto/ristretto.go:33-68, 134, 138, 290: little-endian, the top bit of the last byte is
ignored, values above `p` are reduced.  Fails when the length is not 32 (dependency contract). -/
def setBytes (b : Bytes) : Option Fp := if b.length ≠ 32 then none else some ((leNat b % 2 ^ 255 : ℕ) : Fp)

/-- `Bytes`, used at pkg/ristretto/ristretto.go:274 and 293: the canonical 32-byte little-endian encoding. -/
def bytes (x : Fp) : Bytes := natLE 32 x.val

/-- `IsNegative`, used at pkg/ristretto/ristretto.go:253, 267, 298, 342: the low bit of the canonical encoding. -/
def isNegative (x : Fp) : Bool := decide (x.val % 2 = 1)

/-- `Absolute`, used at pkg/ristretto/ristretto.go:171, 271, 336. -/
def absolute (x : Fp) : Fp := if isNegative x then -x else x

/-- `Select(a, b, cond)`, used at pkg/ristretto/ristretto.go:174, 176, 258-259, 264, 268. -/
def select (a b : Fp) (cond : Bool) : Fp := if cond then a else b

/-- `x^(2^k - 1)` by `k` squarings and multiplications; the library uses a shorter chain for the same power. -/
def powOnes (x : Fp) : Nat → Fp
  | 0 => 1
  | k + 1 => powOnes x k * powOnes x k * x

/-- `Pow22523`, used by `SqrtRatio`: `x^((p-5)/8)`, `(p-5)/8 = 2^252 - 3 = 4 (2^250 - 1) + 1`. -/
def pow22523 (x : Fp) : Fp :=
  let t := powOnes x 250
  let t := t * t
  t * t * x

/-- `Invert`: `x^(p-2)`, `p - 2 = 32 (2^250 - 1) + 11`; the inverse of `0` is `0`. -/
def invert (x : Fp) : Fp :=
  let t := powOnes x 250
  let t := t * t
  let t := t * t
  let t := t * t
  let t := t * t
  let t := t * t
  let x2 := x * x
  let x4 := x2 * x2
  let x8 := x4 * x4
  t * (x8 * x2 * x)

/-- The square root of `-1` fixed by the library, the same bytes as `sqrtM1` at pkg/ristretto/ristretto.go:39-44. -/
def libSqrtM1 : Fp := 19681161376707505956807079304988542015446066515923890162744021073123829784752

/-- `r.SqrtRatio(u, v)`, used at pkg/ristretto/ristretto.go:167, 232, 324: the root and `wasSquare`. -/
def sqrtRatio (u v : Fp) : Fp × Bool :=
  let v2 := v * v
  let uv3 := u * (v2 * v)
  let uv7 := uv3 * (v2 * v2)
  let rr := uv3 * pow22523 uv7
  let check := v * (rr * rr)
  let uNeg := -u
  let correctSignSqrt := decide (check = u)
  let flippedSignSqrt := decide (check = uNeg)
  let flippedSignSqrtI := decide (check = uNeg * libSqrtM1)
  let rPrime := rr * libSqrtM1
  let rr := select rPrime rr (flippedSignSqrt || flippedSignSqrtI)
  (absolute rr, correctSignSqrt || flippedSignSqrt)

end Fp

end Verif
