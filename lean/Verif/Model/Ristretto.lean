import Verif.Model.Point
import Verif.Model.Base64

/-!
pkg/ristretto/ristretto.go, on coordinates.  An `Element` is the `edwards25519.Point` it embeds (lines 79-81).

`Set`, `NewIdentityElement`, `NewGeneratorElement` (lines 83-101) and the arithmetic wrappers (lines 353-420) are the operations
of `Verif.Point`; the two multiscalar wrappers check the lengths first.
-/

namespace Verif.Ristretto

open Verif (Point Fp Bytes Outcome GoRes GoErr Scalar)

/-- The result of `SetBytes` in a variable declaration; the error is dropped by the blank identifier, the element is then nil. -/
def const (b : Bytes) : Fp := (Fp.setBytes b).getD 0

/-- `d`, pkg/ristretto/ristretto.go:33-38. -/
def d : Fp := const [
  0xa3, 0x78, 0x59, 0x13, 0xca, 0x4d, 0xeb, 0x75, 0xab, 0xd8, 0x41, 0x41, 0x4d, 0x0a, 0x70, 0x00,
  0x98, 0xe8, 0x79, 0x77, 0x79, 0x40, 0xc7, 0x8c, 0x73, 0xfe, 0x6f, 0x2b, 0xee, 0x6c, 0x03, 0x52]

/-- `sqrtM1`, pkg/ristretto/ristretto.go:39-44. -/
def sqrtM1 : Fp := const [
  0xb0, 0xa0, 0x0e, 0x4a, 0x27, 0x1b, 0xee, 0xc4, 0x78, 0xe4, 0x2f, 0xad, 0x06, 0x18, 0x43, 0x2f,
  0xa7, 0xd7, 0xfb, 0x3d, 0x99, 0x00, 0x4d, 0x2b, 0x0b, 0xdf, 0xc1, 0x4f, 0x80, 0x24, 0x83, 0x2b]

/-- `sqrtADMinusOne`, pkg/ristretto/ristretto.go:45-50. -/
def sqrtADMinusOne : Fp := const [
  0x1b, 0x2e, 0x7b, 0x49, 0xa0, 0xf6, 0x97, 0x7e, 0xbd, 0x54, 0x78, 0x1b, 0x0c, 0x8e, 0x9d, 0xaf,
  0xfd, 0xd1, 0xf5, 0x31, 0xc9, 0xfc, 0x3c, 0x0f, 0xac, 0x48, 0x83, 0x2b, 0xbf, 0x31, 0x69, 0x37]

/-- `invSqrtAMinusD`, pkg/ristretto/ristretto.go:51-56. -/
def invSqrtAMinusD : Fp := const [
  0xea, 0x40, 0x5d, 0x80, 0xaa, 0xfd, 0xc8, 0x99, 0xbe, 0x72, 0x41, 0x5a, 0x17, 0x16, 0x2f, 0x9d,
  0x40, 0xd8, 0x01, 0xfe, 0x91, 0x7b, 0xc2, 0x16, 0xa2, 0xfc, 0xaf, 0xcf, 0x05, 0x89, 0x6c, 0x78]

/-- `oneMinusDSQ`, pkg/ristretto/ristretto.go:57-62. -/
def oneMinusDSQ : Fp := const [
  0x76, 0xc1, 0x5f, 0x94, 0xc1, 0x09, 0x7c, 0xe2, 0x0f, 0x35, 0x5e, 0xcd, 0x38, 0xa1, 0x81, 0x2c,
  0xe4, 0xdf, 0x70, 0xbe, 0xdd, 0xab, 0x94, 0x99, 0xd7, 0xe0, 0xb3, 0xb2, 0xa8, 0x72, 0x90, 0x02]

/-- `dMinusOneSQ`, pkg/ristretto/ristretto.go:63-68. -/
def dMinusOneSQ : Fp := const [
  0x20, 0x4d, 0xed, 0x44, 0xaa, 0x5a, 0xad, 0x31, 0x99, 0x19, 0x1e, 0xb0, 0x2c, 0x4a, 0x9e, 0xd2,
  0xeb, 0x4e, 0x9b, 0x52, 0x2f, 0xd3, 0xdc, 0x4c, 0x41, 0x22, 0x6c, 0xf6, 0x7a, 0xb3, 0x68, 0x59]

/-- `Element.Equal`, pkg/ristretto/ristretto.go:106-121. -/
def equal (e ee : Point) : Bool :=
  let f0 := e.X * ee.Y
  let f1 := e.Y * ee.X
  let out := decide (f0 = f1)
  let f0 := e.Y * ee.Y
  let f1 := e.X * ee.X
  out || decide (f0 = f1)

/-- `mapToPoint`, pkg/ristretto/ristretto.go:146-208; panics if the coordinates are refused. -/
def mapToPoint (t : Fp) : GoRes Point :=
  let r := sqrtM1 * (t * t)
  let u := (r + 1) * oneMinusDSQ
  let c : Fp := -1
  let rPlusD := r + d
  let v := (c - r * d) * rPlusD
  let (s, wasSquare) := Fp.sqrtRatio u v
  let sPrime := -Fp.absolute (s * t)
  let s := Fp.select s sPrime wasSquare
  let c := Fp.select c r wasSquare
  let N := c * (r - 1) * dMinusOneSQ - v
  let s2 := s * s
  let w0 := s * v + s * v
  let w1 := N * sqrtADMinusOne
  let w2 := 1 - s2
  let w3 := 1 + s2
  Outcome.deref (Point.setExtendedCoordinates (w0 * w3) (w2 * w1) (w1 * w3) (w0 * w2))

/-- `Element.SetUniformBytes`, pkg/ristretto/ristretto.go:127-143.  The errors of the two `SetBytes` are ignored by the code
and cannot occur, because both halves have 32 bytes; an ignored error would leave `f` unchanged, here `0`. -/
def setUniformBytes (b : Bytes) : GoRes Point :=
  if b.length ≠ 64 then .err .wrongLength
  else do
    let lo ← Verif.sliceTo b 32
    let point1 ← mapToPoint ((Fp.setBytes lo).getD 0)
    let hi ← Verif.sliceFrom b 32
    let point2 ← mapToPoint ((Fp.setBytes hi).getD 0)
    return Point.add point1 point2

/-- The field element computed by `Element.bytes`, pkg/ristretto/ristretto.go:217-271. -/
def encode (e : Point) : Fp :=
  let X := e.X
  let Y := e.Y
  let Z := e.Z
  let T := e.T
  let u1 := (Z + Y) * (Z - Y)
  let u2 := X * Y
  let invSqrt := (Fp.sqrtRatio 1 (u2 * u2 * u1)).1
  let den1 := invSqrt * u1
  let den2 := invSqrt * u2
  let zInv := den1 * den2 * T
  let ix0 := X * sqrtM1
  let iy0 := Y * sqrtM1
  let enchantedDenominator := den1 * invSqrtAMinusD
  let rotate := Fp.isNegative (T * zInv)
  let x := Fp.select iy0 X rotate
  let y := Fp.select ix0 Y rotate
  let z := Z
  let denInv := Fp.select enchantedDenominator den2 rotate
  let isNegative := Fp.isNegative (x * zInv)
  let y := Fp.select (-y) y isNegative
  Fp.absolute ((z - y) * denInv)

/-- `Element.Bytes` and `Element.bytes`, pkg/ristretto/ristretto.go:211-276. -/
def bytes (e : Point) : Bytes := Fp.bytes (encode e)

/-- The coordinates computed by `Element.SetCanonicalBytes`, pkg/ristretto/ristretto.go:302-339, and the condition of
line 342. -/
def decode (s : Fp) : Point × Bool :=
  let sSqr := s * s
  let u1 := 1 - sSqr
  let u2 := 1 + sSqr
  let u2Sqr := u2 * u2
  let v := -(u1 * u1 * d) - u2Sqr
  let (invSqrt, wasSquare) := Fp.sqrtRatio 1 (v * u2Sqr)
  let denX := invSqrt * u2
  let denY := invSqrt * denX * v
  let X := Fp.absolute (2 * s * denX)
  let Y := u1 * denY
  let T := X * Y
  (⟨X, Y, 1, T⟩, !wasSquare || Fp.isNegative T || decide (Y = 0))

/-- `Element.SetCanonicalBytes`, pkg/ristretto/ristretto.go:283-351: an error, a panic if the coordinates are refused, or the
new value of the receiver. -/
def setCanonicalBytes (input : Bytes) : GoRes Point :=
  if input.length ≠ 32 then .err .nonCanonical
  else
    let s := (Fp.setBytes input).getD 0
    if Fp.bytes s ≠ input then .err .nonCanonical
    else if Fp.isNegative s then .err .nonCanonical
    else
      let (P, reject) := decode s
      if reject then .err .nonCanonical
      else Outcome.deref (Point.setExtendedCoordinates P.X P.Y P.Z P.T)

/-- `eightInv` of `BytesEd25519`, pkg/ristretto/ristretto.go:453-458; nil if `SetCanonicalBytes` failed. -/
def eightInv : Option Scalar := Scalar.setCanonicalBytes [
  121, 47, 220, 226, 41, 229, 6, 97, 208, 218, 28, 125, 179, 157, 211, 7,
  0, 0, 0, 0, 0, 0, 0, 0, 0, 0, 0, 0, 0, 0, 0, 6]

/-- `Element.BytesEd25519`, pkg/ristretto/ristretto.go:448-464; panics if `eightInv` is nil. -/
def bytesEd25519 (e : Point) : GoRes Bytes := do
  let k ← Outcome.deref eightInv
  let P := Point.multByCofactor e
  return Point.bytes (Point.scalarMult k P)

/-- `MultiScalarMult` and `VarTimeMultiScalarMult`, pkg/ristretto/ristretto.go:365-393. -/
def multiScalarMult (s : List Scalar) (p : List Point) : GoRes Point :=
  if p.length ≠ s.length then .panic else .ok (Point.multiScalarMult s p)

/-- `Element.MarshalText` and `String`, pkg/ristretto/ristretto.go:422-426 and pkg/ristretto/ristretto.go:440-444. -/
def marshalText (e : Point) : Bytes := Base64.encode (bytes e)

/-- `Element.UnmarshalText`, pkg/ristretto/ristretto.go:428-438. -/
def unmarshalText (text : Bytes) : GoRes Point := do
  let eb ← Outcome.orErr (Base64.decode text) .base64
  setCanonicalBytes eb

end Verif.Ristretto
