import Verif.Model.Field
import Verif.Model.Scalar

/-!
`edwards25519.Point` of `filippo.io/edwards25519` (v1.0.0-rc.1, a dependency that is not part of the repository) as used by
pkg/ristretto/ristretto.go: points in extended coordinates.

The library computes with other formulas in places (cached and windowed forms), which give other coordinates of the same point;
`Verif/Props/Ristretto.lean` proves that nothing in the repository depends on the choice of coordinates.  The panic of the
library on a zero-value (uninitialised) `Point` is not modelled.
-/

namespace Verif

/-- Extended coordinates `x = X/Z`, `y = Y/Z`, `xy = T/Z` of `edwards25519.Point`, embedded in `Element` at
pkg/ristretto/ristretto.go:79-81; read by `ExtendedCoordinates` at lines 107, 108 and 218. -/
@[ext] structure Point where
  X : Fp
  Y : Fp
  Z : Fp
  T : Fp
  deriving DecidableEq

namespace Point

/-- The constant `d = -121665/121666` of the library. -/
def libD : Fp := 37095705934669439343138083508754565189542113879843219016388785533085940283555

/-- `NewIdentityPoint`, used at pkg/ristretto/ristretto.go:86. -/
def identity : Point := ⟨0, 1, 1, 0⟩

/-- `NewGeneratorPoint`, used at pkg/ristretto/ristretto.go:93. -/
def generator : Point :=
  ⟨15112221349535400772501151409588531511454012693041857206046113283949847762202,
   46316835694926478169428394003475163141307993866256225615783033603165251855960, 1,
   46827403850823179245072216630277197565144205554125654976674165829533817101731⟩

/-- The test made by `SetExtendedCoordinates` before it stores the coordinates; `Z ≠ 0` is not tested. -/
def isOnCurve (P : Point) : Bool :=
  decide (P.Y * P.Y - P.X * P.X = libD * (P.T * P.T) + P.Z * P.Z) && decide (P.X * P.Y = P.T * P.Z)

/-- `SetExtendedCoordinates`, used at pkg/ristretto/ristretto.go:205 and 347. -/
def setExtendedCoordinates (X Y Z T : Fp) : Option Point :=
  if isOnCurve ⟨X, Y, Z, T⟩ then some ⟨X, Y, Z, T⟩ else none

/-- `Add`, used at pkg/ristretto/ristretto.go:405: the unified addition for extended coordinates. -/
def add (P Q : Point) : Point :=
  let PP := (P.Y + P.X) * (Q.Y + Q.X)
  let MM := (P.Y - P.X) * (Q.Y - Q.X)
  let TT2d := P.T * (Q.T * (libD + libD))
  let ZZ := P.Z * Q.Z
  let ZZ2 := ZZ + ZZ
  let X := PP - MM
  let Y := PP + MM
  let Z := ZZ2 + TT2d
  let T := ZZ2 - TT2d
  ⟨X * T, Y * Z, Z * T, X * Y⟩

/-- `Negate`, used at pkg/ristretto/ristretto.go:417. -/
def negate (P : Point) : Point := ⟨-P.X, P.Y, P.Z, -P.T⟩

/-- `Subtract`, used at pkg/ristretto/ristretto.go:411. -/
def subtract (P Q : Point) : Point := add P (negate Q)

/-- `[n]P` by doubling and adding, `fuel` binary digits. -/
def mulLoop (P : Point) : Nat → Nat → Point
  | 0, _ => identity
  | fuel + 1, n =>
    let h := mulLoop P fuel (n / 2)
    let h := add h h
    if n % 2 = 1 then add h P else h

/-- `ScalarMult`, used at pkg/ristretto/ristretto.go:361 and 461.  The library works with signed radix-16 digits. -/
def scalarMult (s : Scalar) (P : Point) : Point := mulLoop P 253 s.val

/-- `ScalarBaseMult`, used at pkg/ristretto/ristretto.go:355. -/
def scalarBaseMult (s : Scalar) : Point := scalarMult s generator

/-- `MultiScalarMult` and `VarTimeMultiScalarMult` on slices of the same length, used at pkg/ristretto/ristretto.go:376 and
391. -/
def multiScalarMult : List Scalar → List Point → Point
  | s :: ss, P :: Ps => add (scalarMult s P) (multiScalarMult ss Ps)
  | _, _ => identity

/-- `VarTimeDoubleScalarBaseMult(a, A, b)`, used at pkg/ristretto/ristretto.go:400. -/
def doubleScalarBaseMult (a : Scalar) (A : Point) (b : Scalar) : Point := add (scalarMult a A) (scalarBaseMult b)

/-- `MultByCofactor`, used at pkg/ristretto/ristretto.go:460: three doublings. -/
def multByCofactor (P : Point) : Point :=
  let P := add P P
  let P := add P P
  add P P

/-- `b[31] |= sign << 7`. -/
def orSign (b : Bytes) (sign : Bool) : Bytes := b.take 31 ++ (b.drop 31).map (fun x => if sign then x ||| 128 else x)

/-- `Point.Bytes`, used at pkg/ristretto/ristretto.go:463: the RFC 8032 encoding. -/
def bytes (P : Point) : Bytes :=
  let zInv := Fp.invert P.Z
  let x := P.X * zInv
  let y := P.Y * zInv
  orSign (Fp.bytes y) (Fp.isNegative x)

/-- `Point.SetBytes` after the square root was taken. -/
def setBytesRoot (y : Fp) (sign : Bool) : Fp × Bool → Option Point
  | (_, false) => none
  | (x, true) =>
    let xNeg := -x
    let x := Fp.select xNeg x sign
    some ⟨x, y, 1, x * y⟩

/-- `Point.SetBytes`, used by crypto/ed25519 (not by the repository) to decode a public key: `y` may be non-canonical, the sign
is the top bit. -/
def setBytes (b : Bytes) : Option Point :=
  match Fp.setBytes b with
  | none => none
  | some y => setBytesRoot y (decide (leNat b / 2 ^ 255 = 1)) (Fp.sqrtRatio (y * y - 1) (y * y * libD + 1))

end Point

end Verif
