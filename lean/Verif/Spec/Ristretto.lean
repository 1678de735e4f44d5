import Verif.Curve.Even

/-!
What a ristretto255 encoding is, stated on affine points, independently of the formulas of pkg/ristretto/ristretto.go
(draft-hdevalence-cfrg-ristretto-01, section 3.2).
-/

namespace Verif.Spec

open Verif Verif.Curve

/-- The two points are the same group element: they differ by a point of order dividing 4. -/
def SameElement (A C : E) : Prop := 4 • (A - C) = 0

/-- `s` is the encoding of the canonical representative `C`: `x`, `x y` and `s` are non-negative, `y ≠ 0` and
`s² = (1 - y)/(1 + y)`. -/
structure Encodes (s : Fp) (C : E) : Prop where
  s_nonneg : Fp.isNegative s = false
  x_nonneg : Fp.isNegative C.x = false
  xy_nonneg : Fp.isNegative (C.x * C.y) = false
  y_ne : C.y ≠ 0
  eq : s ^ 2 * (1 + C.y) = 1 - C.y

end Verif.Spec
