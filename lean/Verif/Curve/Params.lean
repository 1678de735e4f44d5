import Verif.Curve.Fp

/-!
The constants of pkg/ristretto/ristretto.go and of the library satisfy their defining equations; edwards25519 is a complete
Edwards curve.
-/

namespace Verif.Curve

open Verif (Fp Point)

theorem d_eq : Ristretto.d = Point.libD := by decide +kernel

theorem sqrtM1_eq : Ristretto.sqrtM1 = Fp.libSqrtM1 := by decide +kernel

theorem libD_eq : Point.libD * 121666 = -121665 := by decide +kernel

theorem invSqrtAMinusD_eq : Ristretto.invSqrtAMinusD ^ 2 * (-1 - Point.libD) = 1 := by decide +kernel

theorem sqrtADMinusOne_eq : Ristretto.sqrtADMinusOne ^ 2 = -Point.libD - 1 := by decide +kernel

theorem oneMinusDSQ_eq : Ristretto.oneMinusDSQ = 1 - Point.libD ^ 2 := by decide +kernel

theorem dMinusOneSQ_eq : Ristretto.dMinusOneSQ = (Point.libD - 1) ^ 2 := by decide +kernel

theorem libD_nonsquare : ¬ IsSquare Point.libD := by
  have h0 : Point.libD ≠ 0 := by decide +kernel
  rw [ZMod.euler_criterion p h0]
  have hv : Point.libD
      = ((37095705934669439343138083508754565189542113879843219016388785533085940283555 : ℕ) : Fp) := by decide +kernel
  rw [hv, ← Nat.cast_pow, ← Nat.cast_one, ZMod.natCast_eq_natCast_iff, Nat.ModEq,
    ← Pratt.powMod_eq _ _ _ Fp.p_pos (by decide +kernel)]
  decide +kernel

instance : EdwardsParams Fp where
  d := Point.libD
  i := Fp.libSqrtM1
  m := Ristretto.sqrtADMinusOne
  i_sq := Fp.i_sq
  d_nonsquare := libD_nonsquare
  m_sq := by rw [← pow_two, sqrtADMinusOne_eq]; ring
  two_ne_zero := Fp.two_ne_zero

/-- Points of edwards25519. -/
abbrev E := Pt Fp

theorem d_def : (EdwardsParams.d : Fp) = Point.libD := rfl
theorem i_def : (EdwardsParams.i : Fp) = Fp.libSqrtM1 := rfl
theorem m_def : (EdwardsParams.m : Fp) = Ristretto.sqrtADMinusOne := rfl

end Verif.Curve
