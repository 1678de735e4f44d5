import Verif.Curve.Order

/-!
A point is twice another exactly when `1 - y²` is a square.
-/

namespace Verif.Curve

open Verif (Fp Point Scalar)

theorem m_sq : Ristretto.sqrtADMinusOne ^ 2 = -1 - Point.libD := by rw [sqrtADMinusOne_eq]; ring

theorem m_ne_zero : Ristretto.sqrtADMinusOne ≠ 0 := by decide +kernel

theorem one_add_d : 1 + Point.libD ≠ 0 := by decide +kernel

theorem on' (A : E) : A.y ^ 2 - A.x ^ 2 = 1 + Point.libD * A.x ^ 2 * A.y ^ 2 := A.on

theorem x_eq_zero {A : E} (h : A.x = 0) : A = 0 ∨ A = T2 := by
  have := on' A
  rw [h] at this
  have : (A.y - 1) * (A.y + 1) = 0 := by linear_combination this
  rcases mul_eq_zero.1 this with h' | h'
  · left; ext
    · exact h
    · exact sub_eq_zero.1 h'
  · right; ext
    · exact h
    · exact eq_neg_of_add_eq_zero_left h'

theorem y_eq_zero {A : E} (h : A.y = 0) : A = T4 ∨ A = -T4 := by
  have := on' A
  have hi := Fp.i_sq
  rw [h] at this
  have : (A.x - Fp.libSqrtM1) * (A.x + Fp.libSqrtM1) = 0 := by linear_combination -this - hi
  rcases mul_eq_zero.1 this with h' | h'
  · left; ext
    · exact sub_eq_zero.1 h'
    · exact h
  · right; ext
    · exact eq_neg_of_add_eq_zero_left h'
    · exact h

/-- `1 - y² = 0` only at the two points with `x = 0`. -/
theorem f_eq_zero {A : E} (h : 1 - A.y ^ 2 = 0) : A = 0 ∨ A = T2 := by
  apply x_eq_zero
  have h1 : A.x ^ 2 * (1 + Point.libD) = 0 := by linear_combination -on' A + (-1 + Point.libD * A.x ^ 2) * h
  rcases mul_eq_zero.1 h1 with h | h
  · exact pow_eq_zero_iff (two_ne_zero) |>.1 h
  · exact absurd h one_add_d

theorem double_square (C : E) :
    (1 - (2 • C).y ^ 2) * (2 + C.x ^ 2 - C.y ^ 2) ^ 2 = (2 * Ristretto.sqrtADMinusOne * C.x * C.y) ^ 2 := by
  have h := Pt.add_y_mul C C
  rw [← two_nsmul, d_def] at h
  have on := on' C
  have hm := m_sq
  have h' : (2 • C).y * (2 + C.x ^ 2 - C.y ^ 2) = C.y ^ 2 + C.x ^ 2 := by
    linear_combination h + (2 • C).y * (-on)
  linear_combination (-((2 • C).y * (2 + C.x ^ 2 - C.y ^ 2)) - (C.y ^ 2 + C.x ^ 2)) * h' - 4 * C.x ^ 2 * C.y ^ 2 * hm - 4 * on

theorem den_double (C : E) : 2 + C.x ^ 2 - C.y ^ 2 ≠ 0 := by
  have := Pt.den_neg C C
  rw [d_def] at this
  intro h
  apply this
  linear_combination h + on' C

theorem square_of_even {A : E} (h : Even A) : IsSquare (1 - A.y ^ 2) := by
  obtain ⟨C, rfl⟩ := h
  refine ⟨2 * Ristretto.sqrtADMinusOne * C.x * C.y / (2 + C.x ^ 2 - C.y ^ 2), ?_⟩
  rw [div_mul_div_comm, eq_div_iff (mul_ne_zero (den_double C) (den_double C))]
  linear_combination double_square C

/-- The second addition formula. -/
theorem dual_y (A C : E) : (A + C).y * (A.x * C.y - A.y * C.x) = A.x * A.y - C.x * C.y := by
  have h := Pt.add_y_mul A C
  have hm := Pt.den_neg A C
  rw [d_def] at h hm
  refine mul_left_cancel₀ hm ?_
  linear_combination (A.x * C.y - A.y * C.x) * h + A.x * A.y * on' C - C.x * C.y * on' A

theorem sum_square (A C : E) :
    (1 - (A + C).y ^ 2) * (1 - A.y ^ 2) * (1 - C.y ^ 2) * (A.x * C.y - A.y * C.x) ^ 2
      = (Ristretto.sqrtADMinusOne * (A.y ^ 2 - C.y ^ 2) * A.x * C.x) ^ 2 := by
  have h := dual_y A C
  have hm := m_sq
  have h3 : (1 - (A + C).y ^ 2) * (A.x * C.y - A.y * C.x) ^ 2 = (A.x ^ 2 - C.x ^ 2) * (C.y ^ 2 - A.y ^ 2) := by
    linear_combination (-((A + C).y * (A.x * C.y - A.y * C.x)) - (A.x * A.y - C.x * C.y)) * h
  have fa : 1 - A.y ^ 2 = -A.x ^ 2 * (1 + Point.libD * A.y ^ 2) := by linear_combination -on' A
  have fc : 1 - C.y ^ 2 = -C.x ^ 2 * (1 + Point.libD * C.y ^ 2) := by linear_combination -on' C
  have key : (A.x ^ 2 - C.x ^ 2) * ((1 + Point.libD * A.y ^ 2) * (1 + Point.libD * C.y ^ 2))
      = (A.y ^ 2 - C.y ^ 2) * (1 + Point.libD) := by
    linear_combination -(1 + Point.libD * C.y ^ 2) * on' A + (1 + Point.libD * A.y ^ 2) * on' C
  calc _ = (1 - (A + C).y ^ 2) * (A.x * C.y - A.y * C.x) ^ 2 * ((1 - A.y ^ 2) * (1 - C.y ^ 2)) := by ring
    _ = (A.x ^ 2 - C.x ^ 2) * (C.y ^ 2 - A.y ^ 2)
        * (-A.x ^ 2 * (1 + Point.libD * A.y ^ 2) * (-C.x ^ 2 * (1 + Point.libD * C.y ^ 2))) := by rw [h3, fa, fc]
    _ = _ := by linear_combination (C.y ^ 2 - A.y ^ 2) * A.x ^ 2 * C.x ^ 2 * key
                  - (A.y ^ 2 - C.y ^ 2) ^ 2 * A.x ^ 2 * C.x ^ 2 * hm

theorem t8_nonsquare : ¬ IsSquare (1 - T8.y ^ 2) := by
  have hv : 1 - T8.y ^ 2
      = ((4196135079332955596441868296480342555537925119160685767609494648585856920925 : ℕ) : Fp) := by
    show 1 - t8.Y ^ 2 = _
    decide +kernel
  have h0 : 1 - T8.y ^ 2 ≠ 0 := by
    show 1 - t8.Y ^ 2 ≠ 0
    decide +kernel
  rw [ZMod.euler_criterion p h0, hv, ← Nat.cast_pow, ← Nat.cast_one, ZMod.natCast_eq_natCast_iff, Nat.ModEq,
    ← Pratt.powMod_eq _ _ _ Fp.p_pos (by decide +kernel)]
  decide +kernel

theorem T2_add_y (A : E) : (T2 + A).y = -A.y := by
  rw [Pt.add_y]
  show ((-1) * A.y + 0 * A.x) / (1 - _ * 0 * _ * _ * _) = _
  simp

theorem T2_add_x (A : E) : (T2 + A).x = -A.x := by
  rw [Pt.add_x]
  show (0 * A.y + (-1) * A.x) / (1 + _ * 0 * _ * _ * _) = _
  simp

theorem neg_T2 : -T2 = T2 := by
  have := two_T2
  rw [two_nsmul] at this
  exact neg_eq_of_add_eq_zero_left this

theorem even_of_square {A : E} (h : IsSquare (1 - A.y ^ 2)) : Even A := by
  by_contra hne
  have hP : Even (A + T8) := (even_or A).resolve_left hne
  have e8 : T8 = (A + T8) + -A := by abel
  have hA0 : 1 - A.y ^ 2 ≠ 0 := by
    intro h0
    rcases f_eq_zero h0 with rfl | rfl
    · exact hne even_zero
    · exact hne even_T2
  have hP0 : 1 - (A + T8).y ^ 2 ≠ 0 := by
    intro h0
    rcases f_eq_zero h0 with h' | h'
    · have : A = -T8 := eq_neg_of_add_eq_zero_left h'
      rw [this] at h
      exact t8_nonsquare h
    · have : A = T2 + -T8 := by rw [← h']; abel
      rw [this, T2_add_y] at h
      apply t8_nonsquare
      rwa [neg_sq, Pt.neg_y] at h
  have hW : (A + T8).x * (-A).y - (A + T8).y * (-A).x ≠ 0 := by
    intro h0
    have hx : ((A + T8) + A).x = 0 := by
      rw [Pt.add_x]
      have : (A + T8).x * A.y + (A + T8).y * A.x = 0 := by
        simp only [Pt.neg_x, Pt.neg_y] at h0
        linear_combination h0
      rw [this, zero_div]
    apply hne
    have : A = (A + T8 + A) + -(A + T8) := by abel
    rw [this]
    rcases x_eq_zero hx with h' | h' <;> rw [h']
    · exact even_zero.add hP.neg
    · exact even_T2.add hP.neg
  have hs := sum_square (A + T8) (-A)
  rw [← e8] at hs
  obtain ⟨a, ha⟩ := h
  obtain ⟨b, hb⟩ := square_of_even hP
  have hya : 1 - (-A).y ^ 2 = a * a := ha
  have ha0 : a ≠ 0 := by
    rintro rfl
    exact hA0 (by rw [ha, mul_zero])
  have hb0 : b ≠ 0 := by
    rintro rfl
    exact hP0 (by rw [hb, mul_zero])
  rw [hb, hya] at hs
  apply t8_nonsquare
  refine ⟨Ristretto.sqrtADMinusOne * ((A + T8).y ^ 2 - (-A).y ^ 2) * (A + T8).x * (-A).x
    / (b * a * ((A + T8).x * (-A).y - (A + T8).y * (-A).x)), ?_⟩
  have hden := mul_ne_zero (mul_ne_zero hb0 ha0) hW
  rw [div_mul_div_comm, eq_div_iff (mul_ne_zero hden hden)]
  linear_combination hs

theorem even_iff (A : E) : Even A ↔ IsSquare (1 - A.y ^ 2) := ⟨square_of_even, even_of_square⟩

end Verif.Curve
