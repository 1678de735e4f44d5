import Verif.Spec.Ristretto

/-!
`Element.bytes` and `Element.SetCanonicalBytes` (pkg/ristretto/ristretto.go:217-351) against `Verif.Spec.Encodes`.
-/

namespace Verif.Curve

open Verif (Fp Point Scalar Bytes)
open Verif.Spec

theorem T4_add_x (A : E) : (T4 + A).x = Fp.libSqrtM1 * A.y := by
  rw [Pt.add_x]
  show (Fp.libSqrtM1 * A.y + 0 * A.x) / (1 + _ * _ * _ * 0 * _) = _
  simp

theorem T4_add_y (A : E) : (T4 + A).y = Fp.libSqrtM1 * A.x := by
  rw [Pt.add_y]
  show (0 * A.y + Fp.libSqrtM1 * A.x) / (1 - _ * _ * _ * 0 * _) = _
  simp

theorem _root_.Verif.Spec.SameElement.refl (A : E) : SameElement A A := by
  unfold SameElement
  rw [sub_self, smul_zero]

theorem _root_.Verif.Spec.SameElement.symm {A C : E} (h : SameElement A C) : SameElement C A := by
  unfold SameElement at h ⊢
  rw [← neg_sub, smul_neg, h, neg_zero]

theorem _root_.Verif.Spec.SameElement.trans {A C D : E} (h : SameElement A C) (h' : SameElement C D) : SameElement A D := by
  unfold SameElement at h h' ⊢
  rw [← sub_add_sub_cancel A C D, nsmul_add, h, h', add_zero]

theorem sameElement_iff (A C : E) : SameElement A C ↔ A = C ∨ A = T2 + C ∨ A = T4 + C ∨ A = -T4 + C := by
  unfold SameElement
  rw [four_torsion]
  simp only [sub_eq_iff_eq_add, zero_add]

theorem neg_T4 : -T4 = T2 + T4 := by
  rw [← two_T4, two_nsmul]
  have h : (4 : ℕ) • T4 = 0 := (four_torsion T4).2 (by simp)
  rw [show 4 = 1 + 1 + 1 + 1 by rfl, add_nsmul, add_nsmul, add_nsmul, one_nsmul] at h
  exact neg_eq_of_add_eq_zero_left h

theorem negT4_add_x (A : E) : (-T4 + A).x = -(Fp.libSqrtM1 * A.y) := by rw [neg_T4, add_assoc, T2_add_x, T4_add_x]

theorem negT4_add_y (A : E) : (-T4 + A).y = -(Fp.libSqrtM1 * A.x) := by rw [neg_T4, add_assoc, T2_add_y, T4_add_y]

theorem one_sub_mul_one_add (A : E) : (1 - A.y ^ 2) * (1 + A.x ^ 2) = (-1 - Point.libD) * (A.x ^ 2 * A.y ^ 2) := by
  linear_combination -on' A

/-! ### Facts about `Encodes` -/

theorem _root_.Verif.Spec.Encodes.one_add_ne {s : Fp} {C : E} (h : Encodes s C) : 1 + C.y ≠ 0 := by
  intro h0
  have := h.eq
  rw [h0, mul_zero] at this
  exact Fp.two_ne_zero (by linear_combination h0 - this)

theorem _root_.Verif.Spec.Encodes.y_mul {s : Fp} {C : E} (h : Encodes s C) : C.y * (1 + s ^ 2) = 1 - s ^ 2 := by
  linear_combination h.eq

theorem _root_.Verif.Spec.Encodes.one_add_sq {s : Fp} {C : E} (h : Encodes s C) : 1 + s ^ 2 ≠ 0 := by
  intro h0
  have := h.y_mul
  rw [h0, mul_zero] at this
  exact Fp.two_ne_zero (by linear_combination h0 - this)

theorem _root_.Verif.Spec.Encodes.even {s : Fp} {C : E} (h : Encodes s C) : Even C :=
  even_of_square ⟨s * (1 + C.y), by linear_combination -(1 + C.y) * h.eq⟩

theorem x_sq_eq {A C : E} (h : A.y = C.y) : A.x ^ 2 = C.x ^ 2 := by
  have ha := on' A
  have hc := on' C
  rw [← h] at hc
  have hne : 1 + Point.libD * A.y ^ 2 ≠ 0 := by
    intro h0
    have h1 : -(Fp.libSqrtM1 ^ 2) * (1 : Fp) ^ 2 = 1 := by linear_combination -Fp.i_sq
    have : (Fp.libSqrtM1) ^ 2 = EdwardsParams.d * A.y ^ 2 := by
      rw [d_def]
      linear_combination Fp.i_sq - h0
    exact Fp.i_ne_zero (Pt.eq_zero_of_sq_eq this).1
  exact mul_right_cancel₀ hne (by linear_combination hc - ha)

theorem _root_.Verif.Spec.Encodes.point_unique {s : Fp} {C D : E} (h : Encodes s C) (h' : Encodes s D) : C = D := by
  have hy : C.y = D.y := mul_right_cancel₀ h.one_add_sq (h.y_mul.trans h'.y_mul.symm)
  ext
  · exact Fp.eq_of_sq_eq (x_sq_eq hy) h.x_nonneg h'.x_nonneg
  · exact hy

theorem both_nonneg {x : Fp} (h : Fp.isNegative x = false) (h' : Fp.isNegative (-x) = false) : x = 0 := by
  by_contra h0
  rw [Fp.isNegative_neg h0, h] at h'
  exact absurd h' (by decide)

theorem _root_.Verif.Spec.Encodes.same {s t : Fp} {C D : E} (h : Encodes s C) (h' : Encodes t D) (hs : SameElement C D) : C = D := by
  have hrot : ∀ {e : Fp}, e ^ 2 = -1 → C.x = e * D.y → C.y = e * D.x → False := by
    intro e he hx hy
    have h1 := h.xy_nonneg
    have : C.x * C.y = -(D.x * D.y) := by rw [hx, hy]; linear_combination D.x * D.y * he
    rw [this] at h1
    rcases mul_eq_zero.1 (both_nonneg h'.xy_nonneg h1) with h0 | h0
    · exact h.y_ne (by rw [hy, h0, mul_zero])
    · exact h'.y_ne h0
  rcases (sameElement_iff C D).1 hs with hc | hc | hc | hc
  · exact hc
  · have hx : C.x = -D.x := by rw [hc, T2_add_x]
    have hy : C.y = -D.y := by rw [hc, T2_add_y]
    have h1 := h.x_nonneg
    rw [hx] at h1
    have h0 := both_nonneg h'.x_nonneg h1
    exfalso
    rcases x_eq_zero h0 with rfl | rfl
    · exact h.one_add_ne (by rw [hy]; show 1 + -(1 : Fp) = 0; ring)
    · exact h'.one_add_ne (by show 1 + -(1 : Fp) = 0; ring)
  · exact (hrot (e := Fp.libSqrtM1) (by rw [pow_two, Fp.i_sq]) (by rw [hc, T4_add_x]) (by rw [hc, T4_add_y])).elim
  · exact (hrot (e := -Fp.libSqrtM1) (by rw [neg_sq, pow_two, Fp.i_sq]) (by rw [hc, negT4_add_x]; ring)
      (by rw [hc, negT4_add_y]; ring)).elim

theorem _root_.Verif.Spec.Encodes.value_unique {s t : Fp} {C : E} (h : Encodes s C) (h' : Encodes t C) : s = t :=
  Fp.eq_of_sq_eq (mul_right_cancel₀ h.one_add_ne (h.eq.trans h'.eq.symm)) h.s_nonneg h'.s_nonneg

theorem encodes_zero : Encodes 0 0 := by
  refine ⟨Fp.isNegative_zero, Fp.isNegative_zero, ?_, one_ne_zero, ?_⟩
  · show Fp.isNegative (0 * 1) = false
    rw [zero_mul]
    exact Fp.isNegative_zero
  · show (0 : Fp) ^ 2 * (1 + 1) = 1 - 1
    ring

/-! ### `Element.bytes` -/

theorem encodes_of {C : E} {g s : Fp} (hx : Fp.isNegative C.x = false) (hxy : Fp.isNegative (C.x * C.y) = false)
    (hy : C.y ≠ 0) (hg : g ^ 2 * (1 - C.y ^ 2) = 1) (hs : s = Fp.absolute ((1 - C.y) * g)) : Encodes s C := by
  refine ⟨?_, hx, hxy, hy, ?_⟩
  · rw [hs]
    exact Fp.isNegative_absolute _
  · have h1 : 1 - C.y ≠ 0 := by
      intro h0
      have : g ^ 2 * (1 - C.y ^ 2) = 0 := by linear_combination g ^ 2 * (1 + C.y) * h0
      rw [hg] at this
      exact one_ne_zero this
    rw [hs, Fp.absolute_sq]
    refine mul_left_cancel₀ h1 ?_
    linear_combination (1 - C.y) ^ 2 * hg

theorem encode_spec {P : Point} {A : E} (hP : Rep P A) (hA : Even A) :
    ∃ C, SameElement A C ∧ Encodes (Ristretto.encode P) C := by
  by_cases hxy : A.x * A.y = 0
  · refine ⟨0, ?_, ?_⟩
    · unfold SameElement
      rw [sub_zero, four_torsion]
      rcases mul_eq_zero.1 hxy with h | h
      · rcases x_eq_zero h with h | h
        · exact .inl h
        · exact .inr (.inl h)
      · exact .inr (.inr (y_eq_zero h))
    · have h0 : Ristretto.encode P = 0 := by
        have hu : P.X * P.Y = 0 := by
          rw [hP.X, hP.Y]
          linear_combination P.Z ^ 2 * hxy
        unfold Ristretto.encode
        simp only [hu, mul_zero, zero_mul, Fp.sqrtRatio_zero_right one_ne_zero, Fp.isNegative_zero, Fp.select]
        simp [Fp.absolute]
      rw [h0]
      exact encodes_zero
  · have hx0 : A.x ≠ 0 := fun h => hxy (by rw [h, zero_mul])
    have hy0 : A.y ≠ 0 := fun h => hxy (by rw [h, mul_zero])
    have hz := hP.z
    have hf : 1 - A.y ^ 2 ≠ 0 := by
      intro h0
      rcases f_eq_zero h0 with rfl | rfl
      · exact hx0 rfl
      · exact hx0 rfl
    set u1 := (P.Z + P.Y) * (P.Z - P.Y) with hu1
    set u2 := P.X * P.Y with hu2
    have e1 : u1 = P.Z ^ 2 * (1 - A.y ^ 2) := by rw [hu1, hP.Y]; ring
    have e2 : u2 = P.Z ^ 2 * (A.x * A.y) := by rw [hu2, hP.X, hP.Y]; ring
    have hu1' : u1 ≠ 0 := by rw [e1]; exact mul_ne_zero (pow_ne_zero 2 hz) hf
    have hu2' : u2 ≠ 0 := by rw [e2]; exact mul_ne_zero (pow_ne_zero 2 hz) hxy
    have hv : u2 * u2 * u1 ≠ 0 := mul_ne_zero (mul_ne_zero hu2' hu2') hu1'
    have hsq : IsSquare (1 * (u2 * u2 * u1)) := by
      obtain ⟨a, ha⟩ := square_of_even hA
      exact ⟨u2 * P.Z * a, by rw [e1]; linear_combination u2 ^ 2 * P.Z ^ 2 * ha⟩
    obtain ⟨-, hok, hI, -⟩ := Fp.sqrtRatio_spec (u := 1) one_ne_zero hv
    have hI := hI (hok.2 hsq)
    set I := (Fp.sqrtRatio 1 (u2 * u2 * u1)).1 with hIdef
    have hzi : I * u1 * (I * u2) * P.T * P.Z = 1 := by
      rw [hP.T]
      have : u2 * (A.x * A.y * P.Z * P.Z) = u2 * u2 := by rw [e2]; ring
      refine mul_left_cancel₀ hu2' ?_
      linear_combination u2 * hI + I ^ 2 * u1 * u2 * this
    set zi := I * u1 * (I * u2) * P.T with hzidef
    have hrot : P.T * zi = A.x * A.y := by rw [hP.T]; linear_combination A.x * A.y * hzi
    have hxz : P.X * zi = A.x := by rw [hP.X]; linear_combination A.x * hzi
    have hyz : P.Y * Ristretto.sqrtM1 * zi = Fp.libSqrtM1 * A.y := by
      rw [hP.Y, sqrtM1_eq]; linear_combination Fp.libSqrtM1 * A.y * hzi
    have henc : Ristretto.encode P =
        Fp.absolute ((P.Z - Fp.select (-Fp.select (P.X * Ristretto.sqrtM1) P.Y (Fp.isNegative (A.x * A.y)))
            (Fp.select (P.X * Ristretto.sqrtM1) P.Y (Fp.isNegative (A.x * A.y)))
            (Fp.isNegative (Fp.select (P.Y * Ristretto.sqrtM1) P.X (Fp.isNegative (A.x * A.y)) * zi)))
          * Fp.select (I * u1 * Ristretto.invSqrtAMinusD) (I * u2) (Fp.isNegative (A.x * A.y))) := by
      rw [← hrot]
      rfl
    rw [henc]
    by_cases hr : Fp.isNegative (A.x * A.y) = true
    · -- rotated
      simp only [hr, Fp.select, if_true, hyz]
      have hg : (I * u1 * Ristretto.invSqrtAMinusD * P.Z) ^ 2 * (1 + A.x ^ 2) = 1 := by
        have hc := invSqrtAMinusD_eq
        have h1 := one_sub_mul_one_add A
        have : (I * u1 * Ristretto.invSqrtAMinusD * P.Z) ^ 2 * (1 + A.x ^ 2) * (u2 * u2 * u1)
            = u2 * u2 * u1 := by
          calc _ = (u2 * u2 * u1 * I ^ 2) * u1 * Ristretto.invSqrtAMinusD ^ 2 * (P.Z ^ 2 * (1 + A.x ^ 2)) * u1 := by ring
            _ = u1 * (Ristretto.invSqrtAMinusD ^ 2 * (P.Z ^ 2 * (u1 * (1 + A.x ^ 2)))) := by rw [hI]; ring
            _ = u1 * (Ristretto.invSqrtAMinusD ^ 2 * (-1 - Point.libD)) * (u2 * u2) := by
              rw [e1, e2]
              linear_combination P.Z ^ 2 * (1 - A.y ^ 2) * Ristretto.invSqrtAMinusD ^ 2 * P.Z ^ 4 * h1
            _ = _ := by rw [hc]; ring
        exact mul_right_cancel₀ hv (by rw [this, one_mul])
      have hi := Fp.i_sq
      have hiy : Fp.libSqrtM1 * A.y ≠ 0 := mul_ne_zero Fp.i_ne_zero hy0
      have hix : Fp.libSqrtM1 * A.x ≠ 0 := mul_ne_zero Fp.i_ne_zero hx0
      have hnxy : Fp.isNegative (-(A.x * A.y)) = false := by rw [Fp.isNegative_neg hxy, hr]; rfl
      by_cases hn : Fp.isNegative (Fp.libSqrtM1 * A.y) = true
      · refine ⟨-T4 + A, ?_, ?_⟩
        · unfold SameElement
          rw [show A - (-T4 + A) = T4 by abel, four_torsion]
          simp
        · refine encodes_of (g := I * u1 * Ristretto.invSqrtAMinusD * P.Z) ?_ ?_ ?_ ?_ ?_
          · rw [negT4_add_x, Fp.isNegative_neg hiy, hn]; rfl
          · rw [negT4_add_x, negT4_add_y]
            rwa [show -(Fp.libSqrtM1 * A.y) * -(Fp.libSqrtM1 * A.x) = -(A.x * A.y) by linear_combination A.x * A.y * hi]
          · rw [negT4_add_y]
            exact neg_ne_zero.2 hix
          · rw [negT4_add_y]
            linear_combination hg - (I * u1 * Ristretto.invSqrtAMinusD * P.Z) ^ 2 * A.x ^ 2 * hi
          · rw [if_pos hn, negT4_add_y, hP.X, sqrtM1_eq]
            exact congrArg Fp.absolute (by ring)
      · refine ⟨T4 + A, ?_, ?_⟩
        · unfold SameElement
          rw [show A - (T4 + A) = -T4 by abel, four_torsion]
          simp
        · refine encodes_of (g := I * u1 * Ristretto.invSqrtAMinusD * P.Z) ?_ ?_ ?_ ?_ ?_
          · rw [T4_add_x]
            simpa using hn
          · rw [T4_add_x, T4_add_y]
            rwa [show Fp.libSqrtM1 * A.y * (Fp.libSqrtM1 * A.x) = -(A.x * A.y) by linear_combination A.x * A.y * hi]
          · rw [T4_add_y]
            exact hix
          · rw [T4_add_y]
            linear_combination hg - (I * u1 * Ristretto.invSqrtAMinusD * P.Z) ^ 2 * A.x ^ 2 * hi
          · rw [if_neg hn, T4_add_y, hP.X, sqrtM1_eq]
            exact congrArg Fp.absolute (by ring)
    · -- not rotated
      have hr' : Fp.isNegative (A.x * A.y) = false := by simpa using hr
      simp only [hr', Fp.select, Bool.false_eq_true, if_false, hxz]
      have hg : (I * u2 * P.Z) ^ 2 * (1 - A.y ^ 2) = 1 := by
        linear_combination hI - I ^ 2 * u2 ^ 2 * e1
      by_cases hn : Fp.isNegative A.x = true
      · refine ⟨T2 + A, ?_, ?_⟩
        · unfold SameElement
          rw [show A - (T2 + A) = -T2 by abel, neg_T2, four_torsion]
          simp
        · refine encodes_of (g := I * u2 * P.Z) ?_ ?_ ?_ ?_ ?_
          · rw [T2_add_x, Fp.isNegative_neg hx0, hn]; rfl
          · rw [T2_add_x, T2_add_y, neg_mul_neg]
            exact hr'
          · rw [T2_add_y]
            exact neg_ne_zero.2 hy0
          · rw [T2_add_y, neg_sq]
            exact hg
          · rw [if_pos hn, T2_add_y, hP.Y]
            exact congrArg Fp.absolute (by ring)
      · refine ⟨A, SameElement.refl A, ?_⟩
        refine encodes_of (g := I * u2 * P.Z) (by simpa using hn) hr' hy0 hg ?_
        rw [if_neg hn, hP.Y]
        exact congrArg Fp.absolute (by ring)

/-! ### `Element.SetCanonicalBytes` -/

/-- The last lines of the decoder, from the root `I` on. -/
def decodeOut (s u1 u2 v I : Fp) (w : Bool) : Point × Bool :=
  (⟨Fp.absolute (2 * s * (I * u2)), u1 * (I * (I * u2) * v), 1, Fp.absolute (2 * s * (I * u2)) * (u1 * (I * (I * u2) * v))⟩,
    !w || Fp.isNegative (Fp.absolute (2 * s * (I * u2)) * (u1 * (I * (I * u2) * v)))
      || decide (u1 * (I * (I * u2) * v) = 0))

theorem decode_eq {s u1 u2 v : Fp} (h1 : u1 = 1 - s * s) (h2 : u2 = 1 + s * s)
    (hv : v = -(u1 * u1 * Ristretto.d) - u2 * u2) :
    Ristretto.decode s
      = decodeOut s u1 u2 v (Fp.sqrtRatio 1 (v * (u2 * u2))).1 (Fp.sqrtRatio 1 (v * (u2 * u2))).2 := by
  subst h1 h2 hv
  unfold Ristretto.decode decodeOut
  simp only

theorem decode_ok {s : Fp} (hs : Fp.isNegative s = false) (h : (Ristretto.decode s).2 = false) :
    ∃ C, Encodes s C ∧ (Ristretto.decode s).1 = ⟨C.x, C.y, 1, C.x * C.y⟩ := by
  set u1 := 1 - s * s with hu1
  set u2 := 1 + s * s with hu2
  set v := -(u1 * u1 * Ristretto.d) - u2 * u2 with hv
  rw [decode_eq hu1 hu2 hv] at h ⊢
  unfold decodeOut at h ⊢
  simp only [Bool.or_eq_false_iff, Bool.not_eq_false', decide_eq_false_iff_not] at h
  obtain ⟨⟨hsq, hT⟩, hY⟩ := h
  have hne : v * (u2 * u2) ≠ 0 := by
    intro h0
    rw [h0, Fp.sqrtRatio_zero_right one_ne_zero] at hsq
    exact absurd hsq (by decide)
  obtain ⟨-, -, hI, -⟩ := Fp.sqrtRatio_spec (u := 1) one_ne_zero hne
  have hI := hI hsq
  generalize (Fp.sqrtRatio 1 (v * (u2 * u2))).1 = I at *
  have hXX : Fp.absolute (2 * s * (I * u2)) ^ 2 = (2 * s * (I * u2)) ^ 2 := Fp.absolute_sq _
  have hXn := Fp.isNegative_absolute (2 * s * (I * u2))
  generalize Fp.absolute (2 * s * (I * u2)) = X at *
  set Y := u1 * (I * (I * u2) * v) with hYdef
  have hY2 : Y * u2 = u1 := by rw [hYdef]; linear_combination u1 * hI
  have hX2 : X ^ 2 * v = 4 * s ^ 2 := by rw [hXX]; linear_combination 4 * s ^ 2 * hI
  have hon : Y ^ 2 - X ^ 2 = 1 + Point.libD * X ^ 2 * Y ^ 2 := by
    refine mul_left_cancel₀ hne ?_
    have hvd : v = -(u1 * u1 * Point.libD) - u2 * u2 := by rw [hv, d_eq]
    have hu : u1 * u1 - u2 * u2 = -4 * s ^ 2 := by rw [hu1, hu2]; ring
    have a1 : v * (u2 * u2) * Y ^ 2 = v * u1 ^ 2 := by linear_combination v * (Y * u2 + u1) * hY2
    have a2 : v * (u2 * u2) * X ^ 2 = 4 * s ^ 2 * (u2 * u2) := by linear_combination u2 * u2 * hX2
    have a3 : v * (u2 * u2) * (Point.libD * X ^ 2 * Y ^ 2) = Point.libD * (4 * s ^ 2) * u1 ^ 2 := by
      linear_combination Point.libD * X ^ 2 * a1 + Point.libD * u1 ^ 2 * hX2
    linear_combination a1 - a2 - a3 + v * hu - 4 * s ^ 2 * hvd
  refine ⟨⟨X, Y, hon⟩, ⟨hs, hXn, hT, hY, ?_⟩, rfl⟩
  have hu20 : u2 ≠ 0 := by
    intro h0
    apply hne
    rw [h0]
    ring
  show s ^ 2 * (1 + Y) = 1 - Y
  refine mul_left_cancel₀ hu20 ?_
  have : u1 = 1 - s * s := hu1
  have : u2 = 1 + s * s := hu2
  linear_combination (s ^ 2 + 1) * hY2 + s ^ 2 * (hu1 + hu2) - hu2 + hu1

theorem decode_of_encodes {s : Fp} {C : E} (h : Encodes s C) :
    Ristretto.decode s = (⟨C.x, C.y, 1, C.x * C.y⟩, false) := by
  set u1 := 1 - s * s with hu1
  set u2 := 1 + s * s with hu2
  set v := -(u1 * u1 * Ristretto.d) - u2 * u2 with hv
  have hvd : v = -(u1 * u1 * Point.libD) - u2 * u2 := by rw [hv, d_eq]
  have hu20 : u2 ≠ 0 := by
    have := h.one_add_sq
    rwa [pow_two] at this
  have hy : C.y * u2 = u1 := by
    have := h.y_mul
    rw [hu1, hu2]
    linear_combination this
  have hx : C.x ^ 2 * v = 4 * s ^ 2 := by
    have hon := on' C
    have : u2 * u2 - u1 * u1 = 4 * s ^ 2 := by rw [hu1, hu2]; ring
    rw [hvd, ← this, ← hy]
    linear_combination u2 ^ 2 * hon
  have hv0 : v ≠ 0 := by
    intro h0
    rw [hvd] at h0
    have h1 : (Fp.libSqrtM1 * u2) ^ 2 = EdwardsParams.d * u1 ^ 2 := by
      rw [d_def]
      linear_combination u2 ^ 2 * Fp.i_sq + h0
    have h2 := (Pt.eq_zero_of_sq_eq h1).1
    rcases mul_eq_zero.1 h2 with h3 | h3
    · exact Fp.i_ne_zero h3
    · exact hu20 h3
  have hne : v * (u2 * u2) ≠ 0 := mul_ne_zero hv0 (mul_ne_zero hu20 hu20)
  have hsquare : IsSquare (1 * (v * (u2 * u2))) := by
    by_cases hs0 : s = 0
    · have e1 : u1 = 1 := by rw [hu1, hs0]; ring
      have e2 : u2 = 1 := by rw [hu2, hs0]; ring
      refine ⟨Ristretto.sqrtADMinusOne, ?_⟩
      have := m_sq
      rw [hvd, e1, e2]
      linear_combination -this
    · have hx0 : C.x ≠ 0 := by
        intro h0
        rw [h0] at hx
        have : 4 * s ^ 2 = 0 := by linear_combination -hx
        rcases mul_eq_zero.1 this with h4 | h4
        · exact Fp.two_ne_zero (by
            have : (2 : Fp) * 2 = 0 := by linear_combination h4
            rcases mul_eq_zero.1 this with h | h <;> exact h)
        · exact hs0 (pow_eq_zero_iff (_root_.two_ne_zero) |>.1 h4)
      refine ⟨2 * s * u2 / C.x, ?_⟩
      rw [div_mul_div_comm, eq_div_iff (mul_ne_zero hx0 hx0)]
      linear_combination u2 ^ 2 * hx
  obtain ⟨-, hok, hI, -⟩ := Fp.sqrtRatio_spec (u := 1) one_ne_zero hne
  have hw := hok.2 hsquare
  have hI := hI hw
  rw [decode_eq hu1 hu2 hv, hw]
  unfold decodeOut
  generalize (Fp.sqrtRatio 1 (v * (u2 * u2))).1 = I at *
  have hX : Fp.absolute (2 * s * (I * u2)) = C.x := by
    refine Fp.eq_of_sq_eq ?_ (Fp.isNegative_absolute _) h.x_nonneg
    rw [Fp.absolute_sq]
    refine mul_right_cancel₀ hv0 ?_
    rw [hx]
    linear_combination 4 * s ^ 2 * hI
  have hY : u1 * (I * (I * u2) * v) = C.y := by
    refine mul_right_cancel₀ hu20 ?_
    rw [hy]
    linear_combination u1 * hI
  rw [hX, hY, h.xy_nonneg]
  simp [h.y_ne]

end Verif.Curve
