import Verif.Curve.Encode

/-!
`mapToPoint` and `SetUniformBytes` (pkg/ristretto/ristretto.go:127-208): the coordinates are always those of an even point.
-/

namespace Verif.Curve

open Verif (Fp Point Scalar Bytes Outcome GoRes)
open Verif.Spec

theorem setExtended_ok {P : Point} (h : Valid P) : Point.setExtendedCoordinates P.X P.Y P.Z P.T = some P := by
  have : Point.isOnCurve P = true := by
    unfold Point.isOnCurve
    rw [Bool.and_eq_true, decide_eq_true_eq, decide_eq_true_eq]
    exact h.2
  exact if_pos this

theorem neg_d (a b : Fp) (h : a ^ 2 + Point.libD * b ^ 2 = 0) : a = 0 ∧ b = 0 := by
  have h1 : (Fp.libSqrtM1 * a) ^ 2 = EdwardsParams.d * b ^ 2 := by
    rw [d_def]
    linear_combination a ^ 2 * Fp.i_sq - h
  obtain ⟨ha, hb⟩ := Pt.eq_zero_of_sq_eq h1
  exact ⟨(mul_eq_zero.1 ha).resolve_left Fp.i_ne_zero, hb⟩

/-- The point built from the Jacobi quartic coordinates. -/
theorem jacobi {s v N : Fp} (hv : v ≠ 0)
    (h : N ^ 2 * (1 + Point.libD) = v ^ 2 * ((1 + s * s) ^ 2 + Point.libD * (1 - s * s) ^ 2)) :
    ∃ A : E, Even A ∧ A.y * (1 + s * s) = 1 - s * s ∧
      Rep ⟨(s * v + s * v) * (1 + s * s), (1 - s * s) * (N * Ristretto.sqrtADMinusOne),
        N * Ristretto.sqrtADMinusOne * (1 + s * s), (s * v + s * v) * (1 - s * s)⟩ A := by
  have hm := m_sq
  have hs : 1 + s * s ≠ 0 := by
    intro h0
    have h1 : (N * Fp.libSqrtM1 * Ristretto.sqrtADMinusOne) ^ 2 = EdwardsParams.d * (2 * v) ^ 2 := by
      rw [d_def]
      have e : 1 - s * s = 2 := by linear_combination -h0
      rw [h0, e] at h
      have hi := Fp.i_sq
      linear_combination h + N ^ 2 * Ristretto.sqrtADMinusOne ^ 2 * hi - N ^ 2 * hm
    rcases mul_eq_zero.1 (Pt.eq_zero_of_sq_eq h1).2 with h2 | h2
    · exact Fp.two_ne_zero h2
    · exact hv h2
  have hN : N ≠ 0 := by
    intro h0
    rw [h0] at h
    have h1 : v ^ 2 * ((1 + s * s) ^ 2 + Point.libD * (1 - s * s) ^ 2) = 0 := by linear_combination -h
    exact hs (neg_d _ _ ((mul_eq_zero.1 h1).resolve_left (pow_ne_zero 2 hv))).1
  have hw := mul_ne_zero hN m_ne_zero
  have hval : Valid ⟨(s * v + s * v) * (1 + s * s), (1 - s * s) * (N * Ristretto.sqrtADMinusOne),
        N * Ristretto.sqrtADMinusOne * (1 + s * s), (s * v + s * v) * (1 - s * s)⟩ := by
    refine ⟨mul_ne_zero hw hs, ?_, ?_⟩
    · show (1 - s * s) * (N * Ristretto.sqrtADMinusOne) * ((1 - s * s) * (N * Ristretto.sqrtADMinusOne))
          - (s * v + s * v) * (1 + s * s) * ((s * v + s * v) * (1 + s * s))
        = Point.libD * ((s * v + s * v) * (1 - s * s) * ((s * v + s * v) * (1 - s * s)))
          + N * Ristretto.sqrtADMinusOne * (1 + s * s) * (N * Ristretto.sqrtADMinusOne * (1 + s * s))
      linear_combination -4 * s ^ 2 * N ^ 2 * hm + 4 * s ^ 2 * h
    · show (s * v + s * v) * (1 + s * s) * ((1 - s * s) * (N * Ristretto.sqrtADMinusOne))
        = (s * v + s * v) * (1 - s * s) * (N * Ristretto.sqrtADMinusOne * (1 + s * s))
      ring
  obtain ⟨A, hA⟩ := hval.rep
  have hy : A.y * (1 + s * s) = 1 - s * s := by
    have hY : (1 - s * s) * (N * Ristretto.sqrtADMinusOne) = A.y * (N * Ristretto.sqrtADMinusOne * (1 + s * s)) := hA.Y
    refine mul_left_cancel₀ hw ?_
    linear_combination -hY
  refine ⟨A, even_of_square ⟨2 * s / (1 + s * s), ?_⟩, hy, hA⟩
  rw [div_mul_div_comm, eq_div_iff (mul_ne_zero hs hs)]
  linear_combination (-(A.y * (1 + s * s)) - (1 - s * s)) * hy

/-- The field operations of `mapToPoint` before the coordinates are stored. -/
theorem mapToPoint_eq {t r u v s0 : Fp} {w : Bool} (hr : r = Fp.libSqrtM1 * (t * t))
    (hu : u = (r + 1) * (1 - Point.libD ^ 2)) (hv : v = (-1 - r * Point.libD) * (r + Point.libD))
    (hs : Fp.sqrtRatio u v = (s0, w)) {s c N : Fp} (hs' : s = Fp.select s0 (-Fp.absolute (s0 * t)) w)
    (hc : c = Fp.select (-1) r w) (hN : N = c * (r - 1) * (Point.libD - 1) ^ 2 - v) :
    Ristretto.mapToPoint t = Outcome.deref (Point.setExtendedCoordinates ((s * v + s * v) * (1 + s * s))
      ((1 - s * s) * (N * Ristretto.sqrtADMinusOne)) (N * Ristretto.sqrtADMinusOne * (1 + s * s))
      ((s * v + s * v) * (1 - s * s))) := by
  rw [← sqrtM1_eq] at hr
  rw [← oneMinusDSQ_eq] at hu
  rw [← d_eq] at hv
  rw [← dMinusOneSQ_eq] at hN
  subst hr hu hv hN hc hs'
  unfold Ristretto.mapToPoint
  simp only [hs]

/-- How the square `σ` of the first coordinate on the Jacobi quartic depends on `r`. -/
def Quartic (σ r : Fp) : Prop :=
  (-1 - r * Point.libD) * (r + Point.libD) * σ = (r + 1) * (1 - Point.libD ^ 2) ∨
  (-1 - r * Point.libD) * (r + Point.libD) * σ = r * ((r + 1) * (1 - Point.libD ^ 2)) ∨
  (-1 - r * Point.libD) * (r + Point.libD) = 0 ∧ σ = 0

theorem mapToPoint_quartic (t : Fp) : ∃ P A σ, Ristretto.mapToPoint t = .ok P ∧ Rep P A ∧ Even A ∧ A.y * (1 + σ) = 1 - σ ∧
    Quartic σ (Fp.libSqrtM1 * (t * t)) := by
  obtain ⟨r, hr⟩ : ∃ r, r = Fp.libSqrtM1 * (t * t) := ⟨_, rfl⟩
  obtain ⟨u, hu⟩ : ∃ u, u = (r + 1) * (1 - Point.libD ^ 2) := ⟨_, rfl⟩
  obtain ⟨v, hv⟩ : ∃ v, v = (-1 - r * Point.libD) * (r + Point.libD) := ⟨_, rfl⟩
  rcases hs : Fp.sqrtRatio u v with ⟨s0, w⟩
  obtain ⟨s, hs'⟩ : ∃ s, s = Fp.select s0 (-Fp.absolute (s0 * t)) w := ⟨_, rfl⟩
  obtain ⟨c, hc⟩ : ∃ c, c = Fp.select (-1) r w := ⟨_, rfl⟩
  obtain ⟨N, hN⟩ : ∃ N, N = c * (r - 1) * (Point.libD - 1) ^ 2 - v := ⟨_, rfl⟩
  rw [mapToPoint_eq hr hu hv hs hs' hc hN]
  suffices H : ∃ A : E, Even A ∧ A.y * (1 + s * s) = 1 - s * s ∧ Quartic (s * s) r ∧ Rep ⟨(s * v + s * v) * (1 + s * s), (1 - s * s) * (N * Ristretto.sqrtADMinusOne),
        N * Ristretto.sqrtADMinusOne * (1 + s * s), (s * v + s * v) * (1 - s * s)⟩ A by
    obtain ⟨A, hA, hy, hq, hrep⟩ := H
    have := setExtended_ok hrep.valid
    simp only at this
    rw [this]
    exact ⟨_, A, _, rfl, hrep, hA, hy, hr ▸ hq⟩
  have d1 : (Point.libD : Fp) - 1 ≠ 0 := by decide +kernel
  have d0 : (Point.libD : Fp) ≠ 0 := by decide +kernel
  by_cases hu0 : u = 0
  · -- `u = 0`
    rw [hu0, Fp.sqrtRatio_zero_left] at hs
    obtain ⟨rfl, rfl⟩ := Prod.mk.inj hs
    simp only [Fp.select, if_true] at hs' hc
    have hv0 : v ≠ 0 := by
      have h1 : (r + 1) * ((1 - Point.libD) * (1 + Point.libD)) = 0 := by rw [← hu0, hu]; ring
      have h2 : r = -1 := by
        rcases mul_eq_zero.1 h1 with h | h
        · exact eq_neg_of_add_eq_zero_left h
        · rcases mul_eq_zero.1 h with h | h
          · exact absurd (by linear_combination -h) d1
          · exact absurd h one_add_d
      rw [hv, h2]
      intro h
      exact pow_ne_zero 2 d1 (by linear_combination h)
    obtain ⟨A, hA, hy, hrep⟩ := jacobi (s := s) (N := N) hv0 (by
      rw [hN, hc, hs']
      have h1 : (1 + Point.libD) * (4 * v) = (1 + Point.libD) * ((r - 1) ^ 2 * (Point.libD - 1) ^ 2
        - (r + 1) ^ 2 * (1 + Point.libD) ^ 2) := by rw [hv]; ring
      rw [hu0] at hu
      linear_combination (Point.libD - 1) ^ 2 * (-h1) 
        - (2 * (1 - Point.libD) * v + (1 + Point.libD) * (r + 1) * (1 - Point.libD ^ 2)) * hu)
    exact ⟨A, hA, hy, Or.inl (by rw [← hv, ← hu, hs', hu0]; ring), hrep⟩
  · by_cases hv0 : v = 0
    · -- `v = 0`
      rw [hv0, Fp.sqrtRatio_zero_right hu0] at hs
      obtain ⟨rfl, rfl⟩ := Prod.mk.inj hs
      have hs0 : s = 0 := by rw [hs']; simp [Fp.select, Fp.absolute]
      simp only [Fp.select, Bool.false_eq_true, if_false] at hc
      have hN0 : N ≠ 0 := by
        rw [hN, hc, hv0, sub_zero]
        refine mul_ne_zero (mul_ne_zero ?_ ?_) (pow_ne_zero 2 d1)
        · intro h
          rw [h] at hv
          exact d0 (by linear_combination hv - hv0)
        · intro h
          have h1 : r = 1 := sub_eq_zero.1 h
          rw [h1] at hv
          exact pow_ne_zero 2 one_add_d (by linear_combination hv - hv0)
      refine ⟨0, even_zero, by rw [hs0]; show (1 : Fp) * _ = _; ring, Or.inr (Or.inr ⟨by rw [← hv, hv0], by rw [hs0]; ring⟩), ?_, ?_, ?_, ?_⟩
      · show N * Ristretto.sqrtADMinusOne * (1 + s * s) ≠ 0
        rw [hs0, mul_zero, add_zero, mul_one]
        exact mul_ne_zero hN0 m_ne_zero
      · show (s * v + s * v) * (1 + s * s) = 0 * (N * Ristretto.sqrtADMinusOne * (1 + s * s))
        rw [hs0]; ring
      · show (1 - s * s) * (N * Ristretto.sqrtADMinusOne) = 1 * (N * Ristretto.sqrtADMinusOne * (1 + s * s))
        rw [hs0]; ring
      · show (s * v + s * v) * (1 - s * s) = 0 * 1 * (N * Ristretto.sqrtADMinusOne * (1 + s * s))
        rw [hs0]; ring
    · obtain ⟨-, -, hT, hF⟩ := Fp.sqrtRatio_spec hu0 hv0
      rw [hs] at hT hF
      have h1 : 4 * v = (r - 1) ^ 2 * (Point.libD - 1) ^ 2 - (r + 1) ^ 2 * (1 + Point.libD) ^ 2 := by rw [hv]; ring
      cases w with
      | true =>
        have hT : v * s0 ^ 2 = u := hT rfl
        simp only [Fp.select, if_true] at hs' hc
        have hvs : v * s ^ 2 = u := by rw [hs']; exact hT
        obtain ⟨A, hA, hy, hrep⟩ := jacobi (s := s) (N := N) hv0 (by
          have e : v ^ 2 * ((1 + s * s) ^ 2 + Point.libD * (1 - s * s) ^ 2)
              = (1 + Point.libD) * (v ^ 2 + u ^ 2) + 2 * (1 - Point.libD) * u * v := by
            rw [← hvs]; ring
          rw [e, hN, hc, hu]
          linear_combination -(Point.libD - 1) ^ 2 * (1 + Point.libD) * h1)
        exact ⟨A, hA, hy, Or.inl (by rw [← hv, ← hu, ← hvs]; ring), hrep⟩
      | false =>
        have hF : v * s0 ^ 2 = Fp.libSqrtM1 * u := hF rfl
        simp only [Fp.select, Bool.false_eq_true, if_false] at hs' hc
        have hvs : v * s ^ 2 = r * u := by
          rw [hs', neg_sq, Fp.absolute_sq, hr]
          linear_combination t ^ 2 * hF
        obtain ⟨A, hA, hy, hrep⟩ := jacobi (s := s) (N := N) hv0 (by
          have e : v ^ 2 * ((1 + s * s) ^ 2 + Point.libD * (1 - s * s) ^ 2)
              = (1 + Point.libD) * (v ^ 2 + (r * u) ^ 2) + 2 * (1 - Point.libD) * (r * u) * v := by
            rw [← hvs]; ring
          rw [e, hN, hc, hu]
          linear_combination -(Point.libD - 1) ^ 2 * (1 + Point.libD) * r ^ 2 * h1)
        exact ⟨A, hA, hy, Or.inr (Or.inl (by rw [← hv, ← hu, ← hvs]; ring)), hrep⟩

theorem mapToPoint_ok (t : Fp) : ∃ P A, Ristretto.mapToPoint t = .ok P ∧ Rep P A ∧ Even A := by
  obtain ⟨P, A, σ, h1, h2, h3, -⟩ := mapToPoint_quartic t
  exact ⟨P, A, h1, h2, h3⟩

end Verif.Curve
