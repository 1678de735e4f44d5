import Verif.Curve.Point
import Mathlib.GroupTheory.OrderOfElement
import Mathlib.GroupTheory.SpecificGroups.Cyclic
import Mathlib.SetTheory.Cardinal.Finite

/-!
edwards25519 is cyclic of order `8 q`: the generator has order `q`, there is a point of order 8, and no more than two points
have the same `x`.
-/

namespace Verif.Curve

open Verif (Fp Point Scalar)

theorem order_B : addOrderOf B = q := addOrderOf_eq_prime q_B B_ne_zero

/-- Coordinates of a point of order 8. -/
def t8 : Point :=
  ⟨14399317868200118260347934320527232580618823971194345261214217575416788799818,
   55188659117513257062467267217118295137698188065244968500265048394206261417927, 1,
   14399317868200118260347934320527232580618823971194345261214217575416788799818
     * 55188659117513257062467267217118295137698188065244968500265048394206261417927⟩

/-- A point of order 8. -/
def T8 : E := ⟨t8.X, t8.Y, by rw [d_def]; decide +kernel⟩

theorem rep_t8 : Rep t8 T8 := ⟨by decide +kernel, by decide +kernel, by decide +kernel, by decide +kernel⟩

/-- The point of order 4 with `x = i`. -/
def T4 : E := ⟨Fp.libSqrtM1, 0, by
  have := Fp.i_sq
  linear_combination -this⟩

/-- The point of order 2. -/
def T2 : E := ⟨0, -1, by ring⟩

theorem two_T8 : 2 • T8 = -T4 := by
  have h := rep_add rep_t8 rep_t8
  rw [← two_nsmul] at h
  ext
  · rw [h.x_eq]
    show _ = -Fp.libSqrtM1
    rw [div_eq_iff h.z]
    decide +kernel
  · rw [h.y_eq]
    show _ = (0 : Fp)
    rw [div_eq_iff h.z]
    decide +kernel

theorem two_T4 : 2 • T4 = T2 := by
  rw [two_nsmul]
  ext
  · rw [Pt.add_x]
    show (Fp.libSqrtM1 * 0 + 0 * Fp.libSqrtM1) / _ = 0
    rw [mul_zero, zero_mul, add_zero, zero_div]
  · rw [Pt.add_y]
    show (0 * 0 + Fp.libSqrtM1 * Fp.libSqrtM1) / (1 - _ * Fp.libSqrtM1 * Fp.libSqrtM1 * 0 * 0) = -1
    rw [Fp.i_sq, mul_zero, mul_zero, sub_zero, div_one, zero_add]

theorem two_T2 : 2 • T2 = 0 := by
  rw [two_nsmul]
  ext
  · rw [Pt.add_x]
    show (0 * (-1) + (-1) * 0) / _ = (0 : Fp)
    rw [mul_zero, zero_mul, add_zero, zero_div]
  · rw [Pt.add_y]
    show ((-1) * (-1) + 0 * 0) / (1 - _ * 0 * 0 * (-1) * (-1)) = (1 : Fp)
    simp

theorem T2_ne_zero : T2 ≠ 0 := by
  intro h
  have : (-1 : Fp) = 1 := congrArg Pt.y h
  exact Fp.two_ne_zero (by linear_combination -this)

theorem four_T8 : 4 • T8 = T2 := by
  rw [show 4 = 2 * 2 by rfl, mul_nsmul, two_T8, smul_neg, two_T4]
  have := two_T2
  rw [two_nsmul] at this
  exact neg_eq_of_add_eq_zero_left this

theorem order_T8 : addOrderOf T8 = 8 := by
  have : addOrderOf T8 = 2 ^ (2 + 1) := by
    refine addOrderOf_eq_prime_pow ?_ ?_
    · rw [show 2 ^ 2 = 4 by rfl, four_T8]
      exact T2_ne_zero
    · rw [show 2 ^ (2 + 1) = 4 * 2 by rfl, mul_nsmul, four_T8, two_T2]
  exact this

theorem q_odd : q % 2 = 1 := by decide +kernel

theorem coprime_q : Nat.Coprime q 8 := by
  rw [Nat.Prime.coprime_iff_not_dvd q_prime]
  intro h
  have := Nat.le_of_dvd (by decide) h
  revert this
  decide +kernel

/-- A generator of the whole curve. -/
def W : E := B + T8

theorem order_W : addOrderOf W = q * 8 := by
  have := (AddCommute.all B T8).addOrderOf_add_eq_mul_addOrderOf_of_coprime (by rw [order_B, order_T8]; exact coprime_q)
  rw [order_B, order_T8] at this
  exact this

/-! ### Counting -/

theorem one_sub_dx (A : E) : 1 - Point.libD * A.x ^ 2 ≠ 0 := by
  intro h
  refine libD_nonsquare ⟨A.x⁻¹, ?_⟩
  have hx : A.x ≠ 0 := by
    intro h0
    rw [h0] at h
    simp at h
  field_simp
  linear_combination -h

theorem y_sq (A : E) : A.y ^ 2 * (1 - Point.libD * A.x ^ 2) = 1 + A.x ^ 2 := by
  have := A.on
  rw [d_def] at this
  linear_combination this

theorem y_sq_eq {A C : E} (h : A.x = C.x) : A.y ^ 2 = C.y ^ 2 := by
  have ha := y_sq A
  have hc := y_sq C
  rw [← h, ← ha] at hc
  exact (mul_right_cancel₀ (one_sub_dx A) hc).symm

/-- A point is determined by `x` and the sign of `y`. -/
theorem xsign_injective : Function.Injective (fun A : E => (A.x, Fp.isNegative A.y)) := by
  intro A C h
  simp only [Prod.mk.injEq] at h
  have hy := y_sq_eq h.1
  ext
  · exact h.1
  · rcases sq_eq_sq_iff_eq_or_eq_neg.1 hy with h' | h'
    · exact h'
    · by_cases h0 : C.y = 0
      · rw [h', h0, neg_zero]
      · have := h.2
        rw [h', Fp.isNegative_neg h0] at this
        revert this
        cases Fp.isNegative C.y <;> intro h <;> exact absurd h (by decide)

instance : Finite E := Finite.of_injective _ xsign_injective

theorem card_le : Nat.card E ≤ p * 2 := by
  have := Nat.card_le_card_of_injective _ xsign_injective
  rwa [Nat.card_prod, Nat.card_zmod, Nat.card_eq_fintype_card (α := Bool), Fintype.card_bool] at this

/-- The curve has exactly `8 q` points. -/
theorem card_E : Nat.card E = q * 8 := by
  obtain ⟨k, hk⟩ : q * 8 ∣ Nat.card E := by
    rw [← order_W]
    exact addOrderOf_dvd_natCard W
  have hpos : 0 < Nat.card E := Nat.card_pos
  have hle := card_le
  have hpq : p * 2 < q * 8 * 2 := by decide +kernel
  have hq : 0 < q := by decide +kernel
  have h1 : k < 2 := by
    by_contra h
    have : q * 8 * 2 ≤ q * 8 * k := Nat.mul_le_mul_left _ (by omega)
    omega
  have h2 : k ≠ 0 := by
    rintro rfl
    omega
  have : k = 1 := by omega
  rw [hk, this, mul_one]

/-- Every point is a multiple of `W`. -/
theorem exists_mul_W (A : E) : ∃ n : ℕ, A = n • W := by
  have h : AddSubgroup.zmultiples W = ⊤ := by
    apply AddSubgroup.eq_top_of_card_eq
    rw [Nat.card_zmultiples, order_W, card_E]
  have hA : A ∈ AddSubgroup.zmultiples W := by rw [h]; trivial
  rw [← mem_multiples_iff_mem_zmultiples] at hA
  obtain ⟨n, hn⟩ := AddSubmonoid.mem_multiples_iff _ _ |>.1 hA
  exact ⟨n, hn.symm⟩

theorem mul_W (n : ℕ) : n • W = n • B + n • T8 := nsmul_add _ _ _

theorem nsmul_B_eq_zero {n : ℕ} : n • B = 0 ↔ q ∣ n := by rw [← order_B, addOrderOf_dvd_iff_nsmul_eq_zero]

theorem nsmul_T8_eq_zero {n : ℕ} : n • T8 = 0 ↔ 8 ∣ n := by rw [← order_T8, addOrderOf_dvd_iff_nsmul_eq_zero]

theorem nsmul_W_eq_zero {n : ℕ} : n • W = 0 ↔ q * 8 ∣ n := by rw [← order_W, addOrderOf_dvd_iff_nsmul_eq_zero]

theorem card_nsmul (A : E) : (q * 8) • A = 0 := by
  rw [← card_E, ← addOrderOf_dvd_iff_nsmul_eq_zero]
  exact addOrderOf_dvd_natCard A

/-! ### Even points and small torsion -/

/-- The points of `2E`. -/
def Even (A : E) : Prop := ∃ C : E, A = 2 • C

theorem even_zero : Even 0 := ⟨0, by simp⟩

theorem Even.add {A C : E} (hA : Even A) (hC : Even C) : Even (A + C) := by
  obtain ⟨a, rfl⟩ := hA
  obtain ⟨c, rfl⟩ := hC
  exact ⟨a + c, by rw [nsmul_add]⟩

theorem Even.neg {A : E} (hA : Even A) : Even (-A) := by
  obtain ⟨a, rfl⟩ := hA
  exact ⟨-a, by rw [smul_neg]⟩

theorem Even.sub {A C : E} (hA : Even A) (hC : Even C) : Even (A - C) := by
  rw [sub_eq_add_neg]
  exact hA.add hC.neg

theorem Even.nsmul {A : E} (hA : Even A) (n : ℕ) : Even (n • A) := by
  obtain ⟨a, rfl⟩ := hA
  exact ⟨n • a, by rw [smul_smul, smul_smul, mul_comm]⟩

/-- Points of odd order are even. -/
theorem even_of_q {A : E} (h : q • A = 0) : Even A := by
  refine ⟨((q + 1) / 2) • A, ?_⟩
  rw [smul_smul, show 2 * ((q + 1) / 2) = q + 1 by have := q_odd; omega, succ_nsmul, h, zero_add]

theorem even_B : Even B := even_of_q q_B

theorem even_T4 : Even T4 := ⟨-T8, by rw [smul_neg, two_T8, neg_neg]⟩

theorem even_T2 : Even T2 := ⟨T4, two_T4.symm⟩

theorem nsmul_W_even {n : ℕ} (h : Even (n • W)) : n % 2 = 0 := by
  obtain ⟨C, hC⟩ := h
  obtain ⟨k, rfl⟩ := exists_mul_W C
  have h1 : (q * 8 / 2 * n) • W = 0 := by
    rw [mul_comm, mul_nsmul, hC, smul_smul, smul_smul, nsmul_W_eq_zero]
    exact ⟨k, by rw [show q * 8 / 2 = q * 4 by omega]; ring⟩
  rw [nsmul_W_eq_zero] at h1
  obtain ⟨c, hc⟩ := h1
  have hq : 0 < q := by decide +kernel
  have : q * 8 / 2 = q * 4 := by omega
  rw [this, show q * 8 * c = q * 4 * (2 * c) by ring] at hc
  have := Nat.eq_of_mul_eq_mul_left (by omega) hc
  omega

/-- A point that is not even becomes even by adding `T8`. -/
theorem even_or (A : E) : Even A ∨ Even (A + T8) := by
  obtain ⟨n, rfl⟩ := exists_mul_W A
  rcases Nat.mod_two_eq_zero_or_one n with h | h
  · left
    exact ⟨(n / 2) • W, by rw [smul_smul, show 2 * (n / 2) = n by omega]⟩
  · right
    rw [mul_W, add_assoc, ← succ_nsmul]
    exact (even_B.nsmul n).add ⟨((n + 1) / 2) • T8, by rw [smul_smul, show 2 * ((n + 1) / 2) = n + 1 by omega]⟩

theorem not_even_T8 : ¬ Even T8 := by
  intro h
  have : Even (1 • W) := by rw [one_nsmul]; exact even_B.add h
  exact absurd (nsmul_W_even this) (by decide)

/-- An even point killed by 8 is killed by 4. -/
theorem four_of_eight {A : E} (hA : Even A) (h : 8 • A = 0) : 4 • A = 0 := by
  obtain ⟨C, rfl⟩ := hA
  obtain ⟨n, rfl⟩ := exists_mul_W C
  rw [smul_smul, smul_smul, nsmul_W_eq_zero] at h ⊢
  have hq : q ∣ n := by
    have : q ∣ 2 ^ 4 * n := dvd_trans (dvd_mul_right q 8) (by rw [show 2 ^ 4 * n = 8 * 2 * n by ring]; exact h)
    refine (Nat.Coprime.dvd_mul_left ?_).1 this
    exact Nat.Coprime.pow_right _ (Nat.Coprime.coprime_dvd_right (by decide) coprime_q)
  obtain ⟨k, rfl⟩ := hq
  exact ⟨k, by ring⟩

/-- The points killed by 4. -/
theorem four_torsion (A : E) : 4 • A = 0 ↔ A = 0 ∨ A = T2 ∨ A = T4 ∨ A = -T4 := by
  constructor
  · intro h
    obtain ⟨n, rfl⟩ := exists_mul_W A
    rw [smul_smul, nsmul_W_eq_zero] at h
    obtain ⟨c, hc⟩ := h
    have hn : n = q * 2 * c := by
      have : 4 * n = 4 * (q * 2 * c) := by rw [hc]; ring
      exact Nat.eq_of_mul_eq_mul_left (by decide) this
    have h1 : n • W = (q * c) • (-T4) := by
      rw [mul_W, nsmul_B_eq_zero.2 ⟨2 * c, by rw [hn]; ring⟩, zero_add, ← two_T8, smul_smul, hn]
      congr 1
      ring
    rw [h1]
    have h4 : 4 • (-T4) = 0 := by
      rw [show 4 = 2 * 2 by rfl, mul_nsmul, smul_neg, two_T4, smul_neg, two_T2, neg_zero]
    have h2 : 2 • (-T4) = T2 := by
      rw [smul_neg, two_T4]
      have := two_T2
      rw [two_nsmul] at this
      exact neg_eq_of_add_eq_zero_left this
    have h3 : 3 • (-T4) = T4 := by
      have e : 3 • (-T4) + -T4 = 0 := by rw [← succ_nsmul]; exact h4
      exact add_neg_eq_zero.1 e
    have hm : (q * c) • (-T4) = (q * c % 4) • (-T4) := by
      conv_lhs => rw [← Nat.div_add_mod (q * c) 4, add_nsmul, mul_nsmul, h4, nsmul_zero, zero_add]
    rw [hm]
    have : q * c % 4 < 4 := Nat.mod_lt _ (by decide)
    have : q * c % 4 = 0 ∨ q * c % 4 = 1 ∨ q * c % 4 = 2 ∨ q * c % 4 = 3 := by omega
    rcases this with h | h | h | h <;> rw [h]
    · simp
    · simp
    · right; left; exact h2
    · right; right; left; exact h3
  · rintro (rfl | rfl | rfl | rfl)
    · simp
    · rw [show 4 = 2 * 2 by rfl, mul_nsmul, two_T2, nsmul_zero]
    · rw [show 4 = 2 * 2 by rfl, mul_nsmul, two_T4, two_T2]
    · rw [smul_neg, show 4 = 2 * 2 by rfl, mul_nsmul, two_T4, two_T2, neg_zero]

end Verif.Curve
