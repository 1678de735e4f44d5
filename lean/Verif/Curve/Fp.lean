import Verif.Model.Ristretto
import Verif.Lemmas.Bytes
import Verif.Curve.Edwards
import Mathlib.NumberTheory.LegendreSymbol.Basic

/-!
The field of `2^255 - 19` elements: signs, encodings, square roots, and the constants of pkg/ristretto/ristretto.go.
-/

namespace Verif.Fp

theorem p_val : p = 57896044618658097711785492504343953926634992332820282019728792003956564819949 := by decide +kernel

theorem p_odd : p % 2 = 1 := by decide +kernel

theorem p_lt : p < 2 ^ 255 := by decide +kernel

theorem p_pos : 0 < p := by decide +kernel

theorem two_ne_zero : (2 : Fp) ≠ 0 := by decide +kernel

/-! ### The square root of minus one -/

theorem i_sq : libSqrtM1 * libSqrtM1 = -1 := by decide +kernel

theorem i_ne_zero : libSqrtM1 ≠ 0 := by decide +kernel

theorem neg_one_square : IsSquare (-1 : Fp) := ⟨libSqrtM1, i_sq.symm⟩

theorem i_pow_four : libSqrtM1 ^ 4 = 1 := by
  have h := i_sq
  linear_combination (libSqrtM1 * libSqrtM1 - 1) * h

theorem i_nonsquare : ¬ IsSquare libSqrtM1 := by
  rw [ZMod.euler_criterion p i_ne_zero]
  have h : p / 2 = 4 * (p / 8) + 2 := by decide +kernel
  rw [h, pow_add, pow_mul, i_pow_four, one_pow, one_mul, pow_two, i_sq]
  intro h
  exact two_ne_zero (by linear_combination -h)

/-! ### Powers -/

theorem powOnes_eq (x : Fp) : ∀ k, powOnes x k = x ^ (2 ^ k - 1)
  | 0 => by simp [powOnes]
  | k + 1 => by
    rw [powOnes, powOnes_eq x k, ← pow_add, ← pow_succ]
    congr 1
    have : 1 ≤ 2 ^ k := Nat.one_le_two_pow
    rw [pow_succ]
    omega

theorem pow22523_eq (x : Fp) : pow22523 x = x ^ ((p - 5) / 8) := by
  have h : (p - 5) / 8 = (2 ^ 250 - 1) * 2 * 2 + 1 := by decide +kernel
  rw [h]
  unfold pow22523
  rw [powOnes_eq]
  generalize 2 ^ 250 - 1 = k
  ring

theorem invert_eq (x : Fp) : invert x = x⁻¹ := by
  by_cases hx : x = 0
  · subst hx
    simp [invert]
  · have h : invert x = x ^ (p - 2) := by
      have h : p - 2 = (2 ^ 250 - 1) * 2 * 2 * 2 * 2 * 2 + (2 * 2 * 2 + 2 + 1) := by decide +kernel
      rw [h]
      unfold invert
      rw [powOnes_eq]
      generalize 2 ^ 250 - 1 = k
      ring
    have h1 : x ^ (p - 1) = 1 := ZMod.pow_card_sub_one_eq_one hx
    have h2 : p - 1 = (p - 2) + 1 := by decide +kernel
    rw [h2, pow_succ] at h1
    rw [h]
    exact eq_inv_of_mul_eq_one_left h1

/-! ### Signs -/

@[simp] theorem isNegative_zero : isNegative 0 = false := by decide +kernel

theorem isNegative_neg {x : Fp} (hx : x ≠ 0) : isNegative (-x) = !isNegative x := by
  have h := ZMod.val_lt x
  have h0 : x.val ≠ 0 := fun h => hx ((ZMod.val_eq_zero x).1 h)
  have hp := p_odd
  have : NeZero x := ⟨hx⟩
  rw [isNegative, isNegative, ZMod.val_neg_of_ne_zero, Bool.eq_iff_iff]
  simp only [decide_eq_true_eq, Bool.not_eq_true', decide_eq_false_iff_not]
  omega

theorem isNegative_absolute (x : Fp) : isNegative (absolute x) = false := by
  unfold absolute
  split
  · next h =>
    have hx : x ≠ 0 := by
      rintro rfl
      simp at h
    rw [isNegative_neg hx, h]
    rfl
  · next h => simpa using h

theorem absolute_eq_or (x : Fp) : absolute x = x ∨ absolute x = -x := by
  unfold absolute
  split
  · exact .inr rfl
  · exact .inl rfl

theorem absolute_sq (x : Fp) : absolute x ^ 2 = x ^ 2 := by
  rcases absolute_eq_or x with h | h <;> rw [h]
  ring

theorem absolute_of_nonneg {x : Fp} (h : isNegative x = false) : absolute x = x := by simp [absolute, h]

theorem eq_of_sq_eq {x y : Fp} (h : x ^ 2 = y ^ 2) (hx : isNegative x = false) (hy : isNegative y = false) : x = y := by
  rcases sq_eq_sq_iff_eq_or_eq_neg.1 h with h | h
  · exact h
  · by_cases h0 : y = 0
    · rw [h, h0, neg_zero]
    · rw [h, isNegative_neg h0, hy] at hx
      exact absurd hx (by decide)

theorem absolute_eq_zero {x : Fp} : absolute x = 0 ↔ x = 0 := by
  rcases absolute_eq_or x with h | h <;> rw [h]
  exact neg_eq_zero

theorem absolute_neg (x : Fp) : absolute (-x) = absolute x :=
  eq_of_sq_eq (by rw [absolute_sq, absolute_sq]; ring) (isNegative_absolute _) (isNegative_absolute _)

/-! ### Encodings -/

theorem bytes_length (x : Fp) : (bytes x).length = 32 := natLE_length _ _

theorem leNat_bytes (x : Fp) : leNat (bytes x) = x.val := by
  rw [bytes, leNat_natLE, Nat.mod_eq_of_lt]
  have := ZMod.val_lt x
  have := p_lt
  calc x.val < 2 ^ 255 := by omega
    _ ≤ 256 ^ 32 := by decide +kernel

theorem setBytes_bytes (x : Fp) : setBytes (bytes x) = some x := by
  rw [setBytes, if_neg (by rw [bytes_length]; decide), leNat_bytes, Nat.mod_eq_of_lt, ZMod.natCast_zmod_val]
  have := ZMod.val_lt x
  have := p_lt
  omega

theorem bytes_injective {x y : Fp} (h : bytes x = bytes y) : x = y := by
  have := setBytes_bytes x
  rw [h, setBytes_bytes] at this
  exact (Option.some.inj this).symm

theorem setBytes_32 {b : Bytes} (h : b.length = 32) : setBytes b = some ((leNat b % 2 ^ 255 : ℕ) : Fp) := by
  rw [setBytes, if_neg (by rw [h]; decide)]

/-! ### Square roots of ratios -/

theorem sqrtRatio_zero_left (v : Fp) : sqrtRatio 0 v = (0, true) := by
  simp [sqrtRatio, select, absolute]

theorem sqrtRatio_zero_right {u : Fp} (hu : u ≠ 0) : sqrtRatio u 0 = (0, false) := by
  have h1 : ¬ (0 : Fp) = u := fun h => hu h.symm
  have h2 : ¬ (0 : Fp) = -u := fun h => hu (by rw [eq_comm, neg_eq_zero] at h; exact h)
  simp [sqrtRatio, select, absolute, h1, h2]

/-- What `SqrtRatio` computes when both arguments are non-zero. -/
theorem sqrtRatio_spec {u v : Fp} (hu : u ≠ 0) (hv : v ≠ 0) :
    isNegative (sqrtRatio u v).1 = false ∧
    ((sqrtRatio u v).2 = true ↔ IsSquare (u * v)) ∧
    ((sqrtRatio u v).2 = true → v * (sqrtRatio u v).1 ^ 2 = u) ∧
    ((sqrtRatio u v).2 = false → v * (sqrtRatio u v).1 ^ 2 = libSqrtM1 * u) := by
  have hi := i_sq
  set w := u * v ^ 7 with hw
  have hw0 : w ≠ 0 := mul_ne_zero hu (pow_ne_zero _ hv)
  set c := w ^ (2 * ((p - 5) / 8) + 1) with hc
  have h4 : c ^ 4 = 1 := by
    rw [hc, ← pow_mul]
    have : (2 * ((p - 5) / 8) + 1) * 4 = p - 1 := by decide +kernel
    rw [this]
    exact ZMod.pow_card_sub_one_eq_one hw0
  have h2 : c ^ 2 = 1 ↔ IsSquare (u * v) := by
    rw [hc, ← pow_mul]
    have : (2 * ((p - 5) / 8) + 1) * 2 = p / 2 := by decide +kernel
    rw [this, ← ZMod.euler_criterion p hw0, hw]
    constructor
    · rintro ⟨a, ha⟩
      refine ⟨a / v ^ 3, ?_⟩
      field_simp
      linear_combination ha
    · rintro ⟨a, ha⟩
      exact ⟨a * v ^ 3, by linear_combination v ^ 6 * ha⟩
  set rr := u * (v * v * v) * pow22523 (u * (v * v * v) * (v * v * (v * v))) with hrr
  have hcheck : v * (rr * rr) = u * c := by
    have : pow22523 (u * (v * v * v) * (v * v * (v * v))) ^ 2 * w = c := by
      have e : u * (v * v * v) * (v * v * (v * v)) = w := by rw [hw]; ring
      rw [e, pow22523_eq, hc, ← pow_mul, ← pow_succ]
      congr 2
    rw [hrr, ← this, hw]
    ring
  have hcases : c = 1 ∨ c = -1 ∨ c = libSqrtM1 ∨ c = -libSqrtM1 := by
    have : (c - 1) * ((c + 1) * ((c - libSqrtM1) * (c + libSqrtM1))) = 0 := by
      linear_combination h4 + (1 - c ^ 2) * hi
    rcases mul_eq_zero.1 this with h | h
    · exact .inl (sub_eq_zero.1 h)
    rcases mul_eq_zero.1 h with h | h
    · exact .inr (.inl (eq_neg_of_add_eq_zero_left h))
    rcases mul_eq_zero.1 h with h | h
    · exact .inr (.inr (.inl (sub_eq_zero.1 h)))
    · exact .inr (.inr (.inr (eq_neg_of_add_eq_zero_left h)))
  have hval : sqrtRatio u v = (absolute (select (rr * libSqrtM1) rr (decide (u * c = -u) || decide (u * c = -u * libSqrtM1))),
      decide (u * c = u) || decide (u * c = -u)) := by
    rw [← hcheck]
    rfl
  have e1 : (u * c = u) ↔ c = 1 := by
    constructor
    · intro h; exact mul_left_cancel₀ hu (by rw [h, mul_one])
    · rintro h; rw [h, mul_one]
  have e2 : (u * c = -u) ↔ c = -1 := by
    constructor
    · intro h; exact mul_left_cancel₀ hu (by rw [h]; ring)
    · rintro h; rw [h]; ring
  have e3 : (u * c = -u * libSqrtM1) ↔ c = -libSqrtM1 := by
    constructor
    · intro h; exact mul_left_cancel₀ hu (by rw [h]; ring)
    · rintro h; rw [h]; ring
  have n1 : ¬ (-1 : Fp) = 1 := by decide +kernel
  have n2 : ¬ (1 : Fp) = -1 := by decide +kernel
  have n3 : ¬ libSqrtM1 = 1 := by decide +kernel
  have n4 : ¬ libSqrtM1 = -1 := by decide +kernel
  have n5 : ¬ -libSqrtM1 = 1 := by decide +kernel
  have n6 : ¬ -libSqrtM1 = -1 := by decide +kernel
  have n7 : ¬ 1 = -libSqrtM1 := by decide +kernel
  have n8 : ¬ -1 = -libSqrtM1 := by decide +kernel
  have n9 : ¬ libSqrtM1 = -libSqrtM1 := by decide +kernel
  rw [hval, ← h2]
  simp only [e1, e2, e3]
  refine ⟨isNegative_absolute _, ?_, ?_, ?_⟩
  · rcases hcases with h | h | h | h <;> rw [h]
    · simp
    · simp
    · simp only [n3, n4, decide_false, Bool.or_self, Bool.false_eq_true, false_iff, pow_two, hi]
      exact n1
    · simp only [n5, n6, decide_false, Bool.or_self, Bool.false_eq_true, false_iff, pow_two, neg_mul_neg, hi]
      exact n1
  · intro h'
    rw [absolute_sq]
    rcases hcases with h | h | h | h <;> rw [h] at hcheck h' ⊢
    · simp only [n2, n7, decide_false, Bool.or_self, select, Bool.false_eq_true, if_false]
      linear_combination hcheck
    · simp only [decide_true, Bool.true_or, select, if_true]
      linear_combination libSqrtM1 ^ 2 * hcheck - u * hi
    · simp [n3, n4] at h'
    · simp [n5, n6] at h'
  · intro h'
    rw [absolute_sq]
    rcases hcases with h | h | h | h <;> rw [h] at hcheck h' ⊢
    · simp at h'
    · simp at h'
    · simp only [n4, n9, decide_false, Bool.or_self, select, Bool.false_eq_true, if_false]
      linear_combination hcheck
    · simp only [n6, decide_true, Bool.or_true, select, if_true]
      linear_combination libSqrtM1 ^ 2 * hcheck - u * libSqrtM1 * hi

end Verif.Fp
