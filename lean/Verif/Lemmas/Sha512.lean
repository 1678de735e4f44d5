import Verif.Spec.Sha512
import Verif.Model.Sha512
import Mathlib.Tactic.IntervalCases

/-!
Helpers for `Verif/Props/Sha512.lean`: the words, functions and constants of the model are those of FIPS 180-4.
-/

namespace Verif.Lemmas.Sha

open Verif (Bytes)

theorem rotr_eq (x : UInt64) (n : Nat) (h0 : 0 < n) (h : n < 64) :
    (Verif.Sha.rotr x (UInt64.ofNat n)).toBitVec = x.toBitVec.rotateRight n := by
  have h1 : (UInt64.ofNat n).toBitVec.toNat = n := by simp; omega
  have h2 : (64 - UInt64.ofNat n).toBitVec.toNat = 64 - n := by
    rw [UInt64.toBitVec_sub, BitVec.toNat_sub, h1]; simp; omega
  simp only [Verif.Sha.rotr, UInt64.toBitVec_or, UInt64.toBitVec_shiftRight, UInt64.toBitVec_shiftLeft, BitVec.rotateRight,
    BitVec.rotateRightAux]
  have e1 : x.toBitVec >>> ((UInt64.ofNat n).toBitVec % 64#64) = x.toBitVec >>> (n % 64) := by
    rw [BitVec.ushiftRight_eq', BitVec.toNat_umod, h1]; rfl
  have e2 : x.toBitVec <<< ((64 - UInt64.ofNat n).toBitVec % 64#64) = x.toBitVec <<< (64 - n % 64) := by
    rw [BitVec.shiftLeft_eq', BitVec.toNat_umod, h2]
    have a : (64#64).toNat = 64 := rfl
    rw [a, Nat.mod_eq_of_lt h, Nat.mod_eq_of_lt (by omega)]
  exact congrArg₂ (· ||| ·) e1 e2

theorem Ch_eq (x y z : UInt64) : (Verif.Sha.Ch x y z).toBitVec = Verif.Spec.Sha512.Ch x.toBitVec y.toBitVec z.toBitVec := by
  ext i h
  simp only [Verif.Sha.Ch, Verif.Spec.Sha512.Ch, UInt64.toBitVec_xor, UInt64.toBitVec_and, UInt64.toBitVec_not, BitVec.getElem_xor,
    BitVec.getElem_and, BitVec.getElem_not, BitVec.getElem_ofFnLE, BitVec.getLsbD_eq_getElem h]
  cases x.toBitVec[i] <;> simp

theorem Maj_eq (x y z : UInt64) : (Verif.Sha.Maj x y z).toBitVec = Verif.Spec.Sha512.Maj x.toBitVec y.toBitVec z.toBitVec := by
  ext i h
  simp only [Verif.Sha.Maj, Verif.Spec.Sha512.Maj, UInt64.toBitVec_xor, UInt64.toBitVec_and, BitVec.getElem_xor,
    BitVec.getElem_and, BitVec.getElem_ofFnLE, BitVec.getLsbD_eq_getElem h]
  cases x.toBitVec[i] <;> cases y.toBitVec[i] <;> cases z.toBitVec[i] <;> rfl

theorem S0_eq (x : UInt64) : (Verif.Sha.bigSigma0 x).toBitVec = Verif.Spec.Sha512.S0 x.toBitVec := by
  simp only [Verif.Sha.bigSigma0, Verif.Spec.Sha512.S0, UInt64.toBitVec_xor]
  rw [← rotr_eq x 28 (by decide) (by decide), ← rotr_eq x 34 (by decide) (by decide), ← rotr_eq x 39 (by decide) (by decide)]; rfl

theorem S1_eq (x : UInt64) : (Verif.Sha.bigSigma1 x).toBitVec = Verif.Spec.Sha512.S1 x.toBitVec := by
  simp only [Verif.Sha.bigSigma1, Verif.Spec.Sha512.S1, UInt64.toBitVec_xor]
  rw [← rotr_eq x 14 (by decide) (by decide), ← rotr_eq x 18 (by decide) (by decide), ← rotr_eq x 41 (by decide) (by decide)]; rfl

theorem s0_eq (x : UInt64) : (Verif.Sha.smallSigma0 x).toBitVec = Verif.Spec.Sha512.s0 x.toBitVec := by
  simp only [Verif.Sha.smallSigma0, Verif.Spec.Sha512.s0, UInt64.toBitVec_xor]
  rw [← rotr_eq x 1 (by decide) (by decide), ← rotr_eq x 8 (by decide) (by decide)]; rfl

theorem s1_eq (x : UInt64) : (Verif.Sha.smallSigma1 x).toBitVec = Verif.Spec.Sha512.s1 x.toBitVec := by
  simp only [Verif.Sha.smallSigma1, Verif.Spec.Sha512.s1, UInt64.toBitVec_xor]
  rw [← rotr_eq x 19 (by decide) (by decide), ← rotr_eq x 61 (by decide) (by decide)]; rfl

/-- Trial division by the primes below 23. -/
def small (n : Nat) : Bool := Nat.ble 2 n && [2, 3, 5, 7, 11, 13, 17, 19].all fun k => Nat.beq n k || !Nat.beq (n % k) 0

theorem small_iff {n : Nat} (h : n < 410) : n.Prime ↔ small n = true := by
  simp only [small, Bool.and_eq_true, Nat.ble_eq, List.all_eq_true, Bool.or_eq_true, Bool.not_eq_true']
  constructor
  · intro hp
    refine ⟨hp.two_le, fun k hk => ?_⟩
    by_cases hz : n % k = 0
    · left
      have := (Nat.dvd_prime hp).mp (Nat.dvd_of_mod_eq_zero hz)
      rcases this with rfl | rfl
      · simp at hk
      · exact Nat.beq_refl _
    · right; simpa [← Bool.not_eq_true, Nat.beq_eq_true_eq] using hz
  · intro ⟨h2, hk⟩
    by_contra hp
    have hq := Nat.minFac_prime (n := n) (by omega)
    have hd := Nat.minFac_dvd n
    have hs := Nat.minFac_sq_le_self (by omega) hp
    have hlt : n.minFac < 21 := by nlinarith
    have hm : n.minFac ∈ [2, 3, 5, 7, 11, 13, 17, 19] := by
      generalize n.minFac = q at hq hlt
      interval_cases q <;> first | decide | exact absurd hq (by norm_num)
    rcases hk _ hm with e | e
    · exact hp ((Nat.eq_of_beq_eq_true e).symm ▸ hq)
    · rw [Nat.mod_eq_zero_of_dvd hd] at e
      exact absurd e (by decide)

/-- The first eighty primes. -/
def primes : List Nat := [2, 3, 5, 7, 11, 13, 17, 19, 23, 29, 31, 37, 41, 43, 47, 53, 59, 61, 67, 71, 73, 79, 83, 89, 97, 101, 103, 107, 109, 113, 127, 131, 137, 139, 149, 151, 157, 163, 167, 173, 179, 181, 191, 193, 197, 199, 211, 223, 227, 229, 233, 239, 241, 251, 257, 263, 269, 271, 277, 281, 283, 293, 307, 311, 313, 317, 331, 337, 347, 349, 353, 359, 367, 373, 379, 383, 389, 397, 401, 409]
theorem primes_small : ∀ t < 80, primes.getD t 0 < 410 ∧ small (primes.getD t 0) = true ∧ ((List.range (primes.getD t 0)).filter small).length = t := by
  decide +kernel
theorem primes_ok (t : Nat) (h : t < 80) : Nat.Prime (primes.getD t 0) ∧ Nat.count Nat.Prime (primes.getD t 0) = t := by
  obtain ⟨h1, h2, h3⟩ := primes_small t h
  refine ⟨(small_iff h1).mpr h2, ?_⟩
  rw [Nat.count, List.countP_eq_length_filter]
  refine Eq.trans (congrArg List.length ?_) h3
  refine List.filter_congr fun x hx => ?_
  have := small_iff (n := x) (by have := List.mem_range.mp hx; omega)
  simp [this]

theorem K_bounds : ∀ t < 80, ∃ n < 8, (n * 2 ^ 64 + (Verif.Sha.K.getD t 0).toNat) ^ 3 ≤ primes.getD t 0 * 2 ^ 192 ∧
    primes.getD t 0 * 2 ^ 192 < (n * 2 ^ 64 + (Verif.Sha.K.getD t 0).toNat + 1) ^ 3 := by
  decide +kernel

theorem H_bounds : ∀ t < 8, ∃ n < 8, (n * 2 ^ 64 + (Verif.Sha.H0.getD t 0).toNat) ^ 2 ≤ primes.getD t 0 * 2 ^ 128 ∧
    primes.getD t 0 * 2 ^ 128 < (n * 2 ^ 64 + (Verif.Sha.H0.getD t 0).toNat + 1) ^ 2 := by
  decide +kernel

theorem nth_prime (t : Nat) (h : t < 80) : Nat.nth Nat.Prime t = primes.getD t 0 := by
  obtain ⟨hp, hc⟩ := primes_ok t h
  rw [← hc, Nat.nth_count hp, hc]

/-- The first 64 bits of the fractional part of a number between two consecutive multiples of `2^-64`. -/
theorem floor_fract {x : ℝ} {n k : Nat} (hk : k < 2 ^ 64) (h1 : (n * 2 ^ 64 + k : ℝ) ≤ x * 2 ^ 64) (h2 : x * 2 ^ 64 < n * 2 ^ 64 + k + 1) :
    ⌊Int.fract x * 2 ^ 64⌋₊ = k := by
  have hk' : (k : ℝ) + 1 ≤ 2 ^ 64 := by exact_mod_cast hk
  have hfl : ⌊x⌋ = (n : ℤ) := by
    rw [Int.floor_eq_iff]
    constructor
    · push_cast; nlinarith [(Nat.cast_nonneg k : (0:ℝ) ≤ k)]
    · push_cast; nlinarith
  have hfr : Int.fract x = x - n := by rw [Int.fract, hfl]; simp
  rw [hfr, Nat.floor_eq_iff (by nlinarith [(Nat.cast_nonneg k : (0:ℝ) ≤ k)])]
  constructor <;> nlinarith

theorem K_eq (t : Nat) (h : t < 80) : (Verif.Sha.K.getD t 0).toBitVec = Verif.Spec.Sha512.K t := by
  obtain ⟨n, -, h1, h2⟩ := K_bounds t h
  have hx : (0 : ℝ) ≤ primes.getD t 0 := Nat.cast_nonneg _
  rw [Verif.Spec.Sha512.K, nth_prime t h, floor_fract (n := n) (k := (Verif.Sha.K.getD t 0).toNat) (UInt64.toNat_lt _)]
  · exact BitVec.eq_of_toNat_eq (by simp)
  · refine le_of_pow_le_pow_left₀ (n := 3) (by decide) (by positivity) ?_
    rw [mul_pow, ← Real.rpow_natCast (_ ^ (1/3:ℝ)), ← Real.rpow_mul hx]
    norm_num
    exact_mod_cast h1
  · refine lt_of_pow_lt_pow_left₀ 3 (by positivity) ?_
    rw [mul_pow, ← Real.rpow_natCast (_ ^ (1/3:ℝ)), ← Real.rpow_mul hx]
    norm_num
    exact_mod_cast h2

theorem H0_eq (t : Nat) (h : t < 8) : (Verif.Sha.H0.getD t 0).toBitVec = Verif.Spec.Sha512.H0 t := by
  obtain ⟨n, -, h1, h2⟩ := H_bounds t h
  have hx : (0 : ℝ) ≤ primes.getD t 0 := Nat.cast_nonneg _
  rw [Verif.Spec.Sha512.H0, nth_prime t (by omega), floor_fract (n := n) (k := (Verif.Sha.H0.getD t 0).toNat) (UInt64.toNat_lt _)]
  · exact BitVec.eq_of_toNat_eq (by simp)
  · refine le_of_pow_le_pow_left₀ (n := 2) (by decide) (by positivity) ?_
    rw [mul_pow, Real.sq_sqrt hx]
    norm_num
    exact_mod_cast h1
  · refine lt_of_pow_lt_pow_left₀ 2 (by positivity) ?_
    rw [mul_pow, Real.sq_sqrt hx]
    norm_num
    exact_mod_cast h2

end Verif.Lemmas.Sha
