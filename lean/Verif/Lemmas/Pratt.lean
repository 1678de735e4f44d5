import Mathlib.NumberTheory.LucasPrimality
import Mathlib.Data.ZMod.Basic
import Mathlib.Tactic.NormNum.Prime

/-!
Primality by Pratt certificates, evaluated by the kernel on `Nat` literals (no compiled code).
-/

namespace Verif.Pratt

/-- Square-and-multiply `a ^ k % n` with an accumulator; `fuel` bounds the number of binary digits of `k`. -/
def powModAux (n : ℕ) : ℕ → ℕ → ℕ → ℕ → ℕ
  | 0, _, _, acc => acc
  | fuel + 1, a, k, acc =>
    powModAux n fuel (a * a % n) (k / 2) (if k % 2 = 1 then acc * a % n else acc)

def powMod (a k n : ℕ) : ℕ := powModAux n 256 (a % n) k (1 % n)

theorem powModAux_eq (n : ℕ) : ∀ (fuel a k acc : ℕ), k < 2 ^ fuel →
    powModAux n fuel a k acc % n = acc * a ^ k % n := by
  intro fuel
  induction fuel with
  | zero =>
    intro a k acc hk
    have : k = 0 := by simpa using hk
    subst this
    simp [powModAux]
  | succ f ih =>
    intro a k acc hk
    have hk2 : k / 2 < 2 ^ f := by
      rw [pow_succ] at hk; omega
    rw [powModAux, ih _ _ _ hk2]
    have hpow : (a * a % n) ^ (k / 2) % n = (a ^ (2 * (k / 2))) % n := by
      rw [← Nat.pow_mod, pow_mul, pow_two]
    have hkk : k = 2 * (k / 2) + k % 2 := (Nat.div_add_mod k 2).symm
    by_cases h : k % 2 = 1
    · rw [if_pos h]
      rw [Nat.mul_mod, hpow]
      conv_rhs => rw [hkk, h, pow_succ]
      rw [Nat.mod_mod, ← Nat.mul_mod]
      congr 1
      ring
    · rw [if_neg h]
      have h0 : k % 2 = 0 := by omega
      rw [Nat.mul_mod, hpow]
      conv_rhs => rw [hkk, h0, add_zero]
      rw [← Nat.mul_mod]

theorem powModAux_lt (n : ℕ) (hn : 0 < n) : ∀ (fuel a k acc : ℕ), acc < n →
    powModAux n fuel a k acc < n := by
  intro fuel
  induction fuel with
  | zero => intro a k acc h; simpa [powModAux] using h
  | succ f ih =>
    intro a k acc h
    rw [powModAux]
    apply ih
    split
    · exact Nat.mod_lt _ hn
    · exact h

theorem powMod_eq (a k n : ℕ) (hn : 0 < n) (hk : k < 2 ^ 256) : powMod a k n = a ^ k % n := by
  have h := powModAux_eq n 256 (a % n) k (1 % n) hk
  have hlt := powModAux_lt n hn 256 (a % n) k (1 % n) (Nat.mod_lt _ hn)
  rw [Nat.mod_eq_of_lt hlt] at h
  rw [powMod, h, Nat.mul_mod, Nat.mod_mod, ← Nat.pow_mod, ← Nat.mul_mod, one_mul]

/-- Decidable content of a Pratt certificate for `n` with witness `a` and the prime factors `fs` of `n-1`. -/
def check (n a : ℕ) (fs : List ℕ) : Bool :=
  decide (1 < n) && decide (n < 2 ^ 256) && decide (fs.prod = n - 1) && decide (powMod a (n - 1) n = 1)
    && fs.all (fun f => decide (powMod a ((n - 1) / f) n ≠ 1))

theorem prime_of_check (n a : ℕ) (fs : List ℕ) (hfs : ∀ f ∈ fs, f.Prime)
    (h : check n a fs = true) : n.Prime := by
  simp only [check, Bool.and_eq_true, decide_eq_true_eq, List.all_eq_true] at h
  obtain ⟨⟨⟨⟨h1, h2⟩, h3⟩, h4⟩, h5⟩ := h
  have key : ∀ k, k < 2 ^ 256 → ((a : ZMod n) ^ k = 1 ↔ powMod a k n = 1) := by
    intro k hk
    rw [powMod_eq a k n (by omega) hk]
    have : (a : ZMod n) ^ k = 1 ↔ ((a ^ k : ℕ) : ZMod n) = ((1 : ℕ) : ZMod n) := by push_cast; rfl
    rw [this, ZMod.natCast_eq_natCast_iff, Nat.ModEq, Nat.mod_eq_of_lt h1]
  refine lucas_primality n (a : ZMod n) ((key _ (by omega)).2 h4) ?_
  intro r hr hdvd
  rw [← h3] at hdvd
  obtain ⟨f, hf, hrf⟩ := (Prime.dvd_prod_iff hr.prime).1 hdvd
  have : r = f := (Nat.prime_dvd_prime_iff_eq hr (hfs f hf)).1 hrf
  subst this
  rw [Ne, key _ (lt_of_le_of_lt (Nat.div_le_self _ _) (by omega))]
  exact h5 r hf

end Verif.Pratt
