import Verif.Model.Polynomial
import Verif.Lemmas.Party
import Verif.Spec.Poly
import Mathlib.Algebra.BigOperators.Intervals
import Mathlib.Algebra.Module.BigOperators
import Mathlib.Tactic.Module

/-!
Lemmas on evaluation, addition and the wire form of polynomials in the exponent.
-/

namespace Verif

section eval
variable {F M : Type} [CommRing F] [AddCommGroup M] [Module F M]

@[simp] theorem evalAt_nil (x : F) : Spec.evalAt ([] : List M) x = 0 := by simp [Spec.evalAt]

theorem evalAt_cons (c : M) (cs : List M) (x : F) : Spec.evalAt (c :: cs) x = c + x • Spec.evalAt cs x := by
  unfold Spec.evalAt
  rw [List.length_cons, Finset.sum_range_succ']
  simp only [List.getD_cons_succ, List.getD_cons_zero, pow_zero, one_smul, Finset.smul_sum, smul_smul]
  rw [add_comm]
  congr 1
  apply Finset.sum_congr rfl
  intro i _
  rw [pow_succ']

theorem evalAt_zipWith_add {p q : List M} (h : p.length = q.length) (x : F) :
    Spec.evalAt (List.zipWith (· + ·) p q) x = Spec.evalAt p x + Spec.evalAt q x := by
  induction p generalizing q with
  | nil =>
    have : q = [] := by simpa using h.symm
    subst this; simp
  | cons a p ih =>
    match q, h with
    | b :: q, h =>
      simp only [List.zipWith_cons_cons, evalAt_cons, ih (q := q) (by simpa using h)]
      module

theorem evalAt_map_smul {N : Type} [AddCommGroup N] [Module F N] (b : N) (p : List F) (x : F) :
    Spec.evalAt (p.map fun a => a • b) x = Spec.evalAt p x • b := by
  induction p with
  | nil => simp
  | cons a p ih => simp only [List.map_cons, evalAt_cons, ih, smul_eq_mul]; module

theorem evalAt_zero_coeffs {α : Type} (p : List α) (x : F) : Spec.evalAt (p.map fun _ => (0 : M)) x = 0 := by
  induction p with
  | nil => simp
  | cons a p ih => simp only [List.map_cons, evalAt_cons, ih]; simp

end eval

section toPoly
variable {F : Type} [CommRing F]
open Polynomial

theorem toPoly_eval (c : List F) (x : F) : (Spec.toPoly c).eval x = Spec.evalAt c x := by
  unfold Spec.toPoly Spec.evalAt
  rw [eval_finsetSum]
  apply Finset.sum_congr rfl
  intro i _
  rw [eval_mul, eval_C, eval_pow, eval_X, smul_eq_mul, mul_comm]

theorem toPoly_coeff (c : List F) (i : Nat) : (Spec.toPoly c).coeff i = c.getD i 0 := by
  unfold Spec.toPoly
  rw [finsetSum_coeff]
  simp only [coeff_C_mul, coeff_X_pow]
  by_cases h : i < c.length
  · rw [Finset.sum_eq_single i]
    · simp
    · intro b _ hb; simp [hb.symm]
    · intro hh; exact absurd (Finset.mem_range.mpr h) hh
  · rw [Finset.sum_eq_zero]
    · rw [List.getD_eq_getElem?_getD, List.getElem?_eq_none (by omega)]; rfl
    · intro b hb
      have : i ≠ b := by have := Finset.mem_range.mp hb; omega
      simp [this]

theorem toPoly_degree_lt (c : List F) : (Spec.toPoly c).degree < c.length := by
  rw [degree_lt_iff_coeff_zero]
  intro m hm
  rw [toPoly_coeff, List.getD_eq_getElem?_getD, List.getElem?_eq_none hm]; rfl

theorem toPoly_zero_eval (c : F) (cs : List F) : (Spec.toPoly (c :: cs)).eval 0 = c := by
  rw [toPoly_eval, evalAt_cons]; simp

end toPoly

namespace Poly

theorem horner_eq (p : Poly) (x : Scalar) : p.foldr (fun a result => result * x + a) 0 = Spec.evalAt p x := by
  induction p with
  | nil => simp
  | cons a p ih => simp only [List.foldr_cons, ih, evalAt_cons, smul_eq_mul]; ring

theorem evaluate_eq (p : Poly) (x : Scalar) :
    evaluate p x = if x = 0 then .panic else .ok (Spec.evalAt p x) := by
  unfold evaluate; rw [horner_eq]

theorem evaluate_ne_zero (p : Poly) {x : Scalar} (h : x ≠ 0) : evaluate p x = .ok (Spec.evalAt p x) := by
  rw [evaluate_eq, if_neg h]

theorem degree_succ_ne {d : UInt16} (h : d ≠ 65535) : (d + 1).toNat = d.toNat + 1 := by
  have hd := d.toNat_lt
  have h1 : (1 : UInt16).toNat = 1 := rfl
  have h2 : (65535 : UInt16).toNat = 65535 := rfl
  have h3 : d.toNat ≠ 65535 := fun hh => h (UInt16.toNat_inj.mp (hh.trans h2.symm))
  rw [UInt16.toNat_add, h1]; omega

theorem new_eq {d : UInt16} (h : d ≠ 65535) (c : Scalar) (coins : Coins) :
    new d c coins = .ok (c :: (List.range d.toNat).map coins) := by
  unfold new
  rw [if_neg (by rw [degree_succ_ne h]; omega)]

end Poly

namespace Exponent

variable {G : Type} [RGroup G]

theorem powersFrom_succ (x : Scalar) (k i : Nat) (prev : Scalar) (h : 1 ≤ i) (hp : prev = x ^ (i - 1)) :
    powersFrom x k i prev = (List.range' i k).map (x ^ ·) := by
  induction k generalizing i prev with
  | zero => simp [powersFrom]
  | succ k ih =>
    have hcur : (if i = 0 then (1 : Scalar) else if i = 1 then x else prev * x) = x ^ i := by
      rw [if_neg (by omega)]
      split
      · next h1 => subst h1; simp
      · rw [hp, ← pow_succ]; congr 1; omega
    rw [powersFrom, hcur]
    simp only [List.range'_succ, List.map_cons]
    rw [ih (i + 1) _ (by omega) (by simp)]

theorem powersFrom_eq (x : Scalar) (k : Nat) : powersFrom x k 0 0 = (List.range k).map (x ^ ·) := by
  cases k with
  | zero => simp [powersFrom]
  | succ k =>
    rw [powersFrom, if_pos rfl, powersFrom_succ x k (0 + 1) 1 (by omega) (by simp), List.range_eq_range', List.range'_succ]
    simp

theorem powersFrom_length (x : Scalar) (k i : Nat) (prev : Scalar) : (powersFrom x k i prev).length = k := by
  induction k generalizing i prev with
  | zero => rfl
  | succ k ih => simp [powersFrom, ih]

theorem zipWith_powers_sum (x : Scalar) (p : List G) :
    (List.zipWith (· • ·) ((List.range p.length).map (x ^ ·)) p).sum = Spec.evalAt p x := by
  have key : ∀ (p : List G) (j : Nat), (List.zipWith (· • ·) ((List.range' j p.length).map (x ^ ·)) p).sum
      = x ^ j • Spec.evalAt p x := by
    intro p
    induction p with
    | nil => intro j; simp
    | cons a p ih =>
      intro j
      simp only [List.length_cons, List.range'_succ, List.map_cons, List.zipWith_cons_cons, List.sum_cons, ih,
        evalAt_cons, pow_succ]
      module
  have := key p 0
  rw [← List.range_eq_range'] at this
  simpa using this

theorem evaluateVar_eq (p : Exponent G) (x : Scalar) :
    evaluateVar p x = if x = 0 then .panic else .ok (Spec.evalAt p x) := by
  unfold evaluateVar multiScalarMult
  rw [powersFrom_length]
  simp only [ne_eq, not_true_eq_false, ↓reduceIte]
  rw [powersFrom_eq, zipWith_powers_sum]

theorem evaluate_eq (p : Exponent G) (x : Scalar) :
    evaluate p x = if x = 0 then .panic else .ok (Spec.evalAt p x) := evaluateVar_eq p x

theorem evaluate_ne_zero (p : Exponent G) {x : Scalar} (h : x ≠ 0) : evaluate p x = .ok (Spec.evalAt p x) := by
  rw [evaluate_eq, if_neg h]

theorem classicLoop_eq (x : Scalar) (p : List G) (y : Scalar) (r : G) :
    classicLoop x p y r = r + y • Spec.evalAt p x := by
  induction p generalizing y r with
  | nil => simp [classicLoop]
  | cons a p ih => rw [classicLoop, ih, evalAt_cons]; module

theorem evaluateClassic_eq (p : Exponent G) (x : Scalar) :
    evaluateClassic p x = if x = 0 then .panic else .ok (Spec.evalAt p x) := by
  unfold evaluateClassic
  rw [classicLoop_eq]; simp

theorem evaluateHorner_eq (p : Exponent G) (x : Scalar) :
    evaluateHorner p x = if x = 0 then .panic else .ok (Spec.evalAt p x) := by
  unfold evaluateHorner
  congr 2
  induction p with
  | nil => simp
  | cons a p ih => simp only [List.foldr_cons, ih, evalAt_cons]; module

theorem ofPoly_evalAt (p : Poly) (x : Scalar) : Spec.evalAt (ofPoly p : Exponent G) x = Spec.evalAt p x • (base : G) :=
  evalAt_map_smul _ _ _

theorem add_ok {p q : Exponent G} (h : p.length = q.length) : add p q = .ok (List.zipWith (· + ·) p q) := by
  simp [add, h]

theorem bytesAppend_eq (p : Exponent G) (existing : Bytes) :
    bytesAppend p existing = existing ++ (ID.bytes (degree p) ++ (p.map RGroup.bytes).flatten) := by
  unfold bytesAppend
  have : ∀ (l : List G) (acc : Bytes), l.foldl (fun acc c => acc ++ RGroup.bytes c) acc
      = acc ++ (l.map RGroup.bytes).flatten := by
    intro l
    induction l with
    | nil => simp
    | cons a l ih => intro acc; simp [ih]
  rw [this, List.append_assoc]

theorem flatten_bytes_length (p : List G) : ((p.map RGroup.bytes).flatten).length = 32 * p.length := by
  induction p with
  | nil => rfl
  | cons a p ih => simp only [List.map_cons, List.flatten_cons, List.length_append, RGroup.bytes_length, ih,
      List.length_cons]; omega

theorem decodeLoop_encode (p : Exponent G) : decodeLoop p.length (p.map RGroup.bytes).flatten = .ok p := by
  induction p with
  | nil => rfl
  | cons a p ih =>
    have hl := RGroup.bytes_length a
    simp only [List.length_cons, decodeLoop, List.map_cons, List.flatten_cons]
    have h1 : sliceTo (RGroup.bytes a ++ (p.map RGroup.bytes).flatten) 32 = .ok (RGroup.bytes a) := by
      unfold sliceTo; rw [if_pos (by simp [hl]), List.take_left' hl]
    have h2 : sliceFrom (RGroup.bytes a ++ (p.map RGroup.bytes).flatten) 32 = .ok (p.map RGroup.bytes).flatten := by
      unfold sliceFrom; rw [if_pos (by simp [hl]), List.drop_left' hl]
    simp [h1, h2, RGroup.set_bytes, ih]

theorem decodeLoop_ok {k : Nat} {b : Bytes} {p : Exponent G} (hb : b.length = 32 * k)
    (h : decodeLoop k b = .ok p) : p.length = k ∧ b = (p.map RGroup.bytes).flatten := by
  induction k generalizing b p with
  | zero =>
    simp only [decodeLoop, Outcome.ok.injEq] at h
    subst h
    have : b = [] := List.eq_nil_of_length_eq_zero (by omega)
    simp [this]
  | succ k ih =>
    have h32 : 32 ≤ b.length := by omega
    simp only [decodeLoop, sliceTo, sliceFrom, h32, ↓reduceIte, Outcome.ok_bind] at h
    cases hc : (RGroup.setCanonicalBytes (b.take 32) : Option G) with
    | none => simp [hc] at h
    | some c =>
      simp only [hc, Outcome.orErr_some, Outcome.ok_bind] at h
      cases hd : (decodeLoop k (b.drop 32) : GoRes (Exponent G)) with
      | ok cs =>
        simp only [hd, Outcome.ok_bind, Outcome.pure_def, Outcome.ok.injEq] at h
        subst h
        obtain ⟨h1, h2⟩ := ih (by simp; omega) hd
        refine ⟨by simp [h1], ?_⟩
        simp only [List.map_cons, List.flatten_cons, ← h2, RGroup.bytes_set _ _ hc, List.take_append_drop]
      | err e => simp [hd] at h
      | panic => simp [hd] at h

theorem decodeLoop_no_panic {k : Nat} {b : Bytes} (hb : b.length = 32 * k) : (decodeLoop k b : GoRes (Exponent G)) ≠ .panic := by
  induction k generalizing b with
  | zero => simp [decodeLoop]
  | succ k ih =>
    have h32 : 32 ≤ b.length := by omega
    simp only [decodeLoop, sliceTo, sliceFrom, h32, ↓reduceIte, Outcome.ok_bind]
    cases hc : (RGroup.setCanonicalBytes (b.take 32) : Option G) with
    | none => simp
    | some c =>
      have := ih (b := b.drop 32) (by simp; omega)
      cases hd : (decodeLoop k (b.drop 32) : GoRes (Exponent G)) with
      | ok cs => simp
      | err e => simp
      | panic => exact absurd hd this

theorem equal_iff (p q : Exponent G) : equal p q = true ↔ p = q := by
  unfold equal
  induction p generalizing q with
  | nil => cases q <;> simp
  | cons a p ih =>
    cases q with
    | nil => simp
    | cons b q =>
      have := ih q
      by_cases hl : p.length = q.length
      · simp only [hl, ne_eq, not_true_eq_false, ↓reduceIte] at this
        simp [hl]
        simp at this
        intro _
        exact this
      · have hne : p ≠ q := fun hh => hl (by rw [hh])
        simp [hl, hne]

end Exponent

end Verif
