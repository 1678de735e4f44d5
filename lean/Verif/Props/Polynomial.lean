import Verif.Lemmas.Polynomial
import Verif.Lemmas.Group
import Verif.Lemmas.Toy
import Mathlib.Tactic.LinearCombination

/-!
Properties C10–C13 and C15: polynomials, polynomials in the exponent, secrecy of Shamir shares.
-/

namespace Verif.Props

open Verif

variable {G : Type} [RGroup G]

/-! ### C10 -/

/-- `Evaluate` is `∑ aᵢ xⁱ` at every non-zero point. -/
theorem C10_evaluate (p : Poly) (x : Scalar) (hx : x ≠ 0) :
    Poly.evaluate p x = .ok (∑ i ∈ Finset.range p.length, p.getD i 0 * x ^ i) := by
  rw [Poly.evaluate_ne_zero p hx]
  congr 1
  exact Finset.sum_congr rfl fun i _ => by rw [smul_eq_mul, mul_comm]

/-- At zero it panics: evaluating never hands out the constant term. -/
theorem C10_evaluate_zero_panics (p : Poly) : Poly.evaluate p 0 = .panic := by simp [Poly.evaluate]

/-- A new polynomial has the requested degree and constant; degree 65535 panics. -/
theorem C10_new (d : UInt16) (c : Scalar) (coins : Coins) :
    (d ≠ 65535 → ∃ p : Poly, Poly.new d c coins = .ok p ∧ p.length = d.toNat + 1 ∧ Poly.constant p = .ok c ∧
        Poly.degree p = d ∧ ∀ i < d.toNat, p[i + 1]? = some (coins i)) ∧
      (d = 65535 → Poly.new d c coins = .panic) := by
  constructor
  · intro h
    refine ⟨_, Poly.new_eq h c coins, by simp, by simp [Poly.constant], ?_, ?_⟩
    · unfold Poly.degree
      simp only [List.length_cons, List.length_map, List.length_range]
      rw [UInt16.ofNat_add, UInt16.ofNat_toNat]
      simp
    · intro i hi
      simp [hi]
  · rintro rfl; rfl

example : Poly.evaluate [5, 3, 2] 2 = .ok 19 := by decide +kernel

/-! ### C11 -/

/-- Evaluating the exponent of a polynomial gives the exponent of the value. -/
theorem C11_evaluate_exponent (p : Poly) (x : Scalar) (hx : x ≠ 0) :
    ∃ y, Poly.evaluate p x = .ok y ∧ Exponent.evaluate (Exponent.ofPoly p : Exponent G) x = .ok (y • base) := by
  refine ⟨_, Poly.evaluate_ne_zero p hx, ?_⟩
  rw [Exponent.evaluate_ne_zero _ hx, Exponent.ofPoly_evalAt]

/-- All three evaluators compute `∑ xⁱ • Cᵢ`. -/
theorem C11_evaluators_agree (p : Exponent G) (x : Scalar) (hx : x ≠ 0) :
    Exponent.evaluate p x = .ok (∑ i ∈ Finset.range p.length, x ^ i • p.getD i 0) ∧
      Exponent.evaluateClassic p x = Exponent.evaluate p x ∧ Exponent.evaluateHorner p x = Exponent.evaluate p x ∧
      Exponent.evaluateVar p x = Exponent.evaluate p x := by
  simp only [Exponent.evaluateClassic_eq, Exponent.evaluateHorner_eq, Exponent.evaluate_eq, Exponent.evaluateVar_eq, hx,
    if_false, and_true]
  rfl

/-- All of them panic at zero. -/
theorem C11_zero_panics (p : Exponent G) : Exponent.evaluate p 0 = .panic ∧ Exponent.evaluateClassic p 0 = .panic ∧
    Exponent.evaluateHorner p 0 = .panic := by
  simp [Exponent.evaluateClassic_eq, Exponent.evaluateHorner_eq, Exponent.evaluate_eq]

theorem evaluateMulti_eq (p : Exponent G) (ids : List ID) (h0 : (0 : ID) ∉ ids) (m : GoMap G) :
    ∃ m', Exponent.evaluateMulti p ids m = .ok m' ∧
      ∀ id, m'.get? id = if id ∈ ids then some (Spec.evalAt p id.val) else m.get? id := by
  induction ids generalizing m with
  | nil => exact ⟨m, rfl, by simp⟩
  | cons a ids ih =>
    simp only [List.mem_cons, not_or] at h0
    have ha : a.val ≠ 0 := fun h => h0.1 (ID.val_eq_zero.mp h).symm
    obtain ⟨m', h1, h2⟩ := ih h0.2 (m.set a (Spec.evalAt p a.val))
    refine ⟨m', ?_, ?_⟩
    · simp only [Exponent.evaluateMulti, ID.scalar_eq, Outcome.ok_bind, Exponent.evaluate_ne_zero p ha]
      exact h1
    · intro id
      rw [h2, GoMap.get?_set]
      by_cases h : id ∈ ids
      · simp [h]
      · by_cases h' : id = a <;> simp [h, h']

/-- `EvaluateMulti` on non-zero IDs gives, for each, the evaluation at it, and nothing else. -/
theorem C11_evaluateMulti (p : Exponent G) (ids : List ID) (h0 : (0 : ID) ∉ ids) :
    ∃ m, Exponent.evaluateMulti p ids [] = .ok m ∧
      (∀ id ∈ ids, ∃ e, Exponent.evaluate p (id.toNat : Scalar) = .ok e ∧ m.get? id = some e) ∧
      ∀ id, id ∉ ids → m.get? id = none := by
  obtain ⟨m, h1, h2⟩ := evaluateMulti_eq p ids h0 []
  refine ⟨m, h1, ?_, ?_⟩
  · intro id hid
    have : (id.toNat : Scalar) ≠ 0 := fun h => h0 (ID.val_eq_zero.mp h ▸ hid)
    exact ⟨_, Exponent.evaluate_ne_zero p this, by rw [h2, if_pos hid]; rfl⟩
  · intro id hid; rw [h2, if_neg hid]; rfl

example : Exponent.evaluate (Exponent.ofPoly [5, 3, 2] : Exponent Toy) 2 = .ok (Toy.of 19) := by
  rw [Exponent.evaluate_ne_zero _ (by decide +kernel)]; rfl

/-! ### C12 -/

/-- `Add` is coefficient-wise, and evaluations add up. -/
theorem C12_add_ok (p q : Exponent G) (h : p.length = q.length) :
    ∃ r, Exponent.add p q = .ok r ∧ r.length = p.length ∧ (∀ i < p.length, r.getD i 0 = p.getD i 0 + q.getD i 0) ∧
      ∀ x : Scalar, x ≠ 0 → ∃ a b, Exponent.evaluate p x = .ok a ∧ Exponent.evaluate q x = .ok b ∧
        Exponent.evaluate r x = .ok (a + b) := by
  refine ⟨_, Exponent.add_ok h, by simp [h], ?_, ?_⟩
  · intro i hi
    have hq : i < q.length := h ▸ hi
    simp [List.getD_eq_getElem?_getD, List.getElem?_zipWith, List.getElem?_eq_getElem hi, List.getElem?_eq_getElem hq]
  · intro x hx
    refine ⟨_, _, Exponent.evaluate_ne_zero p hx, Exponent.evaluate_ne_zero q hx, ?_⟩
    rw [Exponent.evaluate_ne_zero _ hx, evalAt_zipWith_add h]

/-- `Add` of different lengths is an error (and the receiver, being updated only on success, is unchanged). -/
theorem C12_add_err (p q : Exponent G) : Exponent.add p q = .err .lengthMismatch ↔ p.length ≠ q.length := by
  unfold Exponent.add
  by_cases h : p.length = q.length <;> simp [h]

theorem sumLoop_ok (ps : List (Exponent G)) (s : Exponent G) :
    (∃ r, Exponent.sumLoop s ps = .ok r) ↔ ∀ p ∈ ps, p.length = s.length := by
  induction ps generalizing s with
  | nil => simp [Exponent.sumLoop]
  | cons p ps ih =>
    rw [Exponent.sumLoop]
    by_cases h : s.length = p.length
    · rw [Exponent.add_ok h, Outcome.ok_bind, ih]
      simp [h]
    · rw [(C12_add_err s p).mpr h]
      simp only [Outcome.err_bind, reduceCtorEq, exists_false, List.mem_cons, forall_eq_or_imp, false_iff, not_and]
      intro h'; exact absurd h'.symm h

theorem sumLoop_eval (ps : List (Exponent G)) (s r : Exponent G) (h : Exponent.sumLoop s ps = .ok r) (x : Scalar) :
    r.length = s.length ∧ Spec.evalAt r x = Spec.evalAt s x + (ps.map fun p => Spec.evalAt p x).sum := by
  induction ps generalizing s with
  | nil => simp only [Exponent.sumLoop, Outcome.ok.injEq] at h; subst h; simp
  | cons p ps ih =>
    rw [Exponent.sumLoop] at h
    by_cases hl : s.length = p.length
    · rw [Exponent.add_ok hl, Outcome.ok_bind] at h
      obtain ⟨h1, h2⟩ := ih _ h
      refine ⟨by rw [h1]; simp [hl], ?_⟩
      rw [h2, evalAt_zipWith_add hl]
      simp [add_assoc]
    · rw [(C12_add_err s p).mpr hl] at h; simp at h

theorem sumLoop_coeff (ps : List (Exponent G)) (s r : Exponent G) (h : Exponent.sumLoop s ps = .ok r) :
    (∀ p ∈ s :: ps, r.length = p.length) ∧ ∀ i, r.getD i 0 = ((s :: ps).map fun p => p.getD i 0).sum := by
  induction ps generalizing s with
  | nil => simp only [Exponent.sumLoop, Outcome.ok.injEq] at h; subst h; simp
  | cons p ps ih =>
    rw [Exponent.sumLoop] at h
    by_cases hl : s.length = p.length
    · rw [Exponent.add_ok hl, Outcome.ok_bind] at h
      obtain ⟨h1, h2⟩ := ih _ h
      have h3 : r.length = p.length := by rw [h1 _ List.mem_cons_self]; simp [hl]
      refine ⟨?_, ?_⟩
      · intro x hx
        rcases List.mem_cons.mp hx with rfl | hx
        · rw [h3, hl]
        rcases List.mem_cons.mp hx with rfl | hx
        · exact h3
        · exact h1 x (List.mem_cons_of_mem _ hx)
      · intro i
        rw [h2 i]
        simp only [List.map_cons, List.sum_cons, ← add_assoc]
        congr 1
        by_cases hi : i < s.length
        · have hi' : i < p.length := hl ▸ hi
          simp [List.getD_eq_getElem?_getD, hi, hi']
        · have hi' : ¬ i < p.length := hl ▸ hi
          simp [List.getD_eq_getElem?_getD, hi, hi']
    · rw [(C12_add_err s p).mpr hl] at h; simp at h

/-- `Sum` succeeds exactly when all lengths agree; it panics exactly on the empty list; the result is the sum coefficient by
coefficient, and evaluations add up. -/
theorem C12_sum (ps : List (Exponent G)) :
    (Exponent.sum ps = .panic ↔ ps = []) ∧
      ((∃ r, Exponent.sum ps = .ok r) ↔ ps ≠ [] ∧ ∀ p ∈ ps, ∀ p' ∈ ps, p.length = p'.length) ∧
      (∀ r, Exponent.sum ps = .ok r → (∀ p ∈ ps, r.length = p.length) ∧ ∀ i, r.getD i 0 = (ps.map fun p => p.getD i 0).sum) ∧
      ∀ r, Exponent.sum ps = .ok r → ∀ x : Scalar, x ≠ 0 →
        ∃ vals : List G, ps.map (Exponent.evaluate · x) = vals.map Outcome.ok ∧ Exponent.evaluate r x = .ok vals.sum := by
  cases ps with
  | nil => simp [Exponent.sum]
  | cons p ps =>
    refine ⟨?_, ?_, ?_, ?_⟩
    · simp only [Exponent.sum, reduceCtorEq, iff_false]
      generalize p = s
      induction ps generalizing s with
      | nil => simp [Exponent.sumLoop]
      | cons a ps ih =>
        rw [Exponent.sumLoop]
        by_cases hl : s.length = a.length
        · rw [Exponent.add_ok hl, Outcome.ok_bind]; exact ih _
        · rw [(C12_add_err s a).mpr hl]; simp
    · simp only [Exponent.sum, ne_eq, reduceCtorEq, not_false_eq_true, true_and]
      rw [sumLoop_ok]
      constructor
      · intro h a ha b hb
        have key : ∀ c ∈ p :: ps, c.length = p.length := by
          intro c hc
          rcases List.mem_cons.mp hc with rfl | hc
          · rfl
          · exact h c hc
        rw [key a ha, key b hb]
      · intro h a ha
        exact h a (List.mem_cons_of_mem _ ha) p (by simp)
    · intro r hr
      exact sumLoop_coeff ps p r hr
    · intro r hr x hx
      obtain ⟨_, h2⟩ := sumLoop_eval ps p r hr x
      refine ⟨(p :: ps).map fun p => Spec.evalAt p x, ?_, ?_⟩
      · simp [Exponent.evaluate_eq, hx]
      · rw [Exponent.evaluate_ne_zero _ hx, h2]; simp

example : Exponent.add [Toy.of 1, Toy.of 2] [Toy.of 3, Toy.of 4] = .ok [Toy.of 4, Toy.of 6] := by decide +kernel

/-! ### C13 -/

theorem marshal_length (p : Exponent G) : (Exponent.marshalBinary p).length = Exponent.size p := by
  unfold Exponent.marshalBinary Exponent.size
  rw [Exponent.bytesAppend_eq, List.nil_append, List.length_append, Exponent.flatten_bytes_length]
  rfl

theorem degree_succ (p : Exponent G) : Exponent.degree p + 1 = UInt16.ofNat p.length := by
  unfold Exponent.degree; simp

theorem fromBytes_bytes_append (id : ID) (b : Bytes) : ID.fromBytes (id.bytes ++ b) = .ok id := by
  unfold ID.fromBytes ID.bytes
  rw [Outcome.failIf_neg (by simp [be16_length]; omega), Outcome.ok_bind, readBE16_be16]

theorem sliceFrom_append {a b : Bytes} {n : Nat} (h : a.length = n) : sliceFrom (a ++ b) n = .ok b := by
  unfold sliceFrom; rw [if_pos (by simp [h]), List.drop_left' h]

theorem sliceTo_append {a b : Bytes} {n : Nat} (h : a.length = n) : sliceTo (a ++ b) n = .ok a := by
  unfold sliceTo; rw [if_pos (by simp [h]), List.take_left' h]

theorem fromBytes_cases (data : Bytes) :
    (data.length < 2 ∧ ID.fromBytes data = .err .tooShort) ∨
      ∃ d rest, ID.fromBytes data = .ok d ∧ data = ID.bytes d ++ rest := by
  match data with
  | [] => exact Or.inl ⟨by simp, rfl⟩
  | [_] => exact Or.inl ⟨by simp, rfl⟩
  | hi :: lo :: rest =>
    right
    have hr : ∃ d, readBE16 (hi :: lo :: rest) = .ok d := ⟨_, readBE16_cons hi lo rest⟩
    obtain ⟨d, hd⟩ := hr
    refine ⟨d, rest, ?_, ?_⟩
    · unfold ID.fromBytes; rw [Outcome.failIf_neg (by simp), Outcome.ok_bind]; exact hd
    · exact be16_readBE16 hd

theorem unmarshalBinary_bytes (d : ID) (rest : Bytes) :
    (Exponent.unmarshalBinary (ID.bytes d ++ rest) : GoRes (Exponent G)) =
      if rest.length = (d + 1).toNat * 32 then Exponent.decodeLoop (d + 1).toNat rest else .err .wrongLength := by
  unfold Exponent.unmarshalBinary
  rw [fromBytes_bytes_append, Outcome.ok_bind]
  show (do
    let remaining ← sliceFrom (ID.bytes d ++ rest) 2
    Outcome.failIf (remaining.length % 32 ≠ 0) GoErr.wrongLength
    Outcome.failIf (remaining.length ≠ (d + 1).toNat * 32) GoErr.wrongLength
    Exponent.decodeLoop (d + 1).toNat remaining) = _
  rw [sliceFrom_append (show (ID.bytes d).length = 2 from be16_length d), Outcome.ok_bind]
  by_cases h : rest.length = (d + 1).toNat * 32
  · rw [Outcome.failIf_neg (by omega), Outcome.ok_bind, Outcome.failIf_neg (by omega), Outcome.ok_bind, if_pos h]
  · rw [if_neg h]
    by_cases h32 : rest.length % 32 ≠ 0
    · rw [Outcome.failIf_pos h32]; rfl
    · rw [Outcome.failIf_neg h32, Outcome.ok_bind, Outcome.failIf_pos h]; rfl

/-- Every Exponent with at most 65535 coefficients round-trips, and the length is `Size()`.
(Partial: with exactly 65536 coefficients it does not, see `C13_roundtrip_65536_fails`.) -/
theorem C13_roundtrip_partial (p : Exponent G) (h : p.length ≤ 65535) :
    Exponent.unmarshalBinary (Exponent.marshalBinary p) = .ok p ∧ (Exponent.marshalBinary p).length = Exponent.size p := by
  refine ⟨?_, marshal_length p⟩
  have hN : (Exponent.degree p + 1).toNat = p.length := by
    rw [degree_succ, UInt16.toNat_ofNat']; omega
  unfold Exponent.marshalBinary
  rw [Exponent.bytesAppend_eq, List.nil_append, unmarshalBinary_bytes, hN, if_pos (by rw [Exponent.flatten_bytes_length, mul_comm])]
  exact Exponent.decodeLoop_encode p

theorem unmarshal_ok {data : Bytes} {p : Exponent G} (h : Exponent.unmarshalBinary data = .ok p) :
    ∃ d : ID, data = ID.bytes d ++ (p.map RGroup.bytes).flatten ∧ p.length = (d + 1).toNat := by
  rcases fromBytes_cases data with ⟨_, h'⟩ | ⟨d, rest, _, rfl⟩
  · unfold Exponent.unmarshalBinary at h; rw [h'] at h; simp at h
  · rw [unmarshalBinary_bytes] at h
    split_ifs at h with hl
    obtain ⟨h1, h2⟩ := Exponent.decodeLoop_ok (by omega) h
    exact ⟨d, by rw [h2], h1⟩

/-- An accepted byte string is exactly the marshalling of the decoded Exponent, so decoding is injective. -/
theorem C13_canonical (data : Bytes) (p : Exponent G) (h : Exponent.unmarshalBinary data = .ok p) :
    Exponent.marshalBinary p = data := by
  obtain ⟨d, rfl, hl⟩ := unmarshal_ok h
  have hdeg : Exponent.degree p = d := by
    unfold Exponent.degree
    rw [hl, UInt16.ofNat_toNat]; simp
  unfold Exponent.marshalBinary
  rw [Exponent.bytesAppend_eq, List.nil_append, hdeg]

/-- `UnmarshalBinary` never panics. -/
theorem C13_unmarshal_no_panic (data : Bytes) : (Exponent.unmarshalBinary data : GoRes (Exponent G)) ≠ .panic := by
  rcases fromBytes_cases data with ⟨_, h'⟩ | ⟨d, rest, _, rfl⟩
  · unfold Exponent.unmarshalBinary; rw [h']; simp
  · rw [unmarshalBinary_bytes]
    split_ifs with hl
    · exact Exponent.decodeLoop_no_panic (by omega)
    · simp

theorem marshal_nil : Exponent.marshalBinary ([] : Exponent G) = [0xFF, 0xFF] := by
  unfold Exponent.marshalBinary
  rw [Exponent.bytesAppend_eq]
  show [] ++ (ID.bytes (UInt16.ofNat 0 - 1) ++ []) = [0xFF, 0xFF]
  decide +kernel

/-- Refuted: the two bytes `FF FF` are accepted as an Exponent with no coefficient at all, on which `Constant()` panics. -/
theorem C13_empty_exponent_accepted :
    (Exponent.unmarshalBinary [0xFF, 0xFF] : GoRes (Exponent G)) = .ok [] ∧
      Exponent.constant ([] : Exponent G) = .panic := by
  constructor
  · have h := C13_roundtrip_partial ([] : Exponent G) (by simp)
    rw [marshal_nil] at h
    exact h.1
  · rfl

/-- It is the only accepted input without coefficients: every other accepted Exponent has between 1 and 65535. -/
theorem C13_accepted_nonempty (data : Bytes) (p : Exponent G) (h : Exponent.unmarshalBinary data = .ok p)
    (hd : data ≠ [0xFF, 0xFF]) : 1 ≤ p.length ∧ p.length ≤ 65535 := by
  have hcan := C13_canonical data p h
  constructor
  · by_contra hc
    have hp : p = [] := List.eq_nil_of_length_eq_zero (by omega)
    subst hp
    exact hd (hcan.symm.trans marshal_nil)
  · obtain ⟨d, _, hl⟩ := unmarshal_ok h
    have := (d + 1).toNat_lt
    omega

/-- Refuted for the largest degree: an Exponent with 65536 coefficients does not round-trip. -/
theorem C13_roundtrip_65536_fails :
    ∃ p : Exponent G, p.length = 65536 ∧ Exponent.unmarshalBinary (Exponent.marshalBinary p) = (.err .wrongLength : GoRes (Exponent G)) := by
  refine ⟨List.replicate 65536 0, List.length_replicate, ?_⟩
  generalize hp : List.replicate 65536 (0 : G) = p
  have hlen : p.length = 65536 := by rw [← hp, List.length_replicate]
  have hN : (Exponent.degree p + 1).toNat = 0 := by rw [degree_succ, hlen]; rfl
  unfold Exponent.marshalBinary
  rw [Exponent.bytesAppend_eq, List.nil_append, unmarshalBinary_bytes, hN, if_neg]
  rw [Exponent.flatten_bytes_length, hlen]; omega

theorem C13_equal_iff (p q : Exponent G) : Exponent.equal p q = true ↔ p = q := Exponent.equal_iff p q

example : Exponent.unmarshalBinary (Exponent.marshalBinary [Toy.of 7, Toy.of 9]) = .ok [Toy.of 7, Toy.of 9] :=
  (C13_roundtrip_partial [Toy.of 7, Toy.of 9] (by decide)).1

/-! ### C15 -/

open Polynomial in
/-- A polynomial of degree at most the coalition's size that is 1 at 0 and 0 at every coalition member. -/
theorem exists_vanishing (S : List ID) (h0 : (0 : ID) ∉ S) :
    ∃ L : Scalar[X], L.natDegree ≤ S.length ∧ L.eval 0 = 1 ∧ ∀ i ∈ S, L.eval i.val = 0 := by
  induction S with
  | nil => exact ⟨1, by simp, by simp, by simp⟩
  | cons a S ih =>
    simp only [List.mem_cons, not_or] at h0
    have ha : a.val ≠ 0 := fun h => h0.1 (ID.val_eq_zero.mp h).symm
    obtain ⟨L, h1, h2, h3⟩ := ih h0.2
    refine ⟨L * (1 - C (a.val)⁻¹ * X), ?_, ?_, ?_⟩
    · refine (natDegree_mul_le).trans ?_
      have : (1 - C (a.val)⁻¹ * X : Scalar[X]).natDegree ≤ 1 := by
        refine (natDegree_sub_le _ _).trans ?_
        simp only [natDegree_one, zero_le, sup_of_le_right]
        exact (natDegree_C_mul_le _ _).trans natDegree_X_le
      simp only [List.length_cons]; omega
    · simp [h2]
    · intro i hi
      rcases List.mem_cons.mp hi with rfl | hi
      · simp [ha]
      · simp [h3 i hi]

/-- The coefficient list `NewPolynomial` builds from a secret and `t` drawn scalars. -/
def shamirList {t : Nat} (s : Scalar) (c : Fin t → Scalar) : Poly := s :: List.ofFn c

theorem shamirList_eval {t : Nat} (s : Scalar) (c : Fin t → Scalar) (x : Scalar) :
    Spec.evalAt (shamirList s c) x = s + ∑ j : Fin t, x ^ (j.val + 1) * c j := by
  unfold shamirList Spec.evalAt
  rw [List.length_cons, List.length_ofFn, Finset.sum_range_succ']
  simp only [List.getD_cons_succ, pow_zero, List.getD_cons_zero, one_smul]
  rw [add_comm]
  congr 1
  rw [← Fin.sum_univ_eq_sum_range (fun k => x ^ (k + 1) • (List.ofFn c).getD k 0) t]
  apply Finset.sum_congr rfl
  intro j _
  simp [List.getD_eq_getElem?_getD]

open Polynomial in
/-- Perfect secrecy of the sharing.  Fix a coalition `S` of at most `t` parties (non-zero IDs), any values `v` of the shares they
hold and two candidate secrets.  The random draws of `NewPolynomial` that give exactly those shares are, for one secret, in
bijection with those for the other: with uniform draws the shares carry no information about the secret. -/
theorem C15_shares_hide_secret (t : Nat) (S : List ID) (hS : S.length ≤ t) (h0 : (0 : ID) ∉ S) (v : ID → Scalar)
    (s₁ s₂ : Scalar) :
    Nonempty ({c : Fin t → Scalar // ∀ i ∈ S, Poly.evaluate (shamirList s₁ c) i.val = .ok (v i)} ≃
      {c : Fin t → Scalar // ∀ i ∈ S, Poly.evaluate (shamirList s₂ c) i.val = .ok (v i)}) := by
  obtain ⟨L, hdeg, hL0, hLS⟩ := exists_vanishing S h0
  have hne : ∀ i ∈ S, i.val ≠ 0 := fun i hi h => h0 (ID.val_eq_zero.mp h ▸ hi)
  have hLsum : ∀ x : Scalar, L.eval x = 1 + ∑ j : Fin t, x ^ (j.val + 1) * L.coeff (j.val + 1) := by
    intro x
    rw [eval_eq_sum_range' (n := t + 1) (by omega), Finset.sum_range_succ', add_comm]
    congr 1
    · have : L.coeff 0 = 1 := by rw [← hL0, coeff_zero_eq_eval_zero]
      simp [this]
    · rw [← Fin.sum_univ_eq_sum_range (fun k => L.coeff (k + 1) * x ^ (k + 1)) t]
      exact Finset.sum_congr rfl fun j _ => mul_comm _ _
  have shift : ∀ (a b : Scalar) (c : Fin t → Scalar) (i : ID), i ∈ S →
      Spec.evalAt (shamirList b fun j => c j + (b - a) * L.coeff (j.val + 1)) i.val = Spec.evalAt (shamirList a c) i.val := by
    intro a b c i hi
    have hz := hLS i hi
    rw [hLsum] at hz
    rw [shamirList_eval, shamirList_eval]
    have hsplit : ∑ j : Fin t, i.val ^ (j.val + 1) * (c j + (b - a) * L.coeff (j.val + 1))
        = (∑ j : Fin t, i.val ^ (j.val + 1) * c j) + (b - a) * ∑ j : Fin t, i.val ^ (j.val + 1) * L.coeff (j.val + 1) := by
      rw [Finset.mul_sum, ← Finset.sum_add_distrib]
      exact Finset.sum_congr rfl fun j _ => by ring
    rw [hsplit]
    linear_combination (b - a) * hz
  refine ⟨⟨fun c => ⟨fun j => c.1 j + (s₂ - s₁) * L.coeff (j.val + 1), ?_⟩,
    fun c => ⟨fun j => c.1 j + (s₁ - s₂) * L.coeff (j.val + 1), ?_⟩, ?_, ?_⟩⟩
  · intro i hi
    have := c.2 i hi
    rw [Poly.evaluate_ne_zero _ (hne i hi)] at this ⊢
    rw [shift s₁ s₂ c.1 i hi]; exact this
  · intro i hi
    have := c.2 i hi
    rw [Poly.evaluate_ne_zero _ (hne i hi)] at this ⊢
    rw [shift s₂ s₁ c.1 i hi]; exact this
  · intro c; apply Subtype.ext; funext j; simp only; ring
  · intro c; apply Subtype.ext; funext j; simp only; ring

/-- `shamirList` is what `NewPolynomial` returns. -/
theorem C15_shamirList_is_newPolynomial (t : UInt16) (ht : t ≠ 65535) (s : Scalar) (coins : Coins) :
    Poly.new t s coins = .ok (shamirList s fun j : Fin t.toNat => coins j.val) := by
  rw [Poly.new_eq ht]
  congr 2
  apply List.ext_getElem?
  intro i
  by_cases h : i < t.toNat
  · simp [h]
  · simp [h]

example : Nonempty ({c : Fin 2 → Scalar // ∀ i ∈ ([3, 7] : List ID), Poly.evaluate (shamirList 10 c) i.val = .ok 4} ≃
    {c : Fin 2 → Scalar // ∀ i ∈ ([3, 7] : List ID), Poly.evaluate (shamirList 99 c) i.val = .ok 4}) :=
  C15_shares_hide_secret 2 [3, 7] (by simp) (by decide) (fun _ => 4) 10 99

end Verif.Props
