import Verif.Model.Party
import Verif.Lemmas.Bytes
import Mathlib.LinearAlgebra.Lagrange

/-!
Lemmas on party identifiers, sorted lists and Lagrange coefficients.
-/

namespace Verif

/-- The scalar an identifier stands for. -/
def ID.val (id : ID) : Scalar := (id.toNat : Scalar)

theorem toNat_lt_q (id : ID) : id.toNat < q := lt_trans id.toNat_lt (by decide +kernel)

theorem ID.val_injective {a b : ID} (h : a.val = b.val) : a = b := by
  have := congrArg ZMod.val h
  unfold ID.val at this
  rw [ZMod.val_natCast, ZMod.val_natCast, Nat.mod_eq_of_lt (toNat_lt_q a), Nat.mod_eq_of_lt (toNat_lt_q b)] at this
  exact UInt16.toNat_inj.mp this

theorem ID.val_zero : (0 : ID).val = 0 := by simp [ID.val]

theorem ID.val_eq_zero {a : ID} : a.val = 0 ↔ a = 0 := by
  constructor
  · intro h; exact ID.val_injective (h.trans ID.val_zero.symm)
  · rintro rfl; exact ID.val_zero

theorem ID.scalar_eq (id : ID) : id.scalar = .ok id.val := by
  have h := id.toNat_lt
  unfold ID.scalar
  have e : putLE16 (List.replicate 32 0) id = .ok (id.toUInt8 :: (id >>> 8).toUInt8 :: List.replicate 30 0) := rfl
  rw [e, Outcome.ok_bind]
  have hv : leNat (id.toUInt8 :: (id >>> 8).toUInt8 :: List.replicate 30 0) = id.toNat := by
    have h1 := be16_hi id
    have h2 := be16_lo id
    simp only [leNat, leNat_replicate_zero]; omega
  have : Scalar.setCanonicalBytes (id.toUInt8 :: (id >>> 8).toUInt8 :: List.replicate 30 0) = some id.val := by
    rw [Scalar.set_eq_some, hv]
    exact ⟨by simp, toNat_lt_q id, rfl⟩
  rw [this]; rfl

namespace IDSlice

theorem new_perm (l : List ID) : (new l).Perm l := List.perm_insertionSort _ l

theorem mem_new {l : List ID} {x : ID} : x ∈ new l ↔ x ∈ l := (new_perm l).mem_iff

instance : Std.Total (fun a b : ID => a ≤ b) := ⟨UInt16.le_total⟩
instance : IsTrans ID (fun a b : ID => a ≤ b) := ⟨fun _ _ _ => UInt16.le_trans⟩

theorem new_sorted (l : List ID) : (new l).Pairwise (· ≤ ·) := List.pairwise_insertionSort _ l

/-- What `sort.Search` returns on a monotone predicate. -/
theorem search_spec (f : Nat → Bool) (i j : Nat) (hij : i ≤ j)
    (hmono : ∀ a b, i ≤ a → a ≤ b → b < j → f a = true → f b = true) :
    i ≤ search f i j ∧ search f i j ≤ j ∧ (∀ k, i ≤ k → k < search f i j → f k = false) ∧
      (search f i j < j → f (search f i j) = true) := by
  induction hn : j - i using Nat.strong_induction_on generalizing i j with
  | _ n ih =>
    rw [search]
    by_cases h : i < j
    · simp only [h, ↓reduceDIte]
      have hm1 : i ≤ (i + j) / 2 := by omega
      have hm2 : (i + j) / 2 < j := by omega
      by_cases hf : f ((i + j) / 2) = true
      · simp only [hf, Bool.not_true, Bool.false_eq_true, ↓reduceIte]
        obtain ⟨h1, h2, h3, h4⟩ := ih ((i + j) / 2 - i) (by omega) i ((i + j) / 2) hm1
          (fun a b ha hab hb => hmono a b ha hab (by omega)) rfl
        refine ⟨h1, by omega, h3, ?_⟩
        intro _
        by_cases he : search f i ((i + j) / 2) < (i + j) / 2
        · exact h4 he
        · have : search f i ((i + j) / 2) = (i + j) / 2 := by omega
          rw [this]; exact hf
      · have hf' : f ((i + j) / 2) = false := by simpa using hf
        simp only [hf', Bool.not_false, ↓reduceIte]
        obtain ⟨h1, h2, h3, h4⟩ := ih (j - ((i + j) / 2 + 1)) (by omega) ((i + j) / 2 + 1) j (by omega)
          (fun a b ha hab hb => hmono a b (by omega) hab hb) rfl
        refine ⟨by omega, h2, ?_, h4⟩
        intro k hk hk2
        by_cases hkm : (i + j) / 2 + 1 ≤ k
        · exact h3 k hkm hk2
        · by_contra hc
          have hc' : f k = true := by simpa using hc
          have := hmono k ((i + j) / 2) hk (by omega) hm2 hc'
          rw [hf'] at this; cases this
    · have : i = j := by omega
      subst this
      simp
      intro k h1 h2; omega

theorem search_le (f : Nat → Bool) (i j : Nat) (hij : i ≤ j) : search f i j ≤ j := by
  induction hn : j - i using Nat.strong_induction_on generalizing i j with
  | _ n ih =>
    rw [search]
    by_cases h : i < j
    · simp only [h, ↓reduceDIte]
      split
      · exact ih (j - ((i + j) / 2 + 1)) (by omega) _ _ (by omega) rfl
      · exact (ih ((i + j) / 2 - i) (by omega) _ _ (by omega) rfl).trans (by omega)
    · simp [h]; omega

theorem contains_sound {ids : IDSlice} {id : ID} (h : contains ids id = true) : id ∈ ids := by
  unfold contains at h
  simp only [Bool.and_eq_true, decide_eq_true_eq, beq_iff_eq] at h
  obtain ⟨h1, h2⟩ := h
  rw [← h2]
  rw [List.getD_eq_getElem?_getD, List.getElem?_eq_getElem h1]
  exact List.getElem_mem h1

theorem contains_complete {ids : IDSlice} (hs : ids.Pairwise (· ≤ ·)) {id : ID} (h : id ∈ ids) :
    contains ids id = true := by
  obtain ⟨k, hk, rfl⟩ := List.getElem_of_mem h
  have hget : ∀ a (ha : a < ids.length), ids.getD a 0 = ids[a] := by
    intro a ha; simp [List.getD_eq_getElem?_getD, List.getElem?_eq_getElem ha]
  have hle : ∀ a b (ha : a < ids.length) (hb : b < ids.length), a ≤ b → ids[a] ≤ ids[b] := by
    intro a b ha hb hab
    rcases Nat.lt_or_eq_of_le hab with h | h
    · exact List.pairwise_iff_getElem.mp hs a b ha hb h
    · subst h; exact UInt16.le_refl _
  obtain ⟨_, h2, h3, h4⟩ := search_spec (fun i => decide (ids[k] ≤ ids.getD i 0)) 0 ids.length (Nat.zero_le _) (by
    intro a b _ hab hb
    simp only [decide_eq_true_eq]
    rw [hget a (by omega), hget b hb]
    exact fun hh => UInt16.le_trans hh (hle a b (by omega) hb hab))
  unfold contains
  set r := search (fun i => decide (ids[k] ≤ ids.getD i 0)) 0 ids.length with hr
  have hrk : r ≤ k := by
    by_contra hc
    have := h3 k (Nat.zero_le _) (by omega)
    rw [hget k hk] at this
    simp at this
  have hrl : r < ids.length := by omega
  have h5 := h4 hrl
  rw [hget r hrl] at h5
  have h6 : ids[k] ≤ ids[r] := by simpa using h5
  have h7 := hle r k hrl hk hrk
  simp only [Bool.and_eq_true, decide_eq_true_eq, beq_iff_eq]
  refine ⟨hrl, ?_⟩
  rw [hget r hrl]
  exact UInt16.le_antisymm h7 h6

theorem contains_iff {ids : IDSlice} (hs : ids.Pairwise (· ≤ ·)) {id : ID} : contains ids id = true ↔ id ∈ ids :=
  ⟨contains_sound, contains_complete hs⟩

theorem contains_eq {ids : IDSlice} (hs : ids.Pairwise (· ≤ ·)) (id : ID) : contains ids id = decide (id ∈ ids) := by
  rw [Bool.eq_iff_iff, contains_iff hs]; simp

theorem isSubsetOf_iff_contains {ids o : IDSlice} :
    isSubsetOf ids o = true ↔ ∀ x ∈ ids, contains o x = true := by
  induction ids with
  | nil => simp [isSubsetOf]
  | cons a rest ih =>
    rw [isSubsetOf]
    by_cases h : contains o a = true
    · simp [h, ih]
    · simp [h]

theorem equalLoop_eq (o pre : IDSlice) (ids rest : IDSlice) (ho : o = pre ++ rest) (hl : ids.length = rest.length) :
    equalLoop ids o pre.length = .ok (decide (ids = rest)) := by
  induction ids generalizing pre rest with
  | nil =>
    have : rest = [] := by simpa using hl.symm
    subst this; simp [equalLoop]
  | cons a ids ih =>
    match rest, hl with
    | b :: rest, hl =>
      have hb : o[pre.length]? = some b := by subst ho; simp
      simp only [equalLoop, hb, Outcome.deref_some, Outcome.ok_bind]
      by_cases hab : b = a
      · subst hab
        have := ih (pre ++ [b]) rest (by simp [ho]) (by simpa using hl)
        simp only [List.length_append, List.length_cons, List.length_nil] at this
        simpa using this
      · have hab' : ¬ a = b := fun h => hab h.symm
        simp [hab, hab']

theorem equal_eq (ids o : IDSlice) : equal ids o = .ok (decide (ids = o)) := by
  unfold equal
  by_cases h : ids.length = o.length
  · simp only [ne_eq, h, not_true_eq_false, ↓reduceIte]
    exact equalLoop_eq o [] ids o rfl h
  · have : ids ≠ o := fun hh => h (by rw [hh])
    simp [h, this]

end IDSlice

namespace ID

theorem lagrangeLoop_eq (id : ID) (xJ : Scalar) (l : List ID) (num denum : Scalar) (found : Bool) :
    lagrangeLoop id xJ l (num, denum, found) =
      .ok (num * ((l.filter (· ≠ id)).map ID.val).prod,
           denum * ((l.filter (· ≠ id)).map fun j => j.val - xJ).prod,
           found || decide (id ∈ l)) := by
  induction l generalizing num denum found with
  | nil => simp [lagrangeLoop]
  | cons a l ih =>
    rw [lagrangeLoop]
    by_cases h : a = id
    · subst h
      simp [ih]
    · have h' : ¬ id = a := fun hh => h hh.symm
      simp only [if_neg h, ID.scalar_eq, Outcome.ok_bind, ih]
      congr 1
      simp [h, h', mul_assoc]

/-- The value computed by `Lagrange`: `∏ xⱼ · (∏ (xⱼ - xᵢ))⁻¹` over the other identifiers. -/
def lagrangeVal (id : ID) (ids : List ID) : Scalar :=
  ((ids.filter (· ≠ id)).map ID.val).prod * (((ids.filter (· ≠ id)).map fun j => j.val - id.val).prod)⁻¹

theorem lagrange_denum_ne_zero (id : ID) (ids : List ID) :
    ((ids.filter (· ≠ id)).map fun j => j.val - id.val).prod ≠ 0 := by
  rw [ne_eq, List.prod_eq_zero_iff]
  intro h
  obtain ⟨j, hj, hz⟩ := List.mem_map.mp h
  rw [sub_eq_zero] at hz
  have := ID.val_injective hz
  simp [this] at hj

theorem lagrange_eq (id : ID) (ids : List ID) :
    lagrange id ids = if id = 0 then .err .idZero else if id ∈ ids then .ok (lagrangeVal id ids) else .err .idNotInSet := by
  unfold lagrange
  by_cases h0 : id = 0
  · subst h0; simp [Outcome.failIf_pos]
  · simp only [h0, ↓reduceIte, Outcome.failIf_neg h0,
      Outcome.ok_bind, ID.scalar_eq, lagrangeLoop_eq, one_mul, Bool.false_or]
    by_cases hm : id ∈ ids
    · simp only [hm, decide_true, Bool.true_eq_false, not_false_eq_true, Outcome.failIf_neg, Outcome.ok_bind, ↓reduceIte,
        Outcome.failIf_neg (lagrange_denum_ne_zero id ids)]
      rfl
    · simp [hm, Outcome.failIf_pos]

theorem lagrangeVal_perm {ids ids' : List ID} (h : ids.Perm ids') (id : ID) : lagrangeVal id ids = lagrangeVal id ids' := by
  unfold lagrangeVal
  have h' := h.filter (· ≠ id)
  rw [(h'.map _).prod_eq, (h'.map _).prod_eq]

open Polynomial in
theorem lagrangeVal_eq_basis {ids : List ID} (hnd : ids.Nodup) {id : ID} :
    lagrangeVal id ids = (Lagrange.basis ids.toFinset ID.val id).eval 0 := by
  unfold lagrangeVal Lagrange.basis
  rw [Polynomial.eval_prod]
  have hfin : ids.toFinset.erase id = (ids.filter (· ≠ id)).toFinset := by
    ext x; simp [and_comm]
  have hnd' : (ids.filter (· ≠ id)).Nodup := hnd.filter _
  rw [hfin, List.prod_toFinset _ hnd']
  generalize ids.filter (· ≠ id) = l
  induction l with
  | nil => simp
  | cons a l ih =>
    simp only [List.map_cons, List.prod_cons, ← ih]
    simp only [Lagrange.basisDivisor, Polynomial.eval_mul, Polynomial.eval_C, Polynomial.eval_sub, Polynomial.eval_X,
      mul_inv, zero_sub]
    rw [show (id.val - a.val)⁻¹ = - (a.val - id.val)⁻¹ by rw [← inv_neg, neg_sub]]
    ring

open Polynomial in
/-- Interpolation at zero with the coefficients computed by the code. -/
theorem lagrangeVal_sum {ids : List ID} (hnd : ids.Nodup) (f : Scalar[X]) (hf : f.degree < ids.length) :
    (ids.map fun i => lagrangeVal i ids * f.eval i.val).sum = f.eval 0 := by
  have hinj : Set.InjOn ID.val (ids.toFinset : Set ID) := fun a _ b _ h => ID.val_injective h
  have hcard : ids.toFinset.card = ids.length := List.toFinset_card_of_nodup hnd
  have hint := Lagrange.eq_interpolate hinj (f := f) (by rw [hcard]; exact hf)
  conv_rhs => rw [hint]
  rw [Lagrange.interpolate_apply, Polynomial.eval_finsetSum, List.sum_toFinset _ hnd]
  congr 1
  apply List.map_congr_left
  intro i _
  rw [lagrangeVal_eq_basis hnd]
  simp [mul_comm]

end ID

end Verif
