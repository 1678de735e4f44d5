import Verif.Lemmas.Party
import Verif.Spec.Party
import Mathlib.Tactic.LinearCombination

/-!
Properties C01–C09: identifiers, identifier lists, Lagrange coefficients.
-/

namespace Verif.Props

open Verif

/-! ### C01 -/

/-- The wire form is the two big-endian bytes, and reading it back, whatever follows, gives the same ID. -/
theorem C01_id_bytes_roundtrip (id : ID) (suffix : Bytes) :
    (∃ hi lo : UInt8, id.bytes = [hi, lo] ∧ hi.toNat * 256 + lo.toNat = id.toNat) ∧
      ID.fromBytes (id.bytes ++ suffix) = .ok id := by
  refine ⟨⟨_, _, rfl, ?_⟩, ?_⟩
  · rw [be16_hi, be16_lo]; omega
  · have h : ¬ (be16 id ++ suffix).length < 2 := by
      simp only [List.length_append, be16_length]; omega
    unfold ID.fromBytes ID.bytes
    rw [Outcome.failIf_neg h, Outcome.ok_bind, readBE16_be16]

/-- `FromBytes` fails exactly on inputs shorter than two bytes, never panics, and otherwise the result's wire form is the
first two bytes. -/
theorem C01_fromBytes_exact (b : Bytes) :
    (b.length < 2 ∧ ID.fromBytes b = .err .tooShort) ∨
      (2 ≤ b.length ∧ ∃ id, ID.fromBytes b = .ok id ∧ b = id.bytes ++ b.drop 2) := by
  match b with
  | [] => left; simp [ID.fromBytes, Outcome.failIf_pos]
  | [_] => left; simp [ID.fromBytes, Outcome.failIf_pos]
  | hi :: lo :: rest =>
    right
    refine ⟨by simp, _, by simp [ID.fromBytes, Outcome.failIf_neg]; exact readBE16_cons hi lo rest, ?_⟩
    exact be16_readBE16 (readBE16_cons hi lo rest)

example : ID.fromBytes ((0x1234 : ID).bytes ++ [7]) = .ok 0x1234 := by decide

/-! ### C02 -/

theorem decimalValue_append (s : List UInt8) (c : UInt8) :
    Spec.decimalValue (s ++ [c]) = 10 * Spec.decimalValue s + (c.toNat - 48) := by
  simp [Spec.decimalValue, List.foldl_append]

theorem foldl_ge (s : List UInt8) (n : Nat) :
    n ≤ s.foldl (fun acc c => 10 * acc + (c.toNat - '0'.toNat)) n := by
  induction s generalizing n with
  | nil => simp
  | cons c s ih => exact le_trans (by dsimp only; omega) (ih _)

theorem parseLoop_ok_iff (s : Bytes) (n v : Nat) (hn : n ≤ 65535) :
    ID.parseLoop s n = .ok v ↔
      (∀ c ∈ s, 48 ≤ c.toNat ∧ c.toNat ≤ 57) ∧ s.foldl (fun acc c => 10 * acc + (c.toNat - '0'.toNat)) n = v ∧
        v ≤ 65535 := by
  induction s generalizing n with
  | nil => simp [ID.parseLoop]; omega
  | cons c s ih =>
    have hz : '0'.toNat = 48 := rfl
    rw [ID.parseLoop]
    by_cases hd : 48 ≤ c.toNat ∧ c.toNat ≤ 57
    · simp only [hd, and_self, ↓reduceIte]
      by_cases hr : n * 10 + (c.toNat - 48) > 65535
      · simp only [hr, ↓reduceIte, reduceCtorEq, List.mem_cons, forall_eq_or_imp, List.foldl_cons, false_iff]
        rintro ⟨_, rfl, hle⟩
        have := foldl_ge s (10 * n + (c.toNat - '0'.toNat))
        omega
      · simp only [hr, ↓reduceIte, List.mem_cons, forall_eq_or_imp, hd, and_self, true_and, List.foldl_cons]
        rw [ih _ (by omega), hz, Nat.mul_comm n 10]
    · simp [hd]

theorem parseUint16_ok_iff (s : Bytes) (v : Nat) :
    ID.parseUint16 s = .ok v ↔ Spec.IsDecimal s ∧ Spec.decimalValue s = v ∧ v ≤ 65535 := by
  unfold ID.parseUint16 Spec.IsDecimal Spec.decimalValue
  cases s with
  | nil => simp
  | cons c s =>
    simp only [List.isEmpty_cons, Bool.false_eq_true, ↓reduceIte, ne_eq, reduceCtorEq, not_false_eq_true, true_and]
    exact parseLoop_ok_iff (c :: s) 0 v (by omega)

/-- `UnmarshalText` accepts exactly the non-empty decimal strings of value at most 65535, with that value.  (On any other
text it returns an error; the receiver is assigned only on the success path.) -/
theorem C02_unmarshalText_exact (text : Bytes) (id : ID) :
    ID.unmarshalText text = .ok id ↔ Spec.IsDecimal text ∧ Spec.decimalValue text = id.toNat := by
  have hid := id.toNat_lt
  have hiff := parseUint16_ok_iff text
  unfold ID.unmarshalText
  cases hp : ID.parseUint16 text with
  | ok v =>
    obtain ⟨h1, h2, h3⟩ := (hiff v).mp hp
    have : ¬ v > 4294967295 := by omega
    simp only [Outcome.ok_bind, Outcome.failIf_neg this, Outcome.pure_def, Outcome.ok.injEq, h1, true_and]
    constructor
    · rintro rfl; rw [UInt16.toNat_ofNat', h2]; omega
    · intro h; apply UInt16.toNat_inj.mp; rw [UInt16.toNat_ofNat', ← h, h2]; omega
  | err e =>
    simp only [Outcome.err_bind, reduceCtorEq, false_iff]
    rintro ⟨h1, h2⟩
    have := (hiff id.toNat).mpr ⟨h1, h2, by omega⟩
    rw [hp] at this; cases this
  | panic =>
    simp only [Outcome.panic_bind, reduceCtorEq, false_iff]
    rintro ⟨h1, h2⟩
    have := (hiff id.toNat).mpr ⟨h1, h2, by omega⟩
    rw [hp] at this; cases this

theorem parseLoop_no_panic (s : Bytes) (n : Nat) : ID.parseLoop s n ≠ .panic := by
  induction s generalizing n with
  | nil => simp [ID.parseLoop]
  | cons c s ih =>
    rw [ID.parseLoop]
    split
    · dsimp only; split
      · simp
      · exact ih _
    · simp

theorem C02_unmarshalText_no_panic (text : Bytes) : ID.unmarshalText text ≠ .panic := by
  unfold ID.unmarshalText ID.parseUint16
  split
  · simp
  · have := parseLoop_no_panic text 0
    cases h : ID.parseLoop text 0 with
    | ok v =>
      simp only [Outcome.ok_bind]
      unfold Outcome.failIf; split <;> simp
    | err e => simp
    | panic => exact absurd h this

theorem formatUint_decimal (n : Nat) :
    Spec.IsDecimal (ID.formatUint n) ∧ Spec.decimalValue (ID.formatUint n) = n := by
  have hz : '0'.toNat = 48 := rfl
  have h9 : '9'.toNat = 57 := rfl
  unfold ID.formatUint
  by_cases h0 : n = 0
  · subst h0; refine ⟨⟨by simp, by simp [hz, h9]⟩, by simp [Spec.decimalValue, hz]⟩
  · rw [if_neg h0]
    have hlt : ∀ d ∈ Nat.digits 10 n, d < 10 := fun d hd => Nat.digits_lt_base (by omega) hd
    have hval : ∀ l : List Nat, (∀ d ∈ l, d < 10) →
        Spec.decimalValue (l.reverse.map fun d => UInt8.ofNat (48 + d)) = Nat.ofDigits 10 l := by
      intro l hl
      induction l with
      | nil => rfl
      | cons d l ih =>
        have hd := hl d (by simp)
        rw [List.reverse_cons, List.map_append, List.map_cons, List.map_nil, decimalValue_append,
          ih (fun x hx => hl x (by simp [hx])), Nat.ofDigits_cons, UInt8.toNat_ofNat']
        omega
    refine ⟨⟨?_, ?_⟩, ?_⟩
    · simpa using Nat.digits_ne_nil_iff_ne_zero.mpr h0
    · intro c hc
      obtain ⟨d, hd, rfl⟩ := List.mem_map.mp hc
      have := hlt d (by simpa using hd)
      rw [UInt8.toNat_ofNat', hz, h9]; omega
    · rw [hval _ hlt, Nat.ofDigits_digits]

/-- Marshalled text is accepted and gives the same ID back. -/
theorem C02_text_roundtrip (id : ID) : ID.unmarshalText id.marshalText = .ok id := by
  rw [C02_unmarshalText_exact]
  exact formatUint_decimal id.toNat

example : ID.unmarshalText [54, 53, 53, 51, 53] = .ok 65535 := by decide
example : ID.unmarshalText [54, 53, 53, 51, 54] = .err .textRange := by decide
example : ID.unmarshalText [43, 49] = .err .textSyntax := by decide

/-! ### C03 -/

/-- `Scalar()` never panics, has the numeric value of the ID, is zero only for ID 0, and is injective. -/
theorem C03_id_scalar (a b : ID) :
    ∃ s t : Scalar, a.scalar = .ok s ∧ b.scalar = .ok t ∧ s.val = a.toNat ∧ (s = 0 ↔ a = 0) ∧ (s = t ↔ a = b) := by
  refine ⟨a.val, b.val, ID.scalar_eq a, ID.scalar_eq b, ?_, ID.val_eq_zero, ?_⟩
  · unfold ID.val; rw [ZMod.val_natCast, Nat.mod_eq_of_lt (toNat_lt_q a)]
  · exact ⟨ID.val_injective, fun h => by rw [h]⟩

example : (3 : ID).scalar = .ok 3 := by rw [ID.scalar_eq]; rfl

/-! ### C04 -/

/-- `NewIDSlice` returns the ascending rearrangement of its argument, and that determines it. -/
theorem C04_newIDSlice_sorted_perm (l : List ID) :
    (IDSlice.new l).Pairwise (· ≤ ·) ∧ (IDSlice.new l).Perm l ∧
      ∀ l' : List ID, l'.Pairwise (· ≤ ·) → l'.Perm l → l' = IDSlice.new l := by
  refine ⟨IDSlice.new_sorted l, IDSlice.new_perm l, ?_⟩
  intro l' hs hp
  exact List.Perm.eq_of_pairwise (fun a b _ _ h1 h2 => UInt16.le_antisymm h1 h2) hs (IDSlice.new_sorted l)
    (hp.trans (IDSlice.new_perm l).symm)

/-- A duplicate-free argument gives a strictly ascending result. -/
theorem C04_newIDSlice_strict {l : List ID} (h : l.Nodup) : (IDSlice.new l).Pairwise (· < ·) := by
  have hnd : (IDSlice.new l).Nodup := (IDSlice.new_perm l).nodup_iff.mpr h
  refine (List.Pairwise.and (IDSlice.new_sorted l) hnd).imp ?_
  intro a b ⟨h1, h2⟩
  exact UInt16.lt_of_le_of_ne h1 h2

example : IDSlice.new [3, 1, 2, 1] = [1, 1, 2, 3] := by decide +kernel

/-! ### C05 -/

theorem C05_contains_iff_mem {ids : IDSlice} (hs : ids.Pairwise (· ≤ ·)) (id : ID) :
    IDSlice.contains ids id = true ↔ id ∈ ids := IDSlice.contains_iff hs

theorem C05_contains_new (l : List ID) (id : ID) : IDSlice.contains (IDSlice.new l) id = true ↔ id ∈ l := by
  rw [IDSlice.contains_iff (IDSlice.new_sorted l), IDSlice.mem_new]

/-- Even on unsorted slices `Contains` never claims an absent ID. -/
theorem C05_contains_sound (ids : IDSlice) (id : ID) (h : IDSlice.contains ids id = true) : id ∈ ids :=
  IDSlice.contains_sound h

/-- On an unsorted slice a member can be missed. -/
theorem C05_unsorted_can_miss : ∃ (ids : IDSlice) (id : ID), id ∈ ids ∧ IDSlice.contains ids id = false :=
  ⟨[2, 1], 1, by decide, by decide +kernel⟩

example : ([1, 2, 5] : IDSlice).Pairwise (· ≤ ·) ∧ IDSlice.contains [1, 2, 5] 5 = true ∧ IDSlice.contains [1, 2, 5] 4 = false := by
  decide +kernel

/-! ### C06 -/

theorem C06_isSubsetOf_iff (ids : IDSlice) {o : IDSlice} (hs : o.Pairwise (· ≤ ·)) :
    IDSlice.isSubsetOf ids o = true ↔ ∀ x ∈ ids, x ∈ o := by
  rw [IDSlice.isSubsetOf_iff_contains]
  simp only [IDSlice.contains_iff hs]

/-- `Equal` never panics and decides equality of the lists. -/
theorem C06_equal_iff (ids o : IDSlice) : ∃ b, IDSlice.equal ids o = .ok b ∧ (b = true ↔ ids = o) :=
  ⟨_, IDSlice.equal_eq ids o, by simp⟩

theorem C06_copy (ids : IDSlice) : IDSlice.copy ids = ids := rfl

example : IDSlice.isSubsetOf [5, 1] [1, 2, 5] = true ∧ IDSlice.isSubsetOf [5, 3] [1, 2, 5] = false := by decide +kernel

/-! ### C07 -/

/-- `Lagrange` fails exactly when the ID is 0 or absent; it never panics and never reports a zero denominator. -/
theorem C07_lagrange_errors (id : ID) (ids : IDSlice) :
    (ID.lagrange id ids = .err .idZero ↔ id = 0) ∧
      (ID.lagrange id ids = .err .idNotInSet ↔ id ≠ 0 ∧ id ∉ ids) ∧
      ((∃ s, ID.lagrange id ids = .ok s) ↔ id ≠ 0 ∧ id ∈ ids) ∧
      ID.lagrange id ids ≠ .err .denominatorZero ∧ ID.lagrange id ids ≠ .panic := by
  rw [ID.lagrange_eq]
  by_cases h0 : id = 0
  · simp [h0]
  · by_cases hm : id ∈ ids <;> simp [h0, hm]

example : ∃ s, ID.lagrange 2 [1, 2, 3] = .ok s := (C07_lagrange_errors 2 [1, 2, 3]).2.2.1.mpr (by decide)

/-! ### C08 -/

open Polynomial in
/-- The coefficients interpolate at zero: for every polynomial of degree below the number of parties, the weighted sum of
the values at the parties' IDs is the constant term. -/
theorem C08_lagrange_interpolates {ids : IDSlice} (hnd : ids.Nodup) (h0 : (0 : ID) ∉ ids) :
    ∃ lam : ID → Scalar, (∀ i ∈ ids, ID.lagrange i ids = .ok (lam i)) ∧
      ∀ f : Scalar[X], f.degree < ids.length → (ids.map fun i => lam i * f.eval (i.toNat : Scalar)).sum = f.eval 0 := by
  refine ⟨fun i => ID.lagrangeVal i ids, ?_, fun f hf => ID.lagrangeVal_sum hnd f hf⟩
  intro i hi
  rw [ID.lagrange_eq, if_neg (fun h : i = 0 => h0 (h ▸ hi)), if_pos hi]

/-- The coefficient does not depend on the order of the list. -/
theorem C08_lagrange_order_free {ids ids' : IDSlice} (h : ids.Perm ids') (id : ID) :
    ID.lagrange id ids = ID.lagrange id ids' := by
  simp only [ID.lagrange_eq, ID.lagrangeVal_perm h, h.mem_iff]

/-- The closed form of the code comment: the product of `xₖ / (xₖ - xⱼ)` over the other identifiers. -/
theorem C08_lagrange_closed_form {ids : IDSlice} {id : ID} (h0 : id ≠ 0) (hm : id ∈ ids) :
    ID.lagrange id ids =
      .ok ((ids.filter (· ≠ id)).map fun k => (k.toNat : Scalar) / ((k.toNat : Scalar) - (id.toNat : Scalar))).prod := by
  rw [ID.lagrange_eq, if_neg h0, if_pos hm]
  congr 1
  unfold ID.lagrangeVal
  generalize ids.filter (· ≠ id) = l
  induction l with
  | nil => simp
  | cons a l ih =>
    simp only [List.map_cons, List.prod_cons, ← ih, ID.val]
    rw [mul_inv, div_eq_mul_inv]; ring

/-- Duplicates break it: with a repeated identifier the coefficients of `[1, 2, 2]` do not interpolate the constant 1. -/
theorem C08_duplicates_break : ¬ ∃ lam : ID → Scalar, (∀ i ∈ ([1, 2, 2] : IDSlice), ID.lagrange i [1, 2, 2] = .ok (lam i)) ∧
    (([1, 2, 2] : IDSlice).map fun i => lam i * 1).sum = 1 := by
  rintro ⟨lam, h, hs⟩
  have h1 := h 1 (by simp)
  have h2 := h 2 (by simp)
  rw [ID.lagrange_eq, if_neg (by decide), if_pos (by decide)] at h1 h2
  have e1 := Outcome.ok.inj h1
  have e2 := Outcome.ok.inj h2
  have v1 : ID.val 1 = 1 := by simp [ID.val]
  have v2 : ID.val 2 = 2 := by simp [ID.val]
  have f1 : ([1, 2, 2] : List ID).filter (· ≠ 1) = [2, 2] := by decide
  have f2 : ([1, 2, 2] : List ID).filter (· ≠ 2) = [1] := by decide
  rw [ID.lagrangeVal, f1] at e1
  rw [ID.lagrangeVal, f2] at e2
  simp only [List.map_cons, List.map_nil, List.prod_cons, List.prod_nil, v1, v2, mul_one] at e1 e2
  simp only [List.map_cons, List.map_nil, List.sum_cons, List.sum_nil, mul_one, add_zero] at hs
  have e3 : (1 : Scalar) - 2 = -1 := by ring
  have e4 : (2 : Scalar) - 1 = 1 := by ring
  rw [e4] at e1
  rw [e3] at e2
  norm_num at e1 e2
  rw [← e1, ← e2] at hs
  have : (1 : Scalar) = 0 := by linear_combination hs
  exact one_ne_zero this

open Polynomial in
example : ∃ lam : ID → Scalar, (∀ i ∈ ([1, 2, 7] : IDSlice), ID.lagrange i [1, 2, 7] = .ok (lam i)) ∧
    (([1, 2, 7] : IDSlice).map fun i => lam i * (X ^ 2 + C 5 : Scalar[X]).eval (i.toNat : Scalar)).sum = 5 := by
  obtain ⟨lam, h1, h2⟩ := C08_lagrange_interpolates (ids := [1, 2, 7]) (by decide) (by decide)
  refine ⟨lam, h1, (h2 _ ?_).trans (by simp)⟩
  rw [degree_X_pow_add_C (by norm_num)]; norm_num

/-! ### C09 -/

/-- `RandID` never returns 0, for every outcome of the random source; it keeps every non-zero outcome. -/
theorem C09_randID_ne_zero (r : Nat) (hr : r < 65536) :
    ID.randID r ≠ 0 ∧ (r ≠ 0 → (ID.randID r).toNat = r) := by
  unfold ID.randID
  by_cases h : r = 0
  · subst h; simp
  · rw [if_neg h]
    have e : (UInt16.ofNat r).toNat = r := by rw [UInt16.toNat_ofNat']; omega
    refine ⟨?_, fun _ => e⟩
    intro hz
    rw [hz] at e
    exact h e.symm

theorem newPartySliceLoop_eq (n : UInt16) (hn : n.toNat < 65535) (k : Nat) :
    ∀ (i : UInt16) (acc : List ID), i.toNat + k = n.toNat + 1 →
      newPartySliceLoop n (k + 1) i acc = some (acc ++ (List.range' i.toNat k).map UInt16.ofNat) := by
  induction k with
  | zero =>
    intro i acc h
    have : ¬ i ≤ n := by rw [UInt16.le_iff_toNat_le]; omega
    simp [newPartySliceLoop, this]
  | succ k ih =>
    intro i acc h
    have hle : i ≤ n := by rw [UInt16.le_iff_toNat_le]; omega
    have hi1 : (i + 1).toNat = i.toNat + 1 := by
      rw [UInt16.toNat_add]
      have : (1 : UInt16).toNat = 1 := rfl
      rw [this]; omega
    rw [newPartySliceLoop, if_pos hle, ih (i + 1) (acc ++ [i]) (by omega), hi1]
    simp [List.range'_succ]

theorem newPartySliceLoop_mono (n : UInt16) {f f' : Nat} (h : f ≤ f') (i : UInt16) (acc l : List ID)
    (hl : newPartySliceLoop n f i acc = some l) : newPartySliceLoop n f' i acc = some l := by
  induction f generalizing f' i acc with
  | zero => simp [newPartySliceLoop] at hl
  | succ f ih =>
    match f', h with
    | f' + 1, h =>
      rw [newPartySliceLoop] at hl ⊢
      split
      · next hc => rw [if_pos hc] at hl; exact ih (by omega) _ _ hl
      · next hc => rw [if_neg hc] at hl; exact hl

/-- For `n < 65535` the loop ends and yields `1, …, n`. -/
theorem C09_newPartySlice_partial (n : UInt16) (hn : n.toNat < 65535) (fuel : Nat) (hf : n.toNat + 1 ≤ fuel) :
    newPartySlice n fuel = some ((List.range' 1 n.toNat).map UInt16.ofNat) := by
  have h := newPartySliceLoop_eq n hn n.toNat 1 [] (by
    have : (1 : UInt16).toNat = 1 := rfl
    omega)
  exact newPartySliceLoop_mono n hf 1 [] _ h

/-- For `n = 65535` the loop condition is always true (the counter wraps around): the call never returns. -/
theorem C09_newPartySlice_65535_diverges (fuel : Nat) : newPartySlice 65535 fuel = none := by
  unfold newPartySlice
  generalize (1 : UInt16) = i
  generalize ([] : List ID) = acc
  induction fuel generalizing i acc with
  | zero => rfl
  | succ f ih =>
    have : i ≤ 65535 := by
      rw [UInt16.le_iff_toNat_le]; have := i.toNat_lt; exact Nat.le_of_lt_succ this
    rw [newPartySliceLoop, if_pos this, ih]

/-- The IDs made by `NewPartySlice` are sorted, distinct and non-zero, so they are usable as participants. -/
theorem C09_newPartySlice_valid (n : UInt16) (fuel : Nat) (l : IDSlice) (h : newPartySlice n fuel = some l) :
    l.Pairwise (· < ·) ∧ (0 : ID) ∉ l ∧ l.length = n.toNat := by
  by_cases hn : n.toNat < 65535
  · have h1 := C09_newPartySlice_partial n hn (max fuel (n.toNat + 1)) (le_max_right _ _)
    have h2 := newPartySliceLoop_mono n (le_max_left fuel (n.toNat + 1)) 1 [] l h
    rw [newPartySlice, h2] at h1
    obtain rfl := Option.some.inj h1
    refine ⟨?_, ?_, by simp⟩
    · rw [List.pairwise_map]
      have := List.pairwise_lt_range' (s := 1) (n := n.toNat) (step := 1)
      refine List.Pairwise.imp_of_mem ?_ this
      intro a b ha hb hab
      rw [List.mem_range'_1] at ha hb
      rw [UInt16.lt_iff_toNat_lt, UInt16.toNat_ofNat', UInt16.toNat_ofNat']
      omega
    · intro h0
      obtain ⟨a, ha, ha0⟩ := List.mem_map.mp h0
      rw [List.mem_range'_1] at ha
      have := congrArg UInt16.toNat ha0
      rw [UInt16.toNat_ofNat'] at this
      have h00 : (0 : ID).toNat = 0 := rfl
      omega
  · have h65 : n = 65535 := by
      apply UInt16.toNat_inj.mp
      have := n.toNat_lt
      have h00 : (65535 : UInt16).toNat = 65535 := rfl
      omega
    subst h65
    rw [C09_newPartySlice_65535_diverges] at h
    cases h

example : newPartySlice 3 10 = some [1, 2, 3] := by decide

end Verif.Props
