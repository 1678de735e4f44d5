import Verif.Model.Eddsa
import Verif.Lemmas.Party
import Verif.Lemmas.Bytes
import Verif.Lemmas.Polynomial
import Verif.Lemmas.Group
import Verif.Spec.Bytes
import Verif.Spec.Weight
import Mathlib.Order.Interval.Finset.Nat

/-!
Lemmas about keys and shares.
-/

namespace Verif

variable {G : Type} [RGroup G]

theorem leNat_eq_leValue (b : Bytes) : leNat b = Spec.leValue b := by
  induction b with
  | nil => rfl
  | cons a b ih => rw [Spec.leValue_cons, ← ih]; rfl

/-- Distinct non-zero IDs: at most 65535 of them. -/
theorem nodup_length_le {l : List ID} (hnd : l.Nodup) (h0 : (0 : ID) ∉ l) : l.length ≤ 65535 := by
  have hnd' : (l.map UInt16.toNat).Nodup := hnd.map (fun a b h => UInt16.toNat_inj.mp h)
  have hsub : (l.map UInt16.toNat).toFinset ⊆ Finset.Ico 1 65536 := by
    intro x hx
    simp only [List.mem_toFinset, List.mem_map] at hx
    obtain ⟨a, ha, rfl⟩ := hx
    have h1 := a.toNat_lt
    have h2 : a.toNat ≠ 0 := fun h => h0 ((UInt16.toNat_inj (a := a) (b := 0)).mp h ▸ ha)
    simp only [Finset.mem_Ico]
    omega
  have := Finset.card_le_card hsub
  rw [List.toFinset_card_of_nodup hnd'] at this
  simpa using this

theorem N_toNat {l : List ID} (hnd : l.Nodup) (h0 : (0 : ID) ∉ l) : (IDSlice.N l).toNat = l.length := by
  have := nodup_length_le hnd h0
  unfold IDSlice.N
  rw [UInt16.toNat_ofNat']
  omega

/-- Interpolation at zero of the values of a map. -/
def interp (m : GoMap G) : G := (m.map fun e => ID.lagrangeVal e.1 m.keys • e.2).sum

theorem weight_eq (i : ID) (ids : List ID) : Spec.weight i ids = ID.lagrangeVal i ids := by
  unfold Spec.weight ID.lagrangeVal
  generalize ids.filter (· ≠ i) = l
  induction l with
  | nil => simp
  | cons a l ih =>
    simp only [List.map_cons, List.prod_cons]
    rw [ih, mul_inv, div_eq_mul_inv]
    simp only [ID.val]
    ring

theorem weight_sum {ids : List ID} (hnd : ids.Nodup) (f : Polynomial Scalar) (hf : f.degree < ids.length) :
    (ids.map fun i : ID => Spec.weight i ids * f.eval i.val).sum = f.eval 0 := by
  simp only [weight_eq]
  exact ID.lagrangeVal_sum hnd f hf

theorem interpolate_eq (m : GoMap G) : Spec.interpolate m = interp m := by
  unfold Spec.interpolate interp GoMap.keys
  simp only [weight_eq]

theorem computeGroupKeyLoop_eq (ids : List ID) (shares : GoMap (Option G)) (g : ID → G) (l : List ID)
    (hl : ∀ i ∈ l, i ∈ ids ∧ i ≠ 0 ∧ shares.get? i = some (some (g i))) (acc : G) :
    computeGroupKeyLoop ids shares l acc = .ok (acc + (l.map fun i => ID.lagrangeVal i ids • g i).sum) := by
  induction l generalizing acc with
  | nil => simp [computeGroupKeyLoop]
  | cons a l ih =>
    obtain ⟨h1, h2, h3⟩ := hl a (by simp)
    rw [computeGroupKeyLoop, ID.lagrange_eq, if_neg h2, if_pos h1]
    simp only [h3, Option.join_some, Outcome.deref_some, Outcome.ok_bind]
    rw [ih (fun i hi => hl i (List.mem_cons_of_mem _ hi))]
    simp [add_assoc]

theorem computeGroupKeyLoop_ne_err (ids : List ID) (shares : GoMap (Option G)) (l : List ID) (acc : G) (e : GoErr) :
    computeGroupKeyLoop ids shares l acc ≠ .err e := by
  induction l generalizing acc with
  | nil => simp [computeGroupKeyLoop]
  | cons a l ih =>
    rw [computeGroupKeyLoop]
    cases ID.lagrange a ids with
    | ok s =>
      cases h : (shares.get? a).join with
      | none => simp [h]
      | some g => simp only [h, Outcome.deref_some, Outcome.ok_bind]; exact ih _
    | err e => simp
    | panic => simp

theorem computeGroupKeyLoop_ok {ids : List ID} {shares : GoMap (Option G)} {l : List ID} {acc r : G}
    (h : computeGroupKeyLoop ids shares l acc = .ok r) : ∀ i ∈ l, i ≠ 0 ∧ ∃ g, shares.get? i = some (some g) := by
  induction l generalizing acc with
  | nil => simp
  | cons a l ih =>
    rw [computeGroupKeyLoop] at h
    rw [ID.lagrange_eq] at h
    by_cases ha : a = 0
    · simp [ha] at h
    · rw [if_neg ha] at h
      split_ifs at h with hm
      · simp only at h
        cases hs : shares.get? a with
        | none => simp [hs] at h
        | some o =>
          cases o with
          | none => simp [hs] at h
          | some g =>
            simp only [hs, Option.join_some, Outcome.deref_some, Outcome.ok_bind] at h
            intro i hi
            rcases List.mem_cons.mp hi with rfl | hi
            · exact ⟨ha, g, hs⟩
            · exact ih h i hi

namespace GoMap

variable {V W : Type}

theorem get?_map (m : GoMap V) (f : V → W) (k : ID) :
    GoMap.get? (m.map fun e => (e.1, f e.2)) k = (m.get? k).map f := by
  induction m with
  | nil => rfl
  | cons p m ih =>
    obtain ⟨a, b⟩ := p
    by_cases h : a = k
    · simp [get?, h]
    · simp only [List.map_cons, get?, h, ↓reduceIte]; exact ih

theorem keys_map (m : GoMap V) (f : V → W) : keys (m.map fun e => (e.1, f e.2)) = m.keys := by
  unfold keys; rw [List.map_map]; rfl

/-- Summing over the keys with lookups is summing over the entries. -/
theorem map_keys_get? {M : Type} (m : GoMap V) (h : m.WF) (d : V) (F : ID → V → M) :
    (m.keys.map fun i => F i ((m.get? i).getD d)) = m.map fun e => F e.1 e.2 := by
  unfold keys
  rw [List.map_map]
  apply List.map_congr_left
  rintro ⟨k, v⟩ hkv
  simp [(get?_eq_some_iff h).mpr hkv]

/-- A map of the form `id ↦ f id` on a list of keys. -/
theorem get?_mk (l : List ID) (f : ID → V) (k : ID) :
    GoMap.get? (l.map fun i => (i, f i)) k = if k ∈ l then some (f k) else none := by
  induction l with
  | nil => simp
  | cons a l ih =>
    by_cases h : a = k
    · subst h; simp [get?]
    · have h' : ¬ k = a := fun hh => h hh.symm
      simp only [List.map_cons, get?, h, ↓reduceIte, ih, List.mem_cons, h', false_or]

theorem keys_mk (l : List ID) (f : ID → V) : keys (l.map fun i => (i, f i)) = l := by
  unfold keys; rw [List.map_map]; simp [Function.comp_def]

end GoMap

theorem IDSlice.new_eq_of_perm {l l' : List ID} (h : l.Perm l') : IDSlice.new l = IDSlice.new l' :=
  List.Perm.eq_of_pairwise (fun a b _ _ h1 h2 => UInt16.le_antisymm h1 h2) (IDSlice.new_sorted l) (IDSlice.new_sorted l')
    (((IDSlice.new_perm l).trans h).trans (IDSlice.new_perm l').symm)

theorem interp_eq_sum (m : GoMap G) (hwf : m.WF) {ids : List ID} (hp : ids.Perm m.keys) :
    (ids.map fun i => ID.lagrangeVal i ids • (m.get? i).getD 0).sum = interp m := by
  unfold interp
  rw [← GoMap.map_keys_get? m hwf 0 (fun i g => ID.lagrangeVal i m.keys • g)]
  rw [(hp.map _).sum_eq]
  congr 1
  apply List.map_congr_left
  intro i _
  rw [ID.lagrangeVal_perm hp]

theorem computeGroupKey_eq (m : GoMap G) (hwf : m.WF) (h0 : (0 : ID) ∉ m.keys) {ids : List ID} (hp : ids.Perm m.keys) :
    computeGroupKey ids (m.map fun e => (e.1, some e.2)) = .ok (interp m) := by
  unfold computeGroupKey
  rw [computeGroupKeyLoop_eq ids _ (fun i => (m.get? i).getD 0)]
  · rw [zero_add, interp_eq_sum m hwf hp]
  · intro i hi
    have hk : i ∈ m.keys := hp.mem_iff.mp hi
    refine ⟨hi, fun h => h0 (h ▸ hk), ?_⟩
    obtain ⟨v, hv⟩ := GoMap.mem_keys_iff.mp hk
    rw [GoMap.get?_map, hv]; rfl

theorem filterMap_some (m : GoMap G) :
    ((m.map fun e => (e.1, some e.2)) : GoMap (Option G)).filterMap (fun x => match x with | (id, s) => s.map fun g => (id, g)) = m := by
  induction m with
  | nil => rfl
  | cons a m ih => simp

/-- What `NewPublic` does on a map of actual shares for non-zero IDs, whatever the iteration order. -/
theorem newPublic_eq (ord : MapOrder) (m : GoMap G) (hwf : m.WF) (h0 : (0 : ID) ∉ m.keys) (t : UInt16) :
    newPublic ord (m.map fun e => (e.1, some e.2)) t =
      if t ≠ 65535 ∧ m.length < t.toNat + 1 then .err .thresholdTooLarge else .ok ⟨IDSlice.new m.keys, t, m, interp m⟩ := by
  have hkeys : (ord.order _ (m.map fun e => (e.1, some e.2)) : GoMap (Option G)).keys.Perm m.keys := by
    have := (ord.perm _ (m.map fun e => (e.1, some e.2) : GoMap (Option G))).map Prod.fst
    refine this.trans ?_
    show (GoMap.keys (m.map fun e => (e.1, some e.2))).Perm _
    rw [GoMap.keys_map]
  unfold newPublic
  simp only
  rw [IDSlice.new_eq_of_perm hkeys, computeGroupKey_eq m hwf h0 (IDSlice.new_perm _), Outcome.ok_bind]
  have hN : (IDSlice.N (IDSlice.new m.keys)).toNat = m.length := by
    rw [N_toNat ((IDSlice.new_perm _).nodup_iff.mpr hwf) (fun h => h0 (IDSlice.mem_new.mp h)),
      (IDSlice.new_perm _).length_eq, GoMap.keys_length]
  have hcond : (t + 1 > IDSlice.N (IDSlice.new m.keys)) ↔ t ≠ 65535 ∧ m.length < t.toNat + 1 := by
    rw [gt_iff_lt, UInt16.lt_iff_toNat_lt, hN]
    by_cases ht : t = 65535
    · subst ht
      have : ((65535 : UInt16) + 1).toNat = 0 := rfl
      simp
    · rw [Poly.degree_succ_ne ht]; simp [ht]
  by_cases hc : t + 1 > IDSlice.N (IDSlice.new m.keys)
  · rw [Outcome.failIf_pos hc, if_pos (hcond.mp hc)]; rfl
  · rw [Outcome.failIf_neg hc, if_neg (fun h => hc (hcond.mpr h)), Outcome.ok_bind]
    simp only [Outcome.pure_def, Outcome.ok.injEq, Public.mk.injEq, true_and, and_true]
    exact filterMap_some m

/-- A map without nil entries is the image of a map of shares. -/
theorem exists_shares (m : GoMap (Option G)) (h : ∀ i ∈ m.keys, ∃ g, m.get? i = some (some g)) (hwf : m.WF) :
    ∃ m' : GoMap G, m = m'.map fun e => (e.1, some e.2) := by
  have : ∀ e ∈ m, ∃ g, e.2 = some g := by
    rintro ⟨k, v⟩ hkv
    obtain ⟨g, hg⟩ := h k (List.mem_map.mpr ⟨_, hkv, rfl⟩)
    rw [(GoMap.get?_eq_some_iff hwf).mpr hkv] at hg
    exact ⟨g, by simpa using hg⟩
  clear h hwf
  induction m with
  | nil => exact ⟨[], rfl⟩
  | cons e m ih =>
    obtain ⟨g, hg⟩ := this e (by simp)
    obtain ⟨m', rfl⟩ := ih (fun e he => this e (List.mem_cons_of_mem _ he))
    refine ⟨(e.1, g) :: m', ?_⟩
    obtain ⟨k, v⟩ := e
    simp only at hg
    subst hg; rfl

/-- `NewPublic` panics exactly on a nil share or a zero ID. -/
theorem newPublic_panic_iff (ord : MapOrder) (m : GoMap (Option G)) (hwf : m.WF) (t : UInt16) :
    newPublic ord m t = .panic ↔ (0 : ID) ∈ m.keys ∨ ∃ i ∈ m.keys, m.get? i = some none := by
  constructor
  · intro h
    by_contra hc
    push Not at hc
    obtain ⟨h0, hs⟩ := hc
    obtain ⟨m', rfl⟩ := exists_shares m (by
      intro i hi
      obtain ⟨v, hv⟩ := GoMap.mem_keys_iff.mp hi
      cases v with
      | none => exact absurd hv (hs i hi)
      | some g => exact ⟨g, hv⟩) hwf
    have hwf' : m'.WF := by unfold GoMap.WF at hwf ⊢; rwa [GoMap.keys_map] at hwf
    rw [GoMap.keys_map] at h0
    rw [newPublic_eq ord m' hwf' h0] at h
    split_ifs at h
  · intro h
    have hkeys : (ord.order _ m).keys.Perm m.keys := (ord.perm _ m).map Prod.fst
    unfold newPublic
    simp only
    cases hg : computeGroupKey (IDSlice.new (ord.order _ m).keys) m with
    | panic => rfl
    | err e => exact absurd hg (computeGroupKeyLoop_ne_err _ _ _ _ _)
    | ok r =>
      exfalso
      have hall := computeGroupKeyLoop_ok hg
      rcases h with h | ⟨i, hi, hn⟩
      · exact (hall 0 (IDSlice.mem_new.mpr (hkeys.mem_iff.mpr h))).1 rfl
      · obtain ⟨_, g, hg'⟩ := hall i (IDSlice.mem_new.mpr (hkeys.mem_iff.mpr hi))
        rw [hn] at hg'
        simp at hg'

/-- The shares of a polynomial in the exponent, interpolated over at least `degree + 1` parties, give its constant. -/
theorem interp_poly (ids : List ID) (hnd : ids.Nodup) (poly : Poly) (hl : poly.length ≤ ids.length) :
    (ids.map fun i => ID.lagrangeVal i ids * Spec.evalAt poly i.val).sum = poly.getD 0 0 := by
  have h := ID.lagrangeVal_sum hnd (Spec.toPoly poly) ((toPoly_degree_lt poly).trans_le (by exact_mod_cast hl))
  simp only [toPoly_eval] at h
  rw [h]
  cases poly with
  | nil => simp
  | cons a p => rw [evalAt_cons]; simp

theorem sum_smul_base (l : List ID) (f : ID → Scalar) : (l.map fun i => f i • (base : G)).sum = (l.map f).sum • (base : G) := by
  induction l with
  | nil => simp
  | cons a l ih => simp [ih, add_smul]

theorem generateSecretsLoop_eq (poly : Poly) (ids : List ID) (hnd : ids.Nodup) (h0 : (0 : ID) ∉ ids)
    (acc : GoMap (SecretShare G)) (hd : ∀ i ∈ ids, i ∉ acc.keys) :
    generateSecretsLoop poly ids acc =
      .ok (acc ++ ids.map fun i => (i, SecretShare.new i (Spec.evalAt poly i.val))) := by
  induction ids generalizing acc with
  | nil => simp [generateSecretsLoop]
  | cons a ids ih =>
    simp only [List.mem_cons, not_or] at h0
    have ha : a.val ≠ 0 := fun h => h0.1 (ID.val_eq_zero.mp h).symm
    rw [generateSecretsLoop, ID.scalar_eq, Outcome.ok_bind, Poly.evaluate_ne_zero _ ha, Outcome.ok_bind,
      GoMap.set_of_not_mem _ (hd a (by simp)), ih (List.nodup_cons.mp hnd).2 h0.2]
    · simp
    · intro i hi
      unfold GoMap.keys
      simp only [List.map_append, List.map_cons, List.map_nil, List.mem_append, List.mem_singleton, not_or]
      refine ⟨hd i (List.mem_cons_of_mem _ hi), ?_⟩
      rintro rfl
      exact (List.nodup_cons.mp hnd).1 hi

end Verif
