import Verif.Lemmas.JsonText
import Verif.Lemmas.Eddsa

/-!
Reading the public data of a key and the file of keys, against the specification of fields.
-/

namespace Verif.Json

open Verif.Spec.Json

variable {G : Type} [RGroup G]

/-! ## Maps -/

section Maps

variable {α : Type}

/-- The map with the given entries, later ones overwriting earlier ones. -/
def setAll (m : GoMap α) (es : List (ID × α)) : GoMap α := es.foldl (fun m e => m.set e.1 e.2) m

theorem setAll_append (m : GoMap α) (es es' : List (ID × α)) : setAll m (es ++ es') = setAll (setAll m es) es' := List.foldl_append ..

theorem setAll_get? (es : List (ID × α)) (id : ID) : (setAll [] es).get? id = lastEntry es id := by
  induction es using List.reverseRecOn with
  | nil => rfl
  | append_singleton es e ih =>
    rw [setAll_append]
    show ((setAll [] es).set e.1 e.2).get? id = _
    rw [GoMap.get?_set, ih]
    unfold lastEntry
    rw [List.reverse_append, List.reverse_singleton, List.singleton_append, List.find?_cons]
    by_cases h : id = e.1
    · rw [if_pos h, h]; simp
    · have h' : (e.1 == id) = false := by simpa using fun hh => h hh.symm
      rw [if_neg h, h']

theorem setAll_wf {m : GoMap α} (h : m.WF) (es : List (ID × α)) : (setAll m es).WF := by
  induction es generalizing m with
  | nil => exact h
  | cons e es ih => exact ih (h.set _ _)

theorem setAll_fresh (es : List (ID × α)) (m : GoMap α) (h : (m.keys ++ es.map Prod.fst).Nodup) : setAll m es = m ++ es := by
  induction es generalizing m with
  | nil => simp [setAll]
  | cons e es ih =>
    have he : e.1 ∉ m.keys := by
      intro hm
      rw [List.map_cons, List.nodup_append] at h
      exact h.2.2 _ hm _ (List.mem_cons_self ..) rfl
    show setAll (m.set e.1 e.2) es = _
    rw [GoMap.set_of_not_mem _ he, ih]
    · simp
    · unfold GoMap.keys at h ⊢
      simpa [List.append_assoc] using h

end Maps

theorem key_iff (k : Bytes) (id : ID) : ID.unmarshalText k = .ok id ↔ KeyIs k id := Props.C02_unmarshalText_exact k id

/-! ## The public data of a key -/

theorem elementText_iff (s : Bytes) (g : G) : elementText s = .ok g ↔ Base64Is s (RGroup.bytes g) := by
  rw [← base64_iff]
  unfold elementText
  cases h : Base64.decode s with
  | none => simp
  | some b =>
    rw [Outcome.orErr_some, Outcome.ok_bind]
    cases hb : (RGroup.setCanonicalBytes b : Option G) with
    | none =>
      simp only [Outcome.orErr_none, reduceCtorEq, Option.some.injEq, false_iff]
      rintro rfl
      rw [RGroup.set_bytes] at hb
      cases hb
    | some g' =>
      simp only [Outcome.orErr_some, Outcome.ok.injEq, Option.some.injEq]
      constructor
      · rintro rfl; exact (RGroup.bytes_set _ _ hb).symm
      · rintro rfl
        rw [RGroup.set_bytes] at hb
        exact (Option.some.inj hb).symm

theorem elementPtr_iff (v : Value) (g : Option G) : elementPtr v = .ok (g, false) ↔ ElementIs RGroup.bytes v g := by
  unfold ElementIs
  match v with
  | .null => simp [elementPtr, eq_comm]
  | .bool _ => simp [elementPtr]
  | .num _ => simp [elementPtr]
  | .arr _ => simp [elementPtr]
  | .obj _ => simp [elementPtr]
  | .str s =>
    rw [elementPtr]
    simp only [Outcome.bind_eq_ok, elementText_iff, Outcome.pure_def, Outcome.ok.injEq, Prod.mk.injEq, and_true]
    constructor
    · rintro ⟨x, h, rfl⟩; exact Or.inr ⟨s, x, rfl, rfl, h⟩
    · rintro (⟨h, _⟩ | ⟨s', x, h, rfl, hb⟩)
      · cases h
      · cases h; exact ⟨x, hb, rfl⟩

theorem publicKeyPtr_iff (v : Value) (g : Option G) : publicKeyPtr v = .ok g ↔ ElementIs RGroup.bytes v g := by
  unfold ElementIs
  match v with
  | .null => simp [publicKeyPtr, eq_comm]
  | .bool _ => simp [publicKeyPtr]
  | .num _ => simp [publicKeyPtr]
  | .arr _ => simp [publicKeyPtr]
  | .obj _ => simp [publicKeyPtr]
  | .str s =>
    rw [publicKeyPtr]
    simp only [Outcome.bind_eq_ok, elementText_iff, Outcome.pure_def, Outcome.ok.injEq]
    constructor
    · rintro ⟨x, h, rfl⟩; exact Or.inr ⟨s, x, rfl, rfl, h⟩
    · rintro (⟨h, _⟩ | ⟨s', x, h, rfl, hb⟩)
      · cases h
      · cases h; exact ⟨x, hb, rfl⟩

theorem sharesMembers_bad (l : List (Bytes × Value)) (m m' : GoMap (Option G)) : sharesMembers l m true ≠ .ok (m', false) := by
  induction l generalizing m with
  | nil => simp [sharesMembers]
  | cons p l ih =>
    obtain ⟨k, v⟩ := p
    rw [sharesMembers]
    simp only [ne_eq, Outcome.bind_eq_ok, Prod.exists, Bool.true_or, not_exists, not_and]
    exact fun _ _ _ _ _ => ih _

theorem sharesMembers_iff (l : List (Bytes × Value)) (m m' : GoMap (Option G)) :
    sharesMembers l m false = .ok (m', false) ↔
      ∃ es, List.Forall₂ (fun p (x : ID × Option G) => KeyIs p.1 x.1 ∧ ElementIs RGroup.bytes p.2 x.2) l es ∧ m' = setAll m es := by
  induction l generalizing m with
  | nil => simp [sharesMembers, setAll, eq_comm]
  | cons p l ih =>
    obtain ⟨k, v⟩ := p
    rw [sharesMembers]
    simp only [Outcome.bind_eq_ok, Prod.exists, Bool.false_or]
    constructor
    · rintro ⟨e, b, he, id, hid, h⟩
      cases b with
      | true => exact absurd h (sharesMembers_bad _ _ _)
      | false =>
        obtain ⟨es, h1, h2⟩ := (ih _).mp h
        exact ⟨(id, e) :: es, .cons ⟨(key_iff _ _).mp hid, (elementPtr_iff _ _).mp he⟩ h1, h2⟩
    · rintro ⟨es, h, rfl⟩
      cases h with
      | @cons _ x _ es h1 h2 =>
        exact ⟨x.2, false, (elementPtr_iff _ _).mpr h1.2, x.1, (key_iff _ _).mpr h1.1, (ih _).mpr ⟨es, h2, rfl⟩⟩

theorem elementIs_unique {v : Value} {g g' : Option G} (h : ElementIs RGroup.bytes v g) (h' : ElementIs RGroup.bytes v g') : g' = g := by
  have := ((publicKeyPtr_iff _ _).mpr h).symm.trans ((publicKeyPtr_iff _ _).mpr h')
  exact (Outcome.ok.inj this).symm

theorem names_t (k : Bytes) : isField nameT k = true ↔ Names (ascii "t") k := isField_iff (name := nameT) (by decide) k
theorem names_groupKey (k : Bytes) : isField nameGroupKey k = true ↔ Names (ascii "groupkey") k := isField_iff (name := nameGroupKey) (by decide) k
theorem names_sharesMap (k : Bytes) : isField nameSharesMap k = true ↔ Names (ascii "shares") k := isField_iff (name := nameSharesMap) (by decide) k

local notation "TField" => FieldIs (ascii "t") (fun v => v = Value.null) IntIs
local notation "GroupKeyField" => FieldIs (ascii "groupkey") (fun _ => False) (ElementIs RGroup.bytes)

theorem publicMembers_bad (l : List (Bytes × Value)) (out out' : Public.Json G) : publicMembers l out true ≠ .ok (out', false) := by
  induction l generalizing out with
  | nil => simp [publicMembers]
  | cons p l ih =>
    obtain ⟨k, v⟩ := p
    rw [publicMembers.eq_def]
    dsimp only
    split
    · exact ih _
    split
    · simp only [ne_eq, Outcome.bind_eq_ok, not_exists, not_and]
      exact fun _ _ => ih _
    split
    · split
      · exact ih _
      · simp only [ne_eq, Outcome.bind_eq_ok, Prod.exists, Bool.true_or, not_exists, not_and]
        exact fun _ _ _ => ih _
      · exact ih _
    · exact ih _

theorem publicMembers_iff (l : List (Bytes × Value)) (out out' : Public.Json G) (e : List (ID × Option G)) (he : out.shares = setAll [] e) :
    publicMembers l out false = .ok (out', false) ↔ TField out.threshold l out'.threshold ∧ GroupKeyField out.groupKey l out'.groupKey ∧
      ∃ es, MapField (ascii "shares") (ElementIs RGroup.bytes) e l es ∧ out'.shares = setAll [] es := by
  induction l generalizing out e with
  | nil =>
    rw [publicMembers, FieldIs.nil_iff, FieldIs.nil_iff]
    obtain ⟨_, _, _⟩ := out
    obtain ⟨_, _, _⟩ := out'
    simp only [Outcome.ok.injEq, Prod.mk.injEq, Public.Json.mk.injEq, and_true] at he ⊢
    constructor
    · rintro ⟨rfl, rfl, rfl⟩; exact ⟨rfl, rfl, e, .done, he⟩
    · rintro ⟨rfl, rfl, es, h, rfl⟩
      cases h
      exact ⟨rfl, rfl, he⟩
  | cons p l ih =>
    obtain ⟨k, v⟩ := p
    rw [publicMembers.eq_def]
    dsimp only
    by_cases h1 : isField nameT k = true
    · have hn := (names_t k).mp h1
      have hg : ¬ Names (ascii "groupkey") k := names_unique (by decide) (by decide) (by decide) hn
      have hs : ¬ Names (ascii "shares") k := names_unique (by decide) (by decide) (by decide) hn
      rw [if_pos h1]
      rw [Bool.false_or, FieldIs.step (upd := decodeInt) decodeInt_keeps decodeInt_sets decodeInt_good intIs_null hn,
        FieldIs.skip (fun h => hg h.1) (fun h => absurd h hg)]
      have hm : ∀ es, MapField (ascii "shares") (ElementIs (RGroup.bytes (G := G))) e ((k, v) :: l) es ↔
          MapField (ascii "shares") (ElementIs RGroup.bytes) e l es := fun es =>
        ⟨fun h => by cases h with | other _ h => exact h | reset h _ => exact absurd h hs | add h _ _ => exact absurd h hs, .other hs⟩
      simp only [hm]
      cases hb : (decodeInt out.threshold v).2 with
      | true => simp [publicMembers_bad]
      | false => rw [ih ⟨(decodeInt out.threshold v).1, _, _⟩ e he]; simp
    rw [if_neg h1]
    have h1' : ¬ Names (ascii "t") k := fun h => h1 ((names_t k).mpr h)
    rw [FieldIs.skip (name := ascii "t") (fun h => h1' h.1) (fun h => absurd h h1')]
    by_cases h2 : isField nameGroupKey k = true
    · have hn := (names_groupKey k).mp h2
      have hs : ¬ Names (ascii "shares") k := names_unique (by decide) (by decide) (by decide) hn
      rw [if_pos h2]
      have hm : ∀ es, MapField (ascii "shares") (ElementIs (RGroup.bytes (G := G))) e ((k, v) :: l) es ↔
          MapField (ascii "shares") (ElementIs RGroup.bytes) e l es := fun es =>
        ⟨fun h => by cases h with | other _ h => exact h | reset h _ => exact absurd h hs | add h _ _ => exact absurd h hs, .other hs⟩
      simp only [hm, Outcome.bind_eq_ok, publicKeyPtr_iff]
      by_cases hx : ∃ x, ElementIs (RGroup.bytes (G := G)) v x
      · obtain ⟨x, hx⟩ := hx
        rw [FieldIs.set hn hx (fun h => h) (fun y hy => elementIs_unique hx hy)]
        constructor
        · rintro ⟨y, hy, h⟩
          rw [elementIs_unique hx hy] at h
          exact (ih ⟨out.threshold, x, out.shares⟩ e he).mp h
        · intro h
          exact ⟨x, hx, (ih ⟨out.threshold, x, out.shares⟩ e he).mpr h⟩
      · constructor
        · rintro ⟨y, hy, _⟩; exact absurd ⟨y, hy⟩ hx
        · rintro ⟨_, h, _⟩; exact absurd h (FieldIs.bad hn (fun h => h) hx)
    rw [if_neg h2]
    have h2' : ¬ Names (ascii "groupkey") k := fun h => h2 ((names_groupKey k).mpr h)
    rw [FieldIs.skip (name := ascii "groupkey") (fun h => h2' h.1) (fun h => absurd h h2')]
    by_cases h3 : isField nameSharesMap k = true
    · have hn := (names_sharesMap k).mp h3
      rw [if_pos h3]
      have hbad : (∀ s, v ≠ .obj s) → v ≠ .null → ∀ es, ¬ MapField (ascii "shares") (ElementIs (RGroup.bytes (G := G))) e ((k, v) :: l) es := by
        intro h4 h5 es h
        cases h with
        | other h _ => exact h hn
        | reset _ _ => exact h5 rfl
        | add _ _ _ => exact h4 _ rfl
      match v, hbad with
      | .null, _ =>
        dsimp only
        rw [ih ⟨_, _, _⟩ [] rfl]
        have hm : ∀ es, MapField (ascii "shares") (ElementIs (RGroup.bytes (G := G))) e ((k, .null) :: l) es ↔
            MapField (ascii "shares") (ElementIs RGroup.bytes) [] l es := fun es =>
          ⟨fun h => by cases h with | other h _ => exact absurd hn h | reset _ h => exact h, .reset hn⟩
        simp only [hm]
      | .bool _, hbad => simp [publicMembers_bad, hbad]
      | .num _, hbad => simp [publicMembers_bad, hbad]
      | .str _, hbad => simp [publicMembers_bad, hbad]
      | .arr _, hbad => simp [publicMembers_bad, hbad]
      | .obj s, _ =>
        simp only [Outcome.bind_eq_ok, Prod.exists, Bool.false_or]
        constructor
        · rintro ⟨m, b, hm, h⟩
          cases b with
          | true => exact absurd h (publicMembers_bad _ _ _)
          | false =>
            obtain ⟨es, h4, rfl⟩ := (sharesMembers_iff _ _ _).mp hm
            obtain ⟨g1, g2, es', g3, g4⟩ := (ih ⟨_, _, _⟩ (e ++ es) (by rw [setAll_append, he])).mp h
            exact ⟨g1, g2, es', .add hn h4 g3, g4⟩
        · rintro ⟨g1, g2, es', g3, g4⟩
          cases g3 with
          | other h _ => exact absurd hn h
          | @add _ _ _ es _ _ _ h4 h5 =>
            refine ⟨setAll out.shares es, false, (sharesMembers_iff _ _ _).mpr ⟨es, h4, rfl⟩, ?_⟩
            exact (ih ⟨_, _, _⟩ (e ++ es) (by rw [setAll_append, he])).mpr ⟨g1, g2, es', h5, g4⟩
    · rw [if_neg h3]
      have hs : ¬ Names (ascii "shares") k := fun h => h3 ((names_sharesMap k).mpr h)
      have hm : ∀ es, MapField (ascii "shares") (ElementIs (RGroup.bytes (G := G))) e ((k, v) :: l) es ↔
          MapField (ascii "shares") (ElementIs RGroup.bytes) e l es := fun es =>
        ⟨fun h => by cases h with | other _ h => exact h | reset h _ => exact absurd h hs | add h _ _ => exact absurd h hs, .other hs⟩
      simp only [hm]
      exact ih _ e he

open Polynomial in
/-- Interpolation as the code computes it is the value at zero of the polynomial through the points. -/
theorem interp_iff (m : GoMap G) (hwf : m.WF) (key : G) : key = interp m ↔ Interpolates m.length m.get? key := by
  have hcard : m.keys.length = m.length := GoMap.keys_length m
  have hsum : ∀ f : Scalar[X], f.degree < m.length → (∀ id g, m.get? id = some g → g = f.eval (id.toNat : Scalar) • base) →
      interp m = f.eval 0 • (base : G) := by
    intro f hf hg
    unfold interp
    rw [← ID.lagrangeVal_sum hwf f (by rw [hcard]; exact hf), ← sum_smul_base]
    unfold GoMap.keys
    rw [List.map_map]
    congr 1
    apply List.map_congr_left
    rintro ⟨id, g⟩ hm
    rw [Function.comp_apply, mul_smul]
    congr 1
    exact hg id g ((GoMap.get?_eq_some_iff hwf).mpr hm)
  unfold Interpolates
  constructor
  · rintro rfl
    choose dlog hdlog using RGroup.base_gen (G := G)
    have hinj : Set.InjOn ID.val (m.keys.toFinset : Set ID) := fun a _ b _ h => ID.val_injective h
    let f := Lagrange.interpolate m.keys.toFinset ID.val fun id => dlog ((m.get? id).getD 0)
    have hf : f.degree < m.length := by
      have := Lagrange.degree_interpolate_lt (fun id => dlog ((m.get? id).getD 0)) hinj
      rwa [List.toFinset_card_of_nodup hwf, hcard] at this
    have hg : ∀ id g, m.get? id = some g → g = f.eval (id.toNat : Scalar) • base := by
      intro id g h
      have hk : id ∈ m.keys.toFinset := List.mem_toFinset.mpr (GoMap.mem_keys_iff.mpr ⟨g, h⟩)
      have : f.eval (ID.val id) = dlog g := by
        rw [Lagrange.eval_interpolate_at_node _ hinj hk, h]; rfl
      show g = f.eval (ID.val id) • base
      rw [this, hdlog]
    exact ⟨f, hf, hg, hsum f hf hg⟩
  · rintro ⟨f, hf, hg, rfl⟩
    exact (hsum f hf hg).symm

theorem unmarshalJSON_iff (ord : MapOrder) (out : Public.Json G) (hwf : out.shares.WF) (p : Public G) :
    Public.unmarshalJSON ord out = .ok p ↔ p.threshold = UInt16.ofNat (out.threshold % 65536).toNat ∧ out.groupKey = some p.groupKey ∧
      out.shares = (p.shares.map fun e => (e.1, some e.2)) ∧ (0 : ID) ∉ p.shares.keys ∧ p.partyIDs = IDSlice.new p.shares.keys ∧
      (p.threshold = 65535 ∨ p.threshold.toNat + 1 ≤ p.shares.length) ∧ p.groupKey = interp p.shares := by
  unfold Public.unmarshalJSON
  generalize UInt16.ofNat (out.threshold % 65536).toNat = t
  by_cases hp : (0 : ID) ∈ out.shares.keys ∨ ∃ i ∈ out.shares.keys, out.shares.get? i = some none
  · rw [(newPublic_panic_iff ord out.shares hwf t).mpr hp]
    constructor
    · intro h; cases h
    · rintro ⟨-, -, h, h0, -⟩
      rw [h, GoMap.keys_map] at hp
      rcases hp with hp | ⟨i, _, hi⟩
      · exact absurd hp h0
      · rw [GoMap.get?_map] at hi
        cases hg : p.shares.get? i <;> rw [hg] at hi <;> cases hi
  · push Not at hp
    obtain ⟨m, hm⟩ := exists_shares out.shares (by
      intro i hi
      obtain ⟨v, hv⟩ := GoMap.mem_keys_iff.mp hi
      cases v with
      | none => exact absurd hv (hp.2 i hi)
      | some g => exact ⟨g, hv⟩) hwf
    have hwf' : m.WF := by rw [hm] at hwf; unfold GoMap.WF at hwf ⊢; rwa [GoMap.keys_map] at hwf
    have h0 : (0 : ID) ∉ m.keys := by rw [← GoMap.keys_map m some, ← hm]; exact hp.1
    have hinj : ∀ m' : GoMap G, out.shares = (m'.map fun e => (e.1, some e.2)) ↔ m' = m := by
      intro m'
      rw [hm]
      constructor
      · intro h
        have := congrArg (List.filterMap (fun x => match x with | (id, s) => s.map fun g => (id, g))) h
        rw [filterMap_some, filterMap_some] at this
        exact this.symm
      · rintro rfl; rfl
    rw [hinj]
    rw [hm, newPublic_eq ord m hwf' h0]
    obtain ⟨ids, t', sh, gk⟩ := p
    dsimp only
    split_ifs with hc
    · constructor
      · intro h; cases h
      · rintro ⟨rfl, -, rfl, -, -, h, -⟩
        rcases h with h | h
        · exact absurd h hc.1
        · omega
    · rw [Outcome.ok_bind, computeGroupKey_eq m hwf' h0 (IDSlice.new_perm _), Outcome.ok_bind]
      cases hk : out.groupKey with
      | none =>
        constructor
        · intro h; cases h
        · rintro ⟨-, h, -⟩; cases h
      | some k =>
        rw [Outcome.deref_some, Outcome.ok_bind]
        by_cases he : PublicKey.equal (interp m) k = false
        · rw [Outcome.failIf_pos he]
          constructor
          · intro h; cases h
          · rintro ⟨-, h, rfl, -, -, -, h'⟩
            cases h
            rw [h'] at he
            simp [PublicKey.equal] at he
        · rw [Outcome.failIf_neg he, Outcome.ok_bind]
          simp only [PublicKey.equal, decide_eq_false_iff_not, not_not] at he
          simp only [Outcome.pure_def, Outcome.ok.injEq, Public.mk.injEq, Option.some.injEq]
          constructor
          · rintro ⟨rfl, rfl, rfl, rfl⟩
            refine ⟨rfl, he.symm, rfl, h0, rfl, ?_, rfl⟩
            by_cases h65 : t = 65535
            · exact Or.inl h65
            · exact Or.inr (Nat.le_of_not_lt fun h => hc ⟨h65, h⟩)
          · rintro ⟨rfl, rfl, rfl, -, rfl, -, rfl⟩
            exact ⟨rfl, rfl, rfl, rfl⟩

theorem new_iff {ids : List ID} {m : GoMap G} (hwf : m.WF) :
    ids = IDSlice.new m.keys ↔ ids.Pairwise (· < ·) ∧ ∀ id, id ∈ ids ↔ ∃ g, m.get? id = some g := by
  have h1 : (IDSlice.new m.keys).Pairwise (· < ·) := Props.C04_newIDSlice_strict hwf
  have h2 : ∀ id, id ∈ IDSlice.new m.keys ↔ ∃ g, m.get? id = some g := fun id => by rw [IDSlice.mem_new, GoMap.mem_keys_iff]
  constructor
  · rintro rfl; exact ⟨h1, h2⟩
  · rintro ⟨h3, h4⟩
    have nd : ∀ {l : List ID}, l.Pairwise (· < ·) → l.Nodup := fun h => h.imp fun h => by rintro rfl; exact UInt16.lt_irrefl _ h
    refine List.Perm.eq_of_pairwise (fun a b _ _ h h' => absurd (UInt16.lt_trans h h') (UInt16.lt_irrefl _)) h3 h1 ?_
    exact (List.perm_ext_iff_of_nodup (nd h3) (nd h1)).mpr fun id => (h4 id).trans (h2 id).symm

/-- What `UnmarshalJSON` of `Public` returns is what the bytes say. -/
theorem publicJson_sound {ord : MapOrder} {v : Value} {p : Public G} (h : publicJson ord v = .ok p) : PublicIs v p := by
  unfold publicJson at h
  match v, h with
  | .null, h =>
    rw [unmarshalJSON_iff ord _ (by exact GoMap.wf_nil)] at h
    obtain ⟨h1, h2, -⟩ := h
    cases h2
  | .obj l, h =>
    simp only [Outcome.bind_eq_ok, Prod.exists] at h
    obtain ⟨out, bad, hm, h⟩ := h
    cases bad with
    | true => cases h
    | false =>
      obtain ⟨g1, g2, es, g3, g4⟩ := (publicMembers_iff l ⟨0, none, []⟩ out [] rfl).mp hm
      have hwf : out.shares.WF := g4 ▸ setAll_wf GoMap.wf_nil es
      obtain ⟨k1, k2, k3, k4, k5, k6, k7⟩ := (unmarshalJSON_iff ord out hwf p).mp h
      have hwf' : p.shares.WF := by rw [k3] at hwf; unfold GoMap.WF at hwf ⊢; rwa [GoMap.keys_map] at hwf
      have hl : p.partyIDs.length = p.shares.length := by rw [k5, (IDSlice.new_perm _).length_eq, GoMap.keys_length]
      have hlast : ∀ id, lastEntry es id = (p.shares.get? id).map some := by
        intro id
        rw [← setAll_get?, ← g4, k3]
        exact GoMap.get?_map _ _ _
      refine ⟨l, out.threshold, es, rfl, g1, k2 ▸ g2, g3, (low16_iff _ _).mp k1, hwf', hlast, ?_, ((new_iff hwf').mp k5).1, ((new_iff hwf').mp k5).2,
        hl ▸ k6, ?_⟩
      · rw [hlast, GoMap.get?_eq_none.mpr k4]; rfl
      · rw [hl]; exact (interp_iff _ hwf' _).mp k7

theorem interp_perm {m m' : GoMap G} (h : m.Perm m') : interp m = interp m' := by
  unfold interp
  rw [(h.map _).sum_eq]
  congr 1
  apply List.map_congr_left
  intro e _
  rw [ID.lagrangeVal_perm (show m.keys.Perm m'.keys from h.map Prod.fst)]

/-- Bytes that say what a valid key is are accepted. -/
theorem publicJson_complete (ord : MapOrder) {v : Value} {p : Public G} (h : PublicIs v p) :
    ∃ p', publicJson ord v = .ok p' ∧ SamePublic p' p := by
  obtain ⟨l, t, es, rfl, g1, g2, g3, k1, hwf', hlast, k4, k5, k5', k6, k7⟩ := h
  have hids : p.partyIDs = IDSlice.new p.shares.keys := (new_iff hwf').mpr ⟨k5, k5'⟩
  have hl : p.partyIDs.length = p.shares.length := by rw [hids, (IDSlice.new_perm _).length_eq, GoMap.keys_length]
  have hm := (publicMembers_iff l ⟨0, none, []⟩ ⟨t, some p.groupKey, setAll [] es⟩ [] rfl).mpr ⟨g1, g2, es, g3, rfl⟩
  have hwf : (setAll [] es).WF := setAll_wf GoMap.wf_nil es
  obtain ⟨m, hm'⟩ := exists_shares (setAll [] es) (by
    intro i hi
    obtain ⟨w, hw⟩ := GoMap.mem_keys_iff.mp hi
    rw [setAll_get?, hlast] at hw
    rw [setAll_get?, hlast]
    cases hg : p.shares.get? i with
    | none => rw [hg] at hw; cases hw
    | some g => exact ⟨g, rfl⟩) hwf
  have hwfm : m.WF := by rw [hm'] at hwf; unfold GoMap.WF at hwf ⊢; rwa [GoMap.keys_map] at hwf
  have hperm : m.Perm p.shares := by
    refine GoMap.perm_of_get? hwfm hwf' fun id => ?_
    have := hlast id
    rw [← setAll_get?, hm'] at this
    rw [GoMap.get?_map] at this
    exact Option.map_injective (Option.some_injective _) this
  have hkeys : m.keys.Perm p.shares.keys := hperm.map Prod.fst
  refine ⟨⟨p.partyIDs, p.threshold, m, p.groupKey⟩, ?_, rfl, rfl, rfl, hperm⟩
  unfold publicJson
  simp only [hm, Outcome.ok_bind, Bool.false_eq_true, if_false]
  rw [unmarshalJSON_iff ord _ hwf]
  refine ⟨(low16_iff _ _).mpr k1, rfl, hm', ?_, ?_, ?_, ?_⟩
  · show (0 : ID) ∉ m.keys
    intro h0
    obtain ⟨g, hg⟩ := GoMap.mem_keys_iff.mp (hkeys.mem_iff.mp h0)
    rw [hlast, hg] at k4
    cases k4
  · show p.partyIDs = IDSlice.new m.keys
    rw [hids, IDSlice.new_eq_of_perm hkeys]
  · show p.threshold = 65535 ∨ p.threshold.toNat + 1 ≤ m.length
    rw [hperm.length_eq, ← hl]; exact k6
  · show p.groupKey = interp m
    rw [interp_perm hperm, interp_iff _ hwf', ← hl]
    exact k7

/-! ## The file of keys -/

theorem secretPtr_iff (v : Value) (o : Option (SecretShare G)) : secretPtr v = .ok o ↔ PtrIs SecretShareIs v o := by
  unfold PtrIs
  by_cases hv : v = .null
  · subst hv
    simp only [secretPtr, Outcome.ok.injEq]
    constructor
    · rintro rfl; exact Or.inl ⟨trivial, rfl⟩
    · rintro (⟨_, rfl⟩ | ⟨x, rfl, l, i, h, _⟩)
      · rfl
      · cases h
  · have : secretPtr (G := G) v = (do let s ← secretShare v; return some s) := by
      cases v <;> first | rfl | exact absurd rfl hv
    rw [this]
    simp only [Outcome.bind_eq_ok, secretShare_iff, Outcome.pure_def, Outcome.ok.injEq, hv, false_and, false_or]
    constructor
    · rintro ⟨x, h, rfl⟩; exact ⟨x, rfl, h⟩
    · rintro ⟨x, rfl, h⟩; exact ⟨x, h, rfl⟩

theorem secretsMembers_iff (l : List (Bytes × Value)) (m m' : GoMap (Option (SecretShare G))) :
    secretsMembers l m = .ok m' ↔
      ∃ es, List.Forall₂ (fun p (x : ID × Option (SecretShare G)) => KeyIs p.1 x.1 ∧ PtrIs SecretShareIs p.2 x.2) l es ∧ m' = setAll m es := by
  induction l generalizing m with
  | nil => simp [secretsMembers, setAll, eq_comm]
  | cons p l ih =>
    obtain ⟨k, v⟩ := p
    rw [secretsMembers]
    simp only [Outcome.bind_eq_ok]
    constructor
    · rintro ⟨s, hs, id, hid, h⟩
      obtain ⟨es, h1, h2⟩ := (ih _).mp h
      exact ⟨(id, s) :: es, .cons ⟨(key_iff _ _).mp hid, (secretPtr_iff _ _).mp hs⟩ h1, h2⟩
    · rintro ⟨es, h, rfl⟩
      cases h with
      | @cons _ x _ es h1 h2 => exact ⟨x.2, (secretPtr_iff _ _).mpr h1.2, x.1, (key_iff _ _).mpr h1.1, (ih _).mpr ⟨es, h2, rfl⟩⟩

theorem publicPtr_ne {ord : MapOrder} {v : Value} (hv : v ≠ .null) :
    publicPtr (G := G) ord v = (do let p ← publicJson ord v; return some p) := by
  cases v <;> first | rfl | exact absurd rfl hv

theorem names_secrets (k : Bytes) : isField nameSecrets k = true ↔ Names (ascii "Secrets") k := isField_iff (name := nameSecrets) (by decide) k
theorem names_shares (k : Bytes) : isField nameShares k = true ↔ Names (ascii "Shares") k := isField_iff (name := nameShares) (by decide) k

theorem fileMembers_bad (ord : MapOrder) (l : List (Bytes × Value)) (out out' : Keys G) : fileMembers ord l out true ≠ .ok (out', false) := by
  induction l generalizing out with
  | nil => simp [fileMembers]
  | cons p l ih =>
    obtain ⟨k, v⟩ := p
    rw [fileMembers.eq_def]
    dsimp only
    split
    · split
      · exact ih _
      · simp only [ne_eq, Outcome.bind_eq_ok, not_exists, not_and]
        exact fun _ _ => ih _
      · exact ih _
    split
    · simp only [ne_eq, Outcome.bind_eq_ok, not_exists, not_and]
      exact fun _ _ => ih _
    · exact ih _

theorem fileMembers_iff (ord : MapOrder) (l : List (Bytes × Value)) (out out' : Keys G) (e : List (ID × Option (SecretShare G)))
    (he : out.secrets = setAll [] e) :
    fileMembers ord l out false = .ok (out', false) ↔
      FieldIs (ascii "Shares") (fun _ => False) (fun v o => publicPtr ord v = .ok o) out.shares l out'.shares ∧
      ∃ es, MapField (ascii "Secrets") (PtrIs SecretShareIs) e l es ∧ out'.secrets = setAll [] es := by
  induction l generalizing out e with
  | nil =>
    rw [fileMembers, FieldIs.nil_iff]
    obtain ⟨_, _⟩ := out
    obtain ⟨_, _⟩ := out'
    simp only [Outcome.ok.injEq, Prod.mk.injEq, Keys.mk.injEq, and_true] at he ⊢
    constructor
    · rintro ⟨rfl, rfl⟩; exact ⟨rfl, e, .done, he⟩
    · rintro ⟨rfl, es, h, rfl⟩
      cases h
      exact ⟨he, rfl⟩
  | cons p l ih =>
    obtain ⟨k, v⟩ := p
    rw [fileMembers.eq_def]
    dsimp only
    by_cases h1 : isField nameSecrets k = true
    · have hn := (names_secrets k).mp h1
      have hs : ¬ Names (ascii "Shares") k := names_unique (by decide) (by decide) (by decide) hn
      rw [if_pos h1, FieldIs.skip (fun h => hs h.1) (fun h => absurd h hs)]
      have hbad : (∀ s, v ≠ .obj s) → v ≠ .null → ∀ es, ¬ MapField (ascii "Secrets") (PtrIs (SecretShareIs (G := G))) e ((k, v) :: l) es := by
        intro h4 h5 es h
        cases h with
        | other h _ => exact h hn
        | reset _ _ => exact h5 rfl
        | add _ _ _ => exact h4 _ rfl
      match v, hbad with
      | .null, _ =>
        dsimp only
        rw [ih ⟨_, _⟩ [] rfl]
        have hm : ∀ es, MapField (ascii "Secrets") (PtrIs (SecretShareIs (G := G))) e ((k, .null) :: l) es ↔
            MapField (ascii "Secrets") (PtrIs SecretShareIs) [] l es := fun es =>
          ⟨fun h => by cases h with | other h _ => exact absurd hn h | reset _ h => exact h, .reset hn⟩
        simp only [hm]
      | .bool _, hbad => simp [fileMembers_bad, hbad]
      | .num _, hbad => simp [fileMembers_bad, hbad]
      | .str _, hbad => simp [fileMembers_bad, hbad]
      | .arr _, hbad => simp [fileMembers_bad, hbad]
      | .obj s, _ =>
        simp only [Outcome.bind_eq_ok, secretsMembers_iff]
        constructor
        · rintro ⟨m, ⟨es, h4, rfl⟩, h⟩
          obtain ⟨g2, es', g3, g4⟩ := (ih ⟨_, _⟩ (e ++ es) (by rw [setAll_append, he])).mp h
          exact ⟨g2, es', .add hn h4 g3, g4⟩
        · rintro ⟨g2, es', g3, g4⟩
          cases g3 with
          | other h _ => exact absurd hn h
          | @add _ _ _ es _ _ _ h4 h5 =>
            refine ⟨setAll out.secrets es, ⟨es, h4, rfl⟩, ?_⟩
            exact (ih ⟨_, _⟩ (e ++ es) (by rw [setAll_append, he])).mpr ⟨g2, es', h5, g4⟩
    rw [if_neg h1]
    have hs : ¬ Names (ascii "Secrets") k := fun h => h1 ((names_secrets k).mpr h)
    have hm : ∀ es, MapField (ascii "Secrets") (PtrIs (SecretShareIs (G := G))) e ((k, v) :: l) es ↔
        MapField (ascii "Secrets") (PtrIs SecretShareIs) e l es := fun es =>
      ⟨fun h => by cases h with | other _ h => exact h | reset h _ => exact absurd h hs | add h _ _ => exact absurd h hs, .other hs⟩
    simp only [hm]
    by_cases h2 : isField nameShares k = true
    · have hn := (names_shares k).mp h2
      rw [if_pos h2]
      have hstep : ∀ R : GoRes (Option (Public G)), R = publicPtr ord v →
          ((R.bind fun x => fileMembers ord l ⟨out.secrets, x⟩ false) = .ok (out', false) ↔
            FieldIs (ascii "Shares") (fun _ => False) (fun v o => publicPtr ord v = .ok o) out.shares ((k, v) :: l) out'.shares ∧
            ∃ es, MapField (ascii "Secrets") (PtrIs SecretShareIs) e l es ∧ out'.secrets = setAll [] es) := by
        intro R hR
        cases R with
        | ok x =>
          rw [FieldIs.set hn (x := x) hR.symm (fun h => h) (fun y hy => (Outcome.ok.inj (hR.trans hy)).symm)]
          exact ih ⟨_, x⟩ e he
        | err er =>
          constructor
          · intro h; cases h
          · rintro ⟨h, _⟩
            exact absurd h (FieldIs.bad hn (fun h => h) (by rintro ⟨x, hx⟩; rw [← hR] at hx; cases hx))
        | panic =>
          constructor
          · intro h; cases h
          · rintro ⟨h, _⟩
            exact absurd h (FieldIs.bad hn (fun h => h) (by rintro ⟨x, hx⟩; rw [← hR] at hx; cases hx))
      exact hstep _ rfl
    · rw [if_neg h2]
      have hs' : ¬ Names (ascii "Shares") k := fun h => h2 ((names_shares k).mpr h)
      rw [FieldIs.skip (fun h => hs' h.1) (fun h => absurd h hs')]
      exact ih _ e he

theorem publicPtr_sound {ord : MapOrder} {v : Value} {o : Option (Public G)} (h : publicPtr ord v = .ok o) : PtrIs PublicIs v o := by
  by_cases hv : v = .null
  · subst hv
    exact Or.inl ⟨rfl, (Outcome.ok.inj h).symm⟩
  · rw [publicPtr_ne hv] at h
    simp only [Outcome.bind_eq_ok, Outcome.pure_def, Outcome.ok.injEq] at h
    obtain ⟨p, hp, rfl⟩ := h
    exact Or.inr ⟨p, rfl, publicJson_sound hp⟩

theorem publicIs_ne_null {p : Public G} : ¬ PublicIs .null p := by
  rintro ⟨l, _, _, h, _⟩
  cases h

theorem publicPtr_complete (ord : MapOrder) {v : Value} {o : Option (Public G)} (h : PtrIs PublicIs v o) :
    ∃ o', publicPtr ord v = .ok o' ∧ Option.Rel SamePublic o' o := by
  rcases h with ⟨rfl, rfl⟩ | ⟨p, rfl, h⟩
  · exact ⟨none, rfl, .none⟩
  · obtain ⟨p', h1, h2⟩ := publicJson_complete ord h
    refine ⟨some p', ?_, .some h2⟩
    rw [publicPtr_ne (by rintro rfl; exact publicIs_ne_null h), h1]
    rfl

/-- What `json.Unmarshal` makes of the file is what the file says. -/
theorem fileJson_sound {ord : MapOrder} {v : Value} {keys : Keys G} (h : fileJson ord v = .ok keys) : KeysIs v keys.secrets.get? keys.shares := by
  unfold fileJson at h
  match v, h with
  | .null, h =>
    cases h
    exact Or.inl ⟨rfl, fun _ => rfl, rfl⟩
  | .obj l, h =>
    simp only [Outcome.bind_eq_ok, Prod.exists] at h
    obtain ⟨out, bad, hm, h⟩ := h
    cases bad with
    | true => cases h
    | false =>
      cases h
      obtain ⟨⟨g1, g1'⟩, es, g2, g3⟩ := (fileMembers_iff ord l ⟨[], none⟩ keys [] rfl).mp hm
      refine Or.inr ⟨l, es, rfl, g2, fun id => by rw [g3, setAll_get?], ?_, ?_⟩
      · intro p hp hn
        rcases g1 p hp hn with h | ⟨x, hx⟩
        · exact Or.inl h
        · exact Or.inr ⟨x, publicPtr_sound hx⟩
      · rcases g1' with ⟨l₁, p, l₂, h1, h2, h3, h4⟩ | h
        · exact Or.inl ⟨l₁, p, l₂, h1, h2, publicPtr_sound h3, h4⟩
        · exact Or.inr h

/-- A file that says what a file of keys is is read. -/
theorem fileJson_complete (ord : MapOrder) {v : Value} {secrets : ID → Option (Option (SecretShare G))} {shares : Option (Public G)}
    (h : KeysIs v secrets shares) :
    ∃ keys, fileJson ord v = .ok keys ∧ (∀ id, keys.secrets.get? id = secrets id) ∧ Option.Rel SamePublic keys.shares shares := by
  rcases h with ⟨rfl, h1, rfl⟩ | ⟨l, es, rfl, h1, h2, h3, h4⟩
  · exact ⟨⟨[], none⟩, rfl, fun id => (h1 id).symm, .none⟩
  · have hall : ∀ p ∈ l, Names (ascii "Shares") p.1 → False ∨ ∃ x, publicPtr (G := G) ord p.2 = .ok x := by
      intro p hp hn
      rcases h3 p hp hn with h | ⟨x, hx⟩
      · exact Or.inl h
      · obtain ⟨o', ho, _⟩ := publicPtr_complete ord hx
        exact Or.inr ⟨o', ho⟩
    have : ∃ o', FieldIs (ascii "Shares") (fun _ => False) (fun v o => publicPtr (G := G) ord v = .ok o) none l o' ∧ Option.Rel SamePublic o' shares := by
      rcases h4 with ⟨l₁, p, l₂, g1, g2, g3, g4⟩ | ⟨g1, rfl⟩
      · obtain ⟨o', ho, hr⟩ := publicPtr_complete ord g3
        exact ⟨o', ⟨hall, Or.inl ⟨l₁, p, l₂, g1, g2, ho, g4⟩⟩, hr⟩
      · exact ⟨none, ⟨hall, Or.inr ⟨g1, rfl⟩⟩, .none⟩
    obtain ⟨o', hf, hr⟩ := this
    refine ⟨⟨setAll [] es, o'⟩, ?_, fun id => by rw [h2, setAll_get?], hr⟩
    unfold fileJson
    simp only [(fileMembers_iff ord l ⟨[], none⟩ ⟨setAll [] es, o'⟩ [] rfl).mpr ⟨hf, es, h1, rfl⟩, Outcome.ok_bind]
    rfl

end Verif.Json
