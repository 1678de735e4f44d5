import Verif.Lemmas.JsonKeys
import Mathlib.Data.Nat.Digits.Lemmas

/-!
What is written says what was to be written.
-/

namespace Verif.Json

open Verif.Spec.Json

variable {G : Type} [RGroup G]

/-! ## Numbers and base64 -/

theorem digit_of_range {c : UInt8} (h : 48 ≤ c.toNat ∧ c.toNat ≤ 57) : Digit c := by
  refine byte_all (p := fun c => 48 ≤ c.toNat ∧ c.toNat ≤ 57 → Digit c) ?_ c h
  unfold Digit
  decide +kernel

theorem formatUint_digits (n : Nat) : ∀ c ∈ ID.formatUint n, 48 ≤ c.toNat ∧ c.toNat ≤ 57 := (Props.formatUint_decimal n).1.2

theorem formatUint_intPart (n : Nat) : IntPart (ID.formatUint n) := by
  by_cases h0 : n = 0
  · subst h0; exact Or.inl rfl
  · right
    have hd := formatUint_digits n
    unfold ID.formatUint at hd ⊢
    rw [if_neg h0] at hd ⊢
    have hne : Nat.digits 10 n ≠ [] := Nat.digits_ne_nil_iff_ne_zero.mpr h0
    obtain ⟨l, d, hl⟩ : ∃ l d, Nat.digits 10 n = l ++ [d] := ⟨_, _, (List.dropLast_append_getLast hne).symm⟩
    have hlast : d ≠ 0 := by
      have := Nat.getLast_digit_ne_zero 10 h0
      simp only [hl, List.getLast_append_singleton] at this
      exact this
    have hlt : d < 10 := Nat.digits_lt_base (b := 10) (m := n) (by omega) (by rw [hl]; simp)
    rw [hl, List.reverse_append, List.reverse_singleton, List.singleton_append, List.map_cons] at hd ⊢
    refine ⟨_, _, rfl, digit_of_range (hd _ (List.mem_cons_self ..)), ?_, fun c hc => digit_of_range (hd c (List.mem_cons_of_mem _ hc))⟩
    rw [← UInt8.toNat_inj.ne, UInt8.toNat_ofNat']
    have : (0x30 : UInt8).toNat = 48 := rfl
    omega

theorem formatInt_number (i : Int) : Number (formatInt i) := by
  unfold formatInt
  split
  · exact ⟨[0x2D], ID.formatUint i.natAbs, [], [], by simp, Or.inr rfl, formatUint_intPart _, Or.inl rfl, Or.inl rfl⟩
  · exact ⟨[], ID.formatUint i.natAbs, [], [], by simp, Or.inl rfl, formatUint_intPart _, Or.inl rfl, Or.inl rfl⟩

theorem formatInt_is (i : Int) (h1 : -2 ^ 63 ≤ i) (h2 : i < 2 ^ 63) : IntIs (.num (formatInt i)) i := by
  unfold formatInt
  obtain ⟨d1, d2⟩ := Props.formatUint_decimal i.natAbs
  split
  · exact ⟨[45], ID.formatUint i.natAbs, rfl, d1, h1, h2, Or.inr ⟨by decide, by rw [d2]; omega⟩⟩
  · exact ⟨[], ID.formatUint i.natAbs, rfl, d1, h1, h2, Or.inl ⟨Or.inl rfl, by rw [d2]; omega⟩⟩

theorem formatUint_plain (n : Nat) : PlainStr (ID.formatUint n) := by
  intro c hc
  have h := formatUint_digits n c hc
  refine ⟨by omega, by omega, ?_, ?_⟩
  · rintro rfl; exact absurd h (by decide)
  · rintro rfl; exact absurd h (by decide)

theorem char_plain (v : Nat) : 32 ≤ (Base64.char v).toNat ∧ (Base64.char v).toNat < 127 ∧ Base64.char v ≠ 34 ∧ Base64.char v ≠ 92 := by
  have key : ∀ v : Fin 64, 32 ≤ (Base64.char v.val).toNat ∧ (Base64.char v.val).toNat < 127 ∧ Base64.char v.val ≠ 34 ∧ Base64.char v.val ≠ 92 := by
    decide +kernel
  rw [← Base64.char_mod]
  exact key ⟨v % 64, Nat.mod_lt _ (by omega)⟩

theorem encode_plain (b : Bytes) : PlainStr (Base64.encode b) := by
  obtain ⟨ds, h⟩ := Base64.encode_digits b
  rw [h.2.1]
  intro c hc
  rcases List.mem_append.mp hc with hc | hc
  · obtain ⟨v, _, rfl⟩ := List.mem_map.mp hc
    exact char_plain v
  · rw [(List.mem_replicate.mp hc).2]
    decide

theorem encode_is (b : Bytes) : Base64Is (Base64.encode b) b := (base64_iff _ _).mp (Base64.decode_encode b)

/-! ## Names -/

theorem names_refl (n : Bytes) : Names n n := by
  induction n with
  | nil => exact .nil
  | cons c n ih => exact .letter (Or.inl rfl) ih

theorem not_names {n k : Bytes} (hn : ∀ c ∈ n, c.toNat < 128) (hk : ∀ c ∈ k, c.toNat < 128) (h : n.map foldByte ≠ k.map foldByte) : ¬ Names n k :=
  fun hh => names_unique hn hk h hh (names_refl k)

/-- A field given exactly once. -/
theorem FieldIs.once {α : Type} {name : Bytes} {keeps : Value → Prop} {sets : Value → α → Prop} {a x : α} {l₁ l₂ : List (Bytes × Value)} {k : Bytes}
    {v : Value} (hn : Names name k) (hs : sets v x) (h1 : ∀ p ∈ l₁, ¬ Names name p.1) (h2 : ∀ p ∈ l₂, ¬ Names name p.1) :
    FieldIs name keeps sets a (l₁ ++ (k, v) :: l₂) x := by
  refine ⟨?_, Or.inl ⟨l₁, (k, v), l₂, rfl, hn, hs, fun q hq hn => absurd hn (h2 q hq)⟩⟩
  intro p hp hn'
  rcases List.mem_append.mp hp with hp | hp
  · exact absurd hn' (h1 p hp)
  rcases List.mem_cons.mp hp with rfl | hp
  · exact Or.inr ⟨x, hs⟩
  · exact absurd hn' (h2 p hp)

/-! ## Secret shares -/

theorem plainMembers_iff (l : List (Bytes × Value)) : PlainMembers l ↔ ∀ p ∈ l, PlainStr p.1 ∧ Plain p.2 := by
  induction l with
  | nil => simp [PlainMembers]
  | cons p l ih =>
    obtain ⟨k, v⟩ := p
    rw [PlainMembers, ih, List.forall_mem_cons]
    tauto

theorem plain_name {n : Bytes} (h : n.all (fun c => decide (32 ≤ c.toNat ∧ c.toNat < 127 ∧ c ≠ 34 ∧ c ≠ 92)) = true) : PlainStr n := by
  intro c hc
  have := List.all_eq_true.mp h c hc
  exact of_decide_eq_true this

theorem ofSecretShare_plain (j : SecretShare.Json) : Plain (ofSecretShare j) := by
  unfold ofSecretShare
  rw [Plain, plainMembers_iff]
  intro p hp
  simp only [List.mem_cons, List.not_mem_nil, or_false] at hp
  rcases hp with rfl | rfl
  · exact ⟨plain_name (n := nameID) (by decide), by rw [Plain]; exact formatInt_number _⟩
  · exact ⟨plain_name (n := nameSecret) (by decide), by rw [Plain]; exact encode_plain _⟩

theorem low16_self (x : UInt16) : Low16 (x.toNat : Int) x := ⟨0, by omega⟩

theorem ofSecretShare_is (sk : SecretShare G) (h : sk.pub = sk.secret • base) : SecretShareIs (ofSecretShare (SecretShare.marshalJSON sk)) sk := by
  have hid := sk.id.toNat_lt
  refine ⟨_, (sk.id.toNat : Int), rfl, ?_, ?_, low16_self _, h⟩
  · refine FieldIs.once (l₁ := []) (names_refl _) (formatInt_is (sk.id.toNat : Int) (by omega) (by omega)) (by simp) ?_
    intro p hp
    simp only [List.mem_cons, List.not_mem_nil, or_false] at hp
    subst hp
    exact not_names (k := nameSecret) (by decide) (by decide) (by decide)
  · refine FieldIs.once (l₁ := [_]) (l₂ := []) (names_refl _) (Or.inr (Or.inl ⟨_, rfl, encode_is _⟩)) ?_ (by simp)
    intro p hp
    simp only [List.mem_cons, List.not_mem_nil, or_false] at hp
    subst hp
    exact not_names (k := nameID) (by decide) (by decide) (by decide)

/-! ## Maps -/

section Maps

variable {α : Type}

/-- The entries of a map in the order in which they are written. -/
def sortedEntries (m : GoMap α) : GoMap α := m.mergeSort fun x y => lessEq (ID.marshalText x.1) (ID.marshalText y.1)

theorem sortedEntries_perm (m : GoMap α) : (sortedEntries m).Perm m := List.mergeSort_perm ..

theorem mapMembers_eq (f : α → Value) (m : GoMap α) : mapMembers f m = (sortedEntries m).map fun e => (ID.marshalText e.1, f e.2) :=
  (List.map_mergeSort (by intro a _ b _; rfl)).symm

theorem lessEq_trans (a b c : Bytes) : lessEq a b = true → lessEq b c = true → lessEq a c = true := by
  induction a generalizing b c with
  | nil => intros; rfl
  | cons x a ih =>
    cases b with
    | nil => intro h; cases h
    | cons y b =>
      cases c with
      | nil => intro _ h; cases h
      | cons z c =>
        rw [lessEq, lessEq, lessEq]
        by_cases h1 : x = y
        · subst h1
          by_cases h2 : x = z
          · subst h2
            simp only [if_true]
            exact ih _ _
          · simp [h2]
        · by_cases h2 : y = z
          · subst h2
            simp only [if_neg h1, if_true]
            exact fun h _ => h
          · simp only [if_neg h1, if_neg h2]
            intro h3 h4
            rw [decide_eq_true_iff] at h3 h4
            have h5 := UInt8.lt_trans h3 h4
            rw [if_neg (by rintro rfl; exact UInt8.lt_irrefl _ h5), decide_eq_true_iff]
            exact h5

theorem lessEq_total (a b : Bytes) : (lessEq a b || lessEq b a) = true := by
  induction a generalizing b with
  | nil => rfl
  | cons x a ih =>
    cases b with
    | nil => rfl
    | cons y b =>
      rw [lessEq, lessEq]
      by_cases h : x = y
      · subst h
        simpa using ih b
      · rw [if_neg h, if_neg (fun hh => h hh.symm)]
        rw [Bool.or_eq_true, decide_eq_true_iff, decide_eq_true_iff, UInt8.lt_iff_toNat_lt, UInt8.lt_iff_toNat_lt]
        rw [← UInt8.toNat_inj] at h
        omega

/-- Bytewise lexicographic order. -/
theorem lessEq_iff (a b : Bytes) : lessEq a b = true ↔ a = b ∨ List.Lex (· < ·) a b := by
  induction a generalizing b with
  | nil =>
    cases b with
    | nil => exact ⟨fun _ => Or.inl rfl, fun _ => rfl⟩
    | cons y b => exact ⟨fun _ => Or.inr .nil, fun _ => rfl⟩
  | cons x a ih =>
    cases b with
    | nil =>
      constructor
      · intro h; cases h
      · rintro (h | h) <;> cases h
    | cons y b =>
      rw [lessEq]
      by_cases h : x = y
      · subst h
        rw [if_pos rfl, ih]
        constructor
        · rintro (rfl | h)
          · exact Or.inl rfl
          · exact Or.inr (.cons h)
        · rintro (h | h)
          · exact Or.inl (List.cons.inj h).2
          · cases h with
            | cons h => exact Or.inr h
            | rel h => exact absurd h (UInt8.lt_irrefl _)
      · rw [if_neg h, decide_eq_true_iff]
        constructor
        · exact fun h => Or.inr (.rel h)
        · rintro (h' | h')
          · exact absurd (List.cons.inj h').1 h
          · cases h' with
            | cons _ => exact absurd rfl h
            | rel h => exact h

theorem marshalText_injective {a b : ID} (h : ID.marshalText a = ID.marshalText b) : a = b := by
  have := (Props.C02_text_roundtrip a).symm.trans ((congrArg ID.unmarshalText h).trans (Props.C02_text_roundtrip b))
  exact Outcome.ok.inj this

/-- The keys are written in increasing order as strings. -/
theorem sortedEntries_sorted {m : GoMap α} (h : m.WF) :
    (sortedEntries m).Pairwise fun x y => List.Lex (· < ·) (ID.marshalText x.1) (ID.marshalText y.1) := by
  have h1 : (sortedEntries m).Pairwise fun x y => lessEq (ID.marshalText x.1) (ID.marshalText y.1) = true :=
    List.pairwise_mergeSort (le := fun x y => lessEq (ID.marshalText x.1) (ID.marshalText y.1)) (fun a b c => lessEq_trans _ _ _)
      (fun a b => lessEq_total _ _) m
  have h2 : (sortedEntries m).Pairwise fun x y => x.1 ≠ y.1 := by
    have := h.perm (sortedEntries_perm m)
    unfold GoMap.WF GoMap.keys at this
    exact List.pairwise_map.mp this
  refine (List.Pairwise.and h1 h2).imp ?_
  rintro a b ⟨h3, h4⟩
  rcases (lessEq_iff _ _).mp h3 with h | h
  · exact absurd (marshalText_injective h) h4
  · exact h

theorem mapMembers_plain (f : α → Value) (hf : ∀ a, Plain (f a)) (m : GoMap α) : PlainMembers (mapMembers f m) := by
  rw [mapMembers_eq, plainMembers_iff]
  intro p hp
  obtain ⟨e, _, rfl⟩ := List.mem_map.mp hp
  exact ⟨formatUint_plain _, hf _⟩

theorem mapMembers_forall {β : Type} (f : α → Value) (g : α → β) (is : Value → β → Prop) (m : GoMap α) (hf : ∀ e ∈ m, is (f e.2) (g e.2)) :
    List.Forall₂ (fun p (x : ID × β) => KeyIs p.1 x.1 ∧ is p.2 x.2) (mapMembers f m) ((sortedEntries m).map fun e => (e.1, g e.2)) := by
  rw [mapMembers_eq, List.forall₂_map_left_iff, List.forall₂_map_right_iff, List.forall₂_same]
  intro e he
  exact ⟨Props.formatUint_decimal e.1.toNat, hf e ((sortedEntries_perm m).mem_iff.mp he)⟩

theorem lastEntry_of_wf {m : GoMap α} (h : m.WF) (id : ID) : lastEntry m id = m.get? id := by
  rw [← setAll_get?, setAll_fresh]
  · rfl
  · exact h

theorem lastEntry_sorted {β : Type} (g : α → β) {m : GoMap α} (h : m.WF) (id : ID) :
    lastEntry ((sortedEntries m).map fun e => (e.1, g e.2)) id = (m.get? id).map g := by
  have hw : (sortedEntries m).WF := h.perm (sortedEntries_perm m)
  rw [lastEntry_of_wf (by unfold GoMap.WF at hw ⊢; rwa [GoMap.keys_map]), GoMap.get?_map, GoMap.get?_perm h (sortedEntries_perm m)]

end Maps

/-! ## The public data of a key -/

theorem ofElement_plain (o : Option G) : Plain (ofElement o) := by
  cases o with
  | none => exact trivial
  | some g => exact encode_plain _

theorem ofPublic_plain (j : Public.Json G) : Plain (ofPublic j) := by
  unfold ofPublic
  rw [Plain, plainMembers_iff]
  intro p hp
  simp only [List.mem_cons, List.not_mem_nil, or_false] at hp
  rcases hp with rfl | rfl | rfl
  · exact ⟨plain_name (n := nameT) (by decide), by rw [Plain]; exact formatInt_number _⟩
  · exact ⟨plain_name (n := nameGroupKey) (by decide), ofElement_plain _⟩
  · exact ⟨plain_name (n := nameSharesMap) (by decide), by rw [Plain]; exact mapMembers_plain _ ofElement_plain _⟩

theorem ofElement_is (o : Option G) : ElementIs RGroup.bytes (ofElement o) o := by
  cases o with
  | none => exact Or.inl ⟨rfl, rfl⟩
  | some g => exact Or.inr ⟨_, g, rfl, rfl, encode_is _⟩

/-- The data of a valid key is written so that it says this key. -/
theorem ofPublic_is (p : Public G) (hwf : p.shares.WF) (h0 : p.shares.get? 0 = none) (hlt : p.partyIDs.Pairwise (· < ·))
    (hids : ∀ id, id ∈ p.partyIDs ↔ ∃ g, p.shares.get? id = some g) (ht : p.threshold = 65535 ∨ p.threshold.toNat + 1 ≤ p.partyIDs.length)
    (hint : Interpolates p.partyIDs.length p.shares.get? p.groupKey) : PublicIs (ofPublic (Public.marshalJSON p)) p := by
  have hth := p.threshold.toNat_lt
  let m : GoMap (Option G) := p.shares.map fun e => (e.1, some e.2)
  have hm : m.WF := by unfold GoMap.WF at hwf ⊢; rwa [GoMap.keys_map]
  have hlast : ∀ id, lastEntry ((sortedEntries m).map fun e => (e.1, e.2)) id = (p.shares.get? id).map some := by
    intro id
    rw [lastEntry_sorted (fun x => x) hm, GoMap.get?_map, Option.map_map]
    rfl
  refine ⟨_, (p.threshold.toNat : Int), (sortedEntries m).map fun e => (e.1, e.2), rfl, ?_, ?_, ?_, low16_self _, hwf, hlast, ?_, hlt, hids, ht, hint⟩
  · refine FieldIs.once (l₁ := []) (names_refl _) (formatInt_is (p.threshold.toNat : Int) (by omega) (by omega)) (by simp) ?_
    intro p hp
    simp only [List.mem_cons, List.not_mem_nil, or_false] at hp
    rcases hp with rfl | rfl
    · exact not_names (k := nameGroupKey) (by decide) (by decide) (by decide)
    · exact not_names (k := nameSharesMap) (by decide) (by decide) (by decide)
  · refine FieldIs.once (l₁ := [_]) (l₂ := [_]) (names_refl _) (ofElement_is _) ?_ ?_
    · intro p hp
      simp only [List.mem_cons, List.not_mem_nil, or_false] at hp
      subst hp; exact not_names (k := nameT) (by decide) (by decide) (by decide)
    · intro p hp
      simp only [List.mem_cons, List.not_mem_nil, or_false] at hp
      subst hp; exact not_names (k := nameSharesMap) (by decide) (by decide) (by decide)
  · refine .other (not_names (by decide) (by decide) (by decide)) (.other (not_names (by decide) (by decide) (by decide)) 
      (.add (es := (sortedEntries m).map fun e => (e.1, e.2)) (names_refl _) ?_ ?_))
    · exact mapMembers_forall ofElement (fun x => x) _ m fun e _ => ofElement_is e.2
    · rw [List.nil_append]; exact .done
  · rw [hlast, h0]; rfl

/-! ## The file of keys -/

theorem ofSecretPtr_plain (o : Option SecretShare.Json) : Plain (ofSecretPtr o) := by
  cases o with
  | none => exact trivial
  | some j => exact ofSecretShare_plain j

theorem ofPublicPtr_plain (o : Option (Public.Json G)) : Plain (ofPublicPtr o) := by
  cases o with
  | none => exact trivial
  | some j => exact ofPublic_plain j

theorem ofFile_plain (f : Cmd.File G) : Plain (ofFile f) := by
  unfold ofFile
  rw [Plain, plainMembers_iff]
  intro p hp
  simp only [List.mem_cons, List.not_mem_nil, or_false] at hp
  rcases hp with rfl | rfl
  · exact ⟨plain_name (n := nameSecrets) (by decide), by rw [Plain]; exact mapMembers_plain _ ofSecretPtr_plain _⟩
  · exact ⟨plain_name (n := nameShares) (by decide), ofPublicPtr_plain _⟩

/-- The file says the keys that were put into it. -/
theorem ofFile_is (secrets : GoMap (Option (SecretShare G))) (hwf : secrets.WF)
    (hsec : ∀ id sk, secrets.get? id = some (some sk) → sk.pub = sk.secret • base) (pub : Option (Public G))
    (hpub : ∀ p, pub = some p → PublicIs (ofPublic (Public.marshalJSON p)) p) :
    KeysIs (ofFile ⟨secrets.map fun e => (e.1, e.2.map SecretShare.marshalJSON), pub.map Public.marshalJSON⟩) secrets.get? pub := by
  have hm : mapMembers ofSecretPtr (secrets.map fun e => (e.1, e.2.map SecretShare.marshalJSON)) =
      mapMembers (fun o => ofSecretPtr (o.map SecretShare.marshalJSON)) secrets := by
    unfold mapMembers
    rw [List.map_map]
    rfl
  refine Or.inr ⟨_, (sortedEntries secrets).map fun e => (e.1, e.2), rfl, ?_, ?_, ?_⟩
  · refine .add (es := (sortedEntries secrets).map fun e => (e.1, e.2)) (names_refl _) ?_ ?_
    · dsimp only
      rw [hm]
      refine mapMembers_forall _ (fun x => x) _ secrets ?_
      rintro ⟨id, o⟩ he
      cases o with
      | none => exact Or.inl ⟨rfl, rfl⟩
      | some sk => exact Or.inr ⟨sk, rfl, ofSecretShare_is sk (hsec id sk ((GoMap.get?_eq_some_iff hwf).mpr he))⟩
    · rw [List.nil_append]
      exact .other (not_names (k := nameShares) (by decide) (by decide) (by decide)) .done
  · intro id
    rw [lastEntry_sorted (fun x => x) hwf]
    simp
  · refine FieldIs.once (l₁ := [_]) (l₂ := []) (names_refl _) ?_ ?_ (by simp)
    · cases pub with
      | none => exact Or.inl ⟨rfl, rfl⟩
      | some p => exact Or.inr ⟨p, rfl, hpub p rfl⟩
    · intro p hp
      simp only [List.mem_cons, List.not_mem_nil, or_false] at hp
      subst hp; exact not_names (k := nameSecrets) (by decide) (by decide) (by decide)

end Verif.Json
