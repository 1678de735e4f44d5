import Verif.Model.JsonText
import Verif.Spec.JsonText
import Verif.Lemmas.JsonRender
import Verif.Lemmas.Base64
import Verif.Lemmas.Outcome
import Verif.Props.Party

/-!
Reading an object into a struct, against the specification of fields.
-/

namespace Verif.Json

open Verif.Spec.Json

variable {G : Type} [RGroup G]

/-! ## Names of fields -/

theorem foldByte_toNat (c : UInt8) : (foldByte c).toNat = if 65 ≤ c.toNat ∧ c.toNat ≤ 90 then c.toNat + 32 else c.toNat := by
  unfold foldByte
  split
  · rw [UInt8.toNat_add]
    have : (32 : UInt8).toNat = 32 := rfl
    omega
  · rfl

theorem foldByte_eq_iff (c d : UInt8) : foldByte c = foldByte d ↔ SameLetter c d := by
  unfold SameLetter
  rw [← UInt8.toNat_inj, foldByte_toNat, foldByte_toNat, ← UInt8.toNat_inj (a := c)]
  constructor
  · intro h
    split at h <;> split at h <;> omega
  · intro h
    split <;> split <;> omega

theorem foldKey_kelvin (r : Bytes) : foldKey (0xE2 :: 0x84 :: 0xAA :: r) = 107 :: foldKey r := by
  rw [foldKey.eq_def]
  simp

theorem foldKey_longS (r : Bytes) : foldKey (0xC5 :: 0xBF :: r) = 115 :: foldKey r := by
  rw [foldKey.eq_def]
  cases r <;> simp [foldKey]

theorem foldKey_other {c : UInt8} {r : Bytes} (h1 : ∀ r', c :: r ≠ 0xE2 :: 0x84 :: 0xAA :: r') (h2 : ∀ r', c :: r ≠ 0xC5 :: 0xBF :: r') :
    foldKey (c :: r) = foldByte c :: foldKey r := by
  match r with
  | [] => rfl
  | [d] =>
    rw [foldKey.eq_def]
    simp only
    rw [if_neg]
    rintro ⟨rfl, rfl⟩
    exact h2 [] rfl
  | d :: e :: r =>
    rw [foldKey, if_neg, if_neg]
    · rintro ⟨rfl, rfl⟩
      exact h2 _ rfl
    · rintro ⟨rfl, rfl, rfl⟩
      exact h1 _ rfl

theorem foldKey_ascii {n : Bytes} (h : ∀ c ∈ n, c.toNat < 128) : foldKey n = n.map foldByte := by
  induction n with
  | nil => rfl
  | cons c n ih =>
    have hc := h c (List.mem_cons_self ..)
    rw [foldKey_other, ih fun d hd => h d (List.mem_cons_of_mem _ hd), List.map_cons]
    · intro r' e
      cases e
      exact absurd hc (by decide)
    · intro r' e
      cases e
      exact absurd hc (by decide)

theorem foldByte_k (c : UInt8) : foldByte c = 107 ↔ c ∈ ascii "kK" := by
  refine byte_all (p := fun c => foldByte c = 107 ↔ c ∈ ascii "kK") ?_ c
  unfold foldByte ascii
  decide +kernel

theorem foldByte_s (c : UInt8) : foldByte c = 115 ↔ c ∈ ascii "sS" := by
  refine byte_all (p := fun c => foldByte c = 115 ↔ c ∈ ascii "sS") ?_ c
  unfold foldByte ascii
  decide +kernel

theorem map_foldKey_iff : ∀ (m : Nat) (key name : Bytes), key.length ≤ m → (∀ c ∈ name, c.toNat < 128) →
    (foldKey key = name.map foldByte ↔ Names name key) := by
  intro m
  induction m with
  | zero =>
    intro key name hm _
    cases key with
    | cons _ _ => simp at hm
    | nil =>
      cases name with
      | nil => exact ⟨fun _ => .nil, fun _ => rfl⟩
      | cons c n => exact ⟨fun h => by simp [foldKey] at h, fun h => by cases h⟩
  | succ m ih =>
    intro key name hm hn
    cases key with
    | nil =>
      cases name with
      | nil => exact ⟨fun _ => .nil, fun _ => rfl⟩
      | cons c n => exact ⟨fun h => by simp [foldKey] at h, fun h => by cases h⟩
    | cons d r =>
      simp only [List.length_cons] at hm
      by_cases hk : ∃ r', d :: r = 0xE2 :: 0x84 :: 0xAA :: r'
      · obtain ⟨r', he⟩ := hk
        cases he
        simp only [List.length_cons] at hm
        rw [foldKey_kelvin]
        cases name with
        | nil => exact ⟨fun h => by simp at h, fun h => by cases h⟩
        | cons c n =>
          have hc := hn c (List.mem_cons_self ..)
          have ih' := ih r' n (by omega) fun d hd => hn d (List.mem_cons_of_mem _ hd)
          rw [List.map_cons, List.cons.injEq, ih']
          constructor
          · rintro ⟨h1, h2⟩
            exact .kelvin ((foldByte_k c).mp h1.symm) h2
          · intro h
            cases h with
            | kelvin h1 h2 => exact ⟨((foldByte_k c).mpr h1).symm, h2⟩
            | letter h1 _ =>
              exfalso
              unfold SameLetter at h1
              rw [← UInt8.toNat_inj] at h1
              have : (0xE2 : UInt8).toNat = 226 := rfl
              omega
      by_cases hs : ∃ r', d :: r = 0xC5 :: 0xBF :: r'
      · obtain ⟨r', he⟩ := hs
        cases he
        simp only [List.length_cons] at hm
        rw [foldKey_longS]
        cases name with
        | nil => exact ⟨fun h => by simp at h, fun h => by cases h⟩
        | cons c n =>
          have hc := hn c (List.mem_cons_self ..)
          have ih' := ih r' n (by omega) fun d hd => hn d (List.mem_cons_of_mem _ hd)
          rw [List.map_cons, List.cons.injEq, ih']
          constructor
          · rintro ⟨h1, h2⟩
            exact .longS ((foldByte_s c).mp h1.symm) h2
          · intro h
            cases h with
            | longS h1 h2 => exact ⟨((foldByte_s c).mpr h1).symm, h2⟩
            | letter h1 _ =>
              exfalso
              unfold SameLetter at h1
              rw [← UInt8.toNat_inj] at h1
              have : (0xC5 : UInt8).toNat = 197 := rfl
              omega
      rw [foldKey_other (fun r' e => hk ⟨r', e⟩) (fun r' e => hs ⟨r', e⟩)]
      cases name with
      | nil => exact ⟨fun h => by simp at h, fun h => by cases h⟩
      | cons c n =>
        have ih' := ih r n (by omega) fun d hd => hn d (List.mem_cons_of_mem _ hd)
        rw [List.map_cons, List.cons.injEq, ih', eq_comm, foldByte_eq_iff]
        constructor
        · rintro ⟨h1, h2⟩
          exact .letter h1 h2
        · intro h
          cases h with
          | letter h1 h2 => exact ⟨h1, h2⟩
          | kelvin _ _ => exact absurd ⟨_, rfl⟩ hk
          | longS _ _ => exact absurd ⟨_, rfl⟩ hs

theorem isField_iff {name : Bytes} (hn : ∀ c ∈ name, c.toNat < 128) (key : Bytes) : isField name key = true ↔ Names name key := by
  unfold isField
  rw [decide_eq_true_iff, foldKey_ascii hn]
  exact map_foldKey_iff _ key name le_rfl hn

/-- A key names at most one of two names that differ up to case. -/
theorem names_unique {n n' : Bytes} (hn : ∀ c ∈ n, c.toNat < 128) (hn' : ∀ c ∈ n', c.toNat < 128) (hne : n.map foldByte ≠ n'.map foldByte)
    {k : Bytes} (h : Names n k) : ¬ Names n' k := fun h' =>
  hne (((map_foldKey_iff _ k n le_rfl hn).mpr h).symm.trans ((map_foldKey_iff _ k n' le_rfl hn').mpr h'))

/-! ## Numbers -/

theorem digits_iff (s : Bytes) (acc m : Nat) : Cmd.digits s acc = some m ↔
    (∀ c ∈ s, '0'.toNat ≤ c.toNat ∧ c.toNat ≤ '9'.toNat) ∧ s.foldl (fun a c => 10 * a + (c.toNat - '0'.toNat)) acc = m := by
  have hz : '0'.toNat = 48 := rfl
  have h9 : '9'.toNat = 57 := rfl
  induction s generalizing acc with
  | nil => simp [Cmd.digits]
  | cons c s ih =>
    rw [Cmd.digits]
    by_cases hc : 48 ≤ c.toNat ∧ c.toNat ≤ 57
    · rw [if_pos hc]
      refine (ih _).trans ?_
      rw [List.forall_mem_cons, List.foldl_cons, hz, h9, mul_comm acc 10]
      simp [hc]
    · rw [if_neg hc]
      constructor
      · intro h; cases h
      · rintro ⟨h, _⟩
        exact absurd (h c (List.mem_cons_self ..)) hc

theorem decimal_iff {s : Bytes} (hs : s ≠ []) (m : Nat) : Cmd.digits s 0 = some m ↔ Spec.IsDecimal s ∧ Spec.decimalValue s = m := by
  rw [digits_iff]
  unfold Spec.IsDecimal Spec.decimalValue
  simp [hs]

theorem decimal_not_sign {ds : Bytes} (h : Spec.IsDecimal ds) (r : Bytes) : ds ≠ 43 :: r ∧ ds ≠ 45 :: r := by
  constructor
  · rintro rfl
    exact absurd (h.2 43 (List.mem_cons_self ..)) (by decide)
  · rintro rfl
    exact absurd (h.2 45 (List.mem_cons_self ..)) (by decide)

theorem atoi_iff (lit : Bytes) (i : Int) : Cmd.atoi lit = some i ↔ IntIs (.num lit) i := by
  unfold IntIs
  have hplus : ascii "+" = [43] := by decide
  have hminus : ascii "-" = [45] := by decide
  rw [hplus, hminus]
  have key : ∀ ds : Bytes, ∀ neg : Bool, (if ds.isEmpty then none else match Cmd.digits ds 0 with
      | none => none
      | some n => let v : Int := if neg then -(n : Int) else n
        if -9223372036854775808 ≤ v ∧ v ≤ 9223372036854775807 then some v else none) = some i ↔
      Spec.IsDecimal ds ∧ -2 ^ 63 ≤ i ∧ i < 2 ^ 63 ∧ i = if neg then -(Spec.decimalValue ds : Int) else Spec.decimalValue ds := by
    intro ds neg
    cases ds with
    | nil =>
      constructor
      · intro h; cases h
      · rintro ⟨⟨h, _⟩, _⟩; exact absurd rfl h
    | cons c ds =>
      simp only [List.isEmpty_cons, Bool.false_eq_true, if_false]
      cases hd : Cmd.digits (c :: ds) 0 with
      | none =>
        constructor
        · intro h; cases h
        · rintro ⟨h, _⟩
          have := (decimal_iff (by simp) _).mpr ⟨h, rfl⟩
          rw [hd] at this
          cases this
      | some n =>
        obtain ⟨h1, h2⟩ := (decimal_iff (by simp) _).mp hd
        simp only [h1, true_and, h2]
        generalize (if neg = true then -(n : Int) else n) = v
        constructor
        · intro h
          split at h
          · cases h; omega
          · cases h
        · rintro ⟨h3, h4, rfl⟩
          rw [if_pos (by omega)]
  unfold Cmd.atoi
  match lit with
  | [] =>
    constructor
    · intro h; simp at h
    · rintro ⟨sign, ds, he, ⟨hne, _⟩, _⟩
      simp only [Value.num.injEq] at he
      rw [eq_comm, List.append_eq_nil_iff] at he
      exact absurd he.2 hne
  | c :: cs =>
    by_cases hc : c = 45
    · subst hc
      simp only [if_true]
      refine (key cs true).trans ?_
      constructor
      · rintro ⟨h1, h2, h3, h4⟩
        exact ⟨[45], cs, rfl, h1, h2, h3, Or.inr ⟨rfl, h4⟩⟩
      · rintro ⟨sign, ds, he, h1, h2, h3, h⟩
        simp only [Value.num.injEq] at he
        rcases h with ⟨rfl | rfl, h⟩ | ⟨rfl, h⟩
        · exact absurd he.symm (decimal_not_sign h1 _).2
        · cases he
        · cases he
          exact ⟨h1, h2, h3, h⟩
    by_cases hp : c = 43
    · subst hp
      simp only [if_true, if_neg hc]
      refine (key cs false).trans ?_
      constructor
      · rintro ⟨h1, h2, h3, h4⟩
        exact ⟨[43], cs, rfl, h1, h2, h3, Or.inl ⟨Or.inr rfl, h4⟩⟩
      · rintro ⟨sign, ds, he, h1, h2, h3, h⟩
        simp only [Value.num.injEq] at he
        rcases h with ⟨rfl | rfl, h⟩ | ⟨rfl, h⟩
        · exact absurd he.symm (decimal_not_sign h1 _).1
        · cases he
          exact ⟨h1, h2, h3, h⟩
        · cases he
    · simp only [if_neg hc, if_neg hp]
      refine (key (c :: cs) false).trans ?_
      constructor
      · rintro ⟨h1, h2, h3, h4⟩
        exact ⟨[], c :: cs, rfl, h1, h2, h3, Or.inl ⟨Or.inl rfl, h4⟩⟩
      · rintro ⟨sign, ds, he, h1, h2, h3, h⟩
        simp only [Value.num.injEq] at he
        rcases h with ⟨rfl | rfl, h⟩ | ⟨rfl, h⟩
        · rw [List.nil_append] at he
          exact he ▸ ⟨h1, h2, h3, h⟩
        · cases he
          exact absurd rfl hp
        · cases he
          exact absurd rfl hc

/-! ## Fields -/

section Field

variable {α : Type} {name : Bytes} {keeps : Value → Prop} {sets : Value → α → Prop} {a a' x : α} {k : Bytes} {v : Value}
  {l : List (Bytes × Value)}

theorem FieldIs.nil_iff : FieldIs name keeps sets a [] a' ↔ a' = a := by
  unfold FieldIs
  constructor
  · rintro ⟨_, ⟨l₁, p, l₂, h, _⟩ | ⟨_, h⟩⟩
    · simp at h
    · exact h
  · rintro rfl
    exact ⟨fun p hp => (by cases hp), Or.inr ⟨fun p hp => (by cases hp), rfl⟩⟩

theorem FieldIs.skip (h : ¬ (Names name k ∧ ∃ x, sets v x)) (h' : Names name k → keeps v) :
    FieldIs name keeps sets a ((k, v) :: l) a' ↔ FieldIs name keeps sets a l a' := by
  unfold FieldIs
  constructor
  · rintro ⟨h1, h2⟩
    refine ⟨fun p hp => h1 p (List.mem_cons_of_mem _ hp), ?_⟩
    rcases h2 with ⟨l₁, p, l₂, he, hn, hs, hk⟩ | ⟨hk, he⟩
    · cases l₁ with
      | nil =>
        cases he
        exact absurd ⟨hn, _, hs⟩ h
      | cons q l₁ =>
        cases he
        exact Or.inl ⟨l₁, p, l₂, rfl, hn, hs, hk⟩
    · exact Or.inr ⟨fun p hp => hk p (List.mem_cons_of_mem _ hp), he⟩
  · rintro ⟨h1, h2⟩
    refine ⟨?_, ?_⟩
    · intro p hp hn
      rcases List.mem_cons.mp hp with rfl | hp
      · exact Or.inl (h' hn)
      · exact h1 p hp hn
    · rcases h2 with ⟨l₁, p, l₂, rfl, hn, hs, hk⟩ | ⟨hk, he⟩
      · exact Or.inl ⟨(k, v) :: l₁, p, l₂, rfl, hn, hs, hk⟩
      · refine Or.inr ⟨?_, he⟩
        intro p hp hn
        rcases List.mem_cons.mp hp with rfl | hp
        · exact h' hn
        · exact hk p hp hn

theorem FieldIs.set (hn : Names name k) (hs : sets v x) (hk : ¬ keeps v) (hu : ∀ y, sets v y → y = x) :
    FieldIs name keeps sets a ((k, v) :: l) a' ↔ FieldIs name keeps sets x l a' := by
  unfold FieldIs
  constructor
  · rintro ⟨h1, h2⟩
    refine ⟨fun p hp => h1 p (List.mem_cons_of_mem _ hp), ?_⟩
    rcases h2 with ⟨l₁, p, l₂, he, hn', hs', hk'⟩ | ⟨hk', _⟩
    · cases l₁ with
      | nil =>
        cases he
        exact Or.inr ⟨hk', hu _ hs'⟩
      | cons q l₁ =>
        cases he
        exact Or.inl ⟨l₁, p, l₂, rfl, hn', hs', hk'⟩
    · exact absurd (hk' _ (List.mem_cons_self ..) hn) hk
  · rintro ⟨h1, h2⟩
    refine ⟨?_, ?_⟩
    · intro p hp hn'
      rcases List.mem_cons.mp hp with rfl | hp
      · exact Or.inr ⟨x, hs⟩
      · exact h1 p hp hn'
    · rcases h2 with ⟨l₁, p, l₂, rfl, hn', hs', hk'⟩ | ⟨hk', rfl⟩
      · exact Or.inl ⟨(k, v) :: l₁, p, l₂, rfl, hn', hs', hk'⟩
      · exact Or.inl ⟨[], (k, v), l, rfl, hn, hs, hk'⟩

theorem FieldIs.bad (hn : Names name k) (hk : ¬ keeps v) (hs : ¬ ∃ x, sets v x) : ¬ FieldIs name keeps sets a ((k, v) :: l) a' := by
  rintro ⟨h1, _⟩
  rcases h1 _ (List.mem_cons_self ..) hn with h | h
  · exact hk h
  · exact hs h

/-- One step of reading a field: `upd` gives the new contents and whether the value is bad. -/
theorem FieldIs.step {upd : α → Value → α × Bool} (hk : ∀ a v, keeps v → upd a v = (a, false))
    (hs : ∀ a v y, sets v y → upd a v = (y, false)) (hb : ∀ a v, (upd a v).2 = false → keeps v ∨ ∃ x, sets v x)
    (hx : ∀ v, keeps v → ¬ ∃ x, sets v x) (hn : Names name k) :
    FieldIs name keeps sets a ((k, v) :: l) a' ↔ (upd a v).2 = false ∧ FieldIs name keeps sets (upd a v).1 l a' := by
  by_cases h1 : keeps v
  · rw [FieldIs.skip (fun h => hx v h1 h.2) (fun _ => h1), hk a v h1]
    simp
  by_cases h2 : ∃ x, sets v x
  · obtain ⟨x, h2⟩ := h2
    rw [FieldIs.set hn h2 h1 (fun y hy => by
      have := (hs a v y hy).symm.trans (hs a v x h2)
      simpa using this), hs a v x h2]
    simp
  · constructor
    · intro h; exact absurd h (FieldIs.bad hn h1 h2)
    · rintro ⟨h, _⟩
      rcases hb a v h with h | h
      · exact absurd h h1
      · exact absurd h h2

end Field

/-! ## Secret shares -/

theorem decodeInt_keeps (a : Int) (v : Value) (h : v = .null) : decodeInt a v = (a, false) := by subst h; rfl

theorem decodeInt_sets (a : Int) (v : Value) (i : Int) (h : IntIs v i) : decodeInt a v = (i, false) := by
  have h' := h
  obtain ⟨sign, ds, rfl, _⟩ := h'
  rw [decodeInt, (atoi_iff _ _).mpr h]

theorem decodeInt_good (a : Int) (v : Value) (h : (decodeInt a v).2 = false) : v = .null ∨ ∃ i, IntIs v i := by
  match v, h with
  | .null, _ => exact Or.inl rfl
  | .num lit, h =>
    rw [decodeInt] at h
    cases ha : Cmd.atoi lit with
    | none => rw [ha] at h; cases h
    | some i => exact Or.inr ⟨i, (atoi_iff _ _).mp ha⟩

theorem intIs_null (v : Value) (h : v = .null) : ¬ ∃ i, IntIs v i := by
  rintro ⟨i, _, _, h', _⟩
  rw [h] at h'
  cases h'

theorem base64_iff (s b : Bytes) : Base64.decode s = some b ↔ Base64Is s b := by
  unfold Base64.decode Base64Is
  rw [Base64.decodeQuanta_iff]
  have : Base64.strip s = s.filter fun c => c ≠ 0x0A ∧ c ≠ 0x0D := by
    unfold Base64.strip
    congr 1
    funext c
    rw [Bool.eq_iff_iff]
    simp
  rw [this]

theorem byte_iff {v : Value} {c : UInt8} : decodeByte v = (c, false) ↔ ByteIs v c := by
  unfold ByteIs
  match v with
  | .null => simp [decodeByte, eq_comm]
  | .bool _ => simp [decodeByte]
  | .str _ => simp [decodeByte]
  | .arr _ => simp [decodeByte]
  | .obj _ => simp [decodeByte]
  | .num [] =>
    constructor
    · intro h; cases h
    · rintro (⟨h, _⟩ | ⟨lit, h, ⟨h', _⟩, _⟩)
      · cases h
      · cases h; exact absurd rfl h'
  | .num (d :: ds) =>
    rw [decodeByte]
    simp only [List.isEmpty_cons, Bool.false_eq_true, if_false]
    have hc := c.toNat_lt
    cases hd : Cmd.digits (d :: ds) 0 with
    | none =>
      constructor
      · intro h; cases h
      · rintro (⟨h, _⟩ | ⟨lit, h, h', _⟩)
        · cases h
        · cases h
          have := (decimal_iff (by simp) _).mpr ⟨h', rfl⟩
          rw [hd] at this
          cases this
    | some n =>
      obtain ⟨h1, h2⟩ := (decimal_iff (by simp) _).mp hd
      simp only
      constructor
      · intro h
        split at h
        · cases h
          refine Or.inr ⟨_, rfl, h1, ?_⟩
          rw [h2, UInt8.toNat_ofNat']
          omega
        · cases h
      · rintro (⟨h, _⟩ | ⟨lit, h, _, h'⟩)
        · cases h
        · cases h
          rw [h2] at h'
          rw [if_pos (by omega), h', UInt8.ofNat_toNat]

theorem bytes_arr_iff (l : List Value) (b : Bytes) :
    (l.map (fun v => (decodeByte v).1) = b ∧ (l.any fun v => (decodeByte v).2) = false) ↔ List.Forall₂ ByteIs l b := by
  induction l generalizing b with
  | nil =>
    cases b with
    | nil => simp
    | cons c b => simp
  | cons v l ih =>
    cases b with
    | nil => simp
    | cons c b =>
      rw [List.forall₂_cons, ← ih, ← byte_iff, List.map_cons, List.any_cons, List.cons.injEq, Bool.or_eq_false_iff, Prod.ext_iff]
      tauto

theorem decodeBytes_sets (a : Bytes) (v : Value) (b : Bytes) (h : BytesIs v b) : decodeBytes a v = (b, false) := by
  rcases h with ⟨rfl, rfl⟩ | ⟨s, rfl, h⟩ | ⟨vs, rfl, h⟩
  · rfl
  · rw [decodeBytes, (base64_iff _ _).mpr h]
  · obtain ⟨h1, h2⟩ := (bytes_arr_iff _ _).mpr h
    rw [decodeBytes, h1, h2]

theorem decodeBytes_good (a : Bytes) (v : Value) (h : (decodeBytes a v).2 = false) : ∃ b, BytesIs v b := by
  match v, h with
  | .null, _ => exact ⟨[], Or.inl ⟨rfl, rfl⟩⟩
  | .str s, h =>
    rw [decodeBytes] at h
    cases hd : Base64.decode s with
    | none => rw [hd] at h; cases h
    | some b => exact ⟨b, Or.inr (Or.inl ⟨s, rfl, (base64_iff _ _).mp hd⟩)⟩
  | .arr l, h => exact ⟨_, Or.inr (Or.inr ⟨l, rfl, (bytes_arr_iff _ _).mp ⟨rfl, h⟩⟩)⟩

/-- The field `id`. -/
local notation "IdField" => FieldIs (ascii "id") (fun v => v = Value.null) IntIs

/-- The field `secret`. -/
local notation "SecretField" => FieldIs (ascii "secret") (fun _ => False) BytesIs

theorem names_id (k : Bytes) : isField nameID k = true ↔ Names (ascii "id") k := isField_iff (name := nameID) (by decide) k
theorem names_secret (k : Bytes) : isField nameSecret k = true ↔ Names (ascii "secret") k := isField_iff (name := nameSecret) (by decide) k

theorem secretMembers_iff (l : List (Bytes × Value)) (out out' : SecretShare.Json) (bad : Bool) :
    secretMembers l out bad = (out', false) ↔ bad = false ∧ IdField out.id l out'.id ∧ SecretField out.secret l out'.secret := by
  induction l generalizing out bad with
  | nil =>
    rw [secretMembers, FieldIs.nil_iff, FieldIs.nil_iff, Prod.mk.injEq]
    obtain ⟨_, _⟩ := out
    obtain ⟨_, _⟩ := out'
    simp only [SecretShare.Json.mk.injEq]
    constructor
    · rintro ⟨⟨rfl, rfl⟩, rfl⟩; exact ⟨rfl, rfl, rfl⟩
    · rintro ⟨rfl, rfl, rfl⟩; exact ⟨⟨rfl, rfl⟩, rfl⟩
  | cons p l ih =>
    obtain ⟨k, v⟩ := p
    rw [secretMembers]
    by_cases h1 : isField nameID k = true
    · have hn := (names_id k).mp h1
      have hn' : ¬ Names (ascii "secret") k := names_unique (by decide) (by decide) (by decide) hn
      rw [if_pos h1]
      simp only
      rw [ih, FieldIs.step (upd := decodeInt) decodeInt_keeps decodeInt_sets decodeInt_good intIs_null hn,
        FieldIs.skip (fun h => hn' h.1) (fun h => absurd h hn'), Bool.or_eq_false_iff]
      tauto
    rw [if_neg h1]
    have h1' : ¬ Names (ascii "id") k := fun h => h1 ((names_id k).mpr h)
    by_cases h2 : isField nameSecret k = true
    · have hn := (names_secret k).mp h2
      rw [if_pos h2]
      simp only
      rw [ih, FieldIs.skip (fun h => h1' h.1) (fun h => absurd h h1'),
        FieldIs.step (upd := decodeBytes) (fun _ _ h => h.elim) decodeBytes_sets (fun _ _ h => Or.inr (decodeBytes_good _ _ h)) (fun _ h => h.elim) hn,
        Bool.or_eq_false_iff]
      tauto
    · have h2' : ¬ Names (ascii "secret") k := fun h => h2 ((names_secret k).mpr h)
      rw [if_neg h2, ih, FieldIs.skip (fun h => h1' h.1) (fun h => absurd h h1'), FieldIs.skip (fun h => h2' h.1) (fun h => absurd h h2')]

theorem low16_iff (i : Int) (x : UInt16) : x = UInt16.ofNat (i % 65536).toNat ↔ Low16 i x := by
  have hx := x.toNat_lt
  unfold Low16
  rw [← UInt16.toNat_inj, UInt16.toNat_ofNat']
  constructor
  · intro h
    exact ⟨i / 65536, by omega⟩
  · rintro ⟨q, h⟩
    omega

/-- What `UnmarshalJSON` of `SecretShare` accepts. -/
theorem secretShare_iff (v : Value) (sk : SecretShare G) : secretShare v = .ok sk ↔ SecretShareIs v sk := by
  unfold SecretShareIs
  simp only [← low16_iff]
  have key : ∀ out : SecretShare.Json, SecretShare.unmarshalJSON out = .ok sk ↔
      out.secret = sk.secret.bytes ∧ sk.id = UInt16.ofNat (out.id % 65536).toNat ∧ sk.pub = sk.secret • base := by
    intro out
    unfold SecretShare.unmarshalJSON
    obtain ⟨id, sec, pub⟩ := sk
    cases hs : Scalar.setCanonicalBytes out.secret with
    | none =>
      simp only [Outcome.orErr_none, Outcome.err_bind, reduceCtorEq, false_iff]
      rintro ⟨h, _⟩
      rw [h, Scalar.set_bytes] at hs
      cases hs
    | some s =>
      simp only [Outcome.orErr_some, Outcome.ok_bind, Outcome.pure_def, Outcome.ok.injEq, SecretShare.mk.injEq]
      constructor
      · rintro ⟨rfl, rfl, rfl⟩
        exact ⟨(Scalar.bytes_set hs).symm, rfl, rfl⟩
      · rintro ⟨h, rfl, rfl⟩
        rw [h, Scalar.set_bytes] at hs
        cases hs
        exact ⟨rfl, rfl, rfl⟩
  unfold secretShare
  match v with
  | .null =>
    constructor
    · intro h
      have h1 : ([] : Bytes) = sk.secret.bytes := ((key _).mp h).1
      have := congrArg List.length h1
      rw [Scalar.bytes_length] at this
      cases this
    · rintro ⟨l, i, h, _⟩; cases h
  | .bool _ => exact ⟨fun h => (by cases h), fun ⟨l, i, h, _⟩ => (by cases h)⟩
  | .num _ => exact ⟨fun h => (by cases h), fun ⟨l, i, h, _⟩ => (by cases h)⟩
  | .str _ => exact ⟨fun h => (by cases h), fun ⟨l, i, h, _⟩ => (by cases h)⟩
  | .arr _ => exact ⟨fun h => (by cases h), fun ⟨l, i, h, _⟩ => (by cases h)⟩
  | .obj l =>
    simp only
    cases hm : secretMembers l ⟨0, []⟩ false with
    | mk out bad =>
      cases bad with
      | true =>
        constructor
        · intro h; cases h
        · rintro ⟨l', i, h, h1, h2, _⟩
          cases h
          rw [(secretMembers_iff l ⟨0, []⟩ ⟨i, sk.secret.bytes⟩ false).mpr ⟨rfl, h1, h2⟩] at hm
          cases hm
      | false =>
        have hm' := (secretMembers_iff _ _ _ _).mp hm
        simp only
        rw [key]
        constructor
        · rintro ⟨h1, h2, h3⟩
          exact ⟨l, out.id, rfl, hm'.2.1, h1 ▸ hm'.2.2, h2, h3⟩
        · rintro ⟨l', i, h, h1, h2, h3, h4⟩
          cases h
          have := (secretMembers_iff l ⟨0, []⟩ ⟨i, sk.secret.bytes⟩ false).mpr ⟨rfl, h1, h2⟩
          rw [this] at hm
          cases hm
          exact ⟨rfl, h3, h4⟩

end Verif.Json
