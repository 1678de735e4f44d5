import Verif.Model.Base64
import Verif.Spec.Base64
import Mathlib.Tactic.Ring
import Mathlib.Tactic.NormNum

/-! The base64 model implements RFC 4648 base64. -/

namespace Verif.Base64

open Verif

theorem char_spec : ∀ v, v < 64 → (Spec.Base64.alphabet.toList.getD v '?').toUInt8 = char v := by
  have : ∀ v : Fin 64, (Spec.Base64.alphabet.toList.getD v.val '?').toUInt8 = char v.val := by decide +kernel
  exact fun v hv => this ⟨v, hv⟩

theorem value_char : ∀ v, v < 64 → value (char v) = some v := by
  have : ∀ v : Fin 64, value (char v.val) = some v.val := by decide +kernel
  exact fun v hv => this ⟨v, hv⟩

theorem value_some {c : UInt8} {v : Nat} (h : value c = some v) : v < 64 ∧ char v = c := by
  have key : ∀ n : Fin 256, (value (UInt8.ofNat n.val)).all fun v => decide (v < 64) && decide (char v = UInt8.ofNat n.val) := by
    decide +kernel
  have := key ⟨c.toNat, c.toNat_lt⟩
  rw [UInt8.ofNat_toNat, h] at this
  simpa using this

theorem value_pad : value padChar = none := by decide +kernel

theorem map_spec {ds : List Nat} (h : ∀ v ∈ ds, v < 64) :
    ds.map (fun v => (Spec.Base64.alphabet.toList.getD v '?').toUInt8) = ds.map char :=
  List.map_congr_left fun v hv => char_spec v (h v hv)

/-! ### Values of digits -/

theorem divmod_unique {x y r s m : Nat} (hr : r < m) (hs : s < m) (h : x * m + r = y * m + s) : x = y ∧ r = s := by
  have hm : 0 < m := by omega
  have h1 : (x * m + r) / m = x := by rw [Nat.mul_comm, Nat.mul_add_div hm, Nat.div_eq_of_lt hr, Nat.add_zero]
  have h2 : (y * m + s) / m = y := by rw [Nat.mul_comm, Nat.mul_add_div hm, Nat.div_eq_of_lt hs, Nat.add_zero]
  have hxy : x = y := by rw [← h1, h, h2]
  subst hxy
  exact ⟨rfl, by omega⟩

theorem value_cons (base x : Nat) (ds : List Nat) : Spec.Base64.value base (x :: ds) = x * base ^ ds.length + Spec.Base64.value base ds := by
  have key : ∀ (ds : List Nat) (acc : Nat), ds.foldl (fun acc x => acc * base + x) acc = acc * base ^ ds.length + Spec.Base64.value base ds := by
    intro ds
    induction ds with
    | nil => simp [Spec.Base64.value]
    | cons y ds ih =>
      intro acc
      simp only [List.foldl_cons, List.length_cons, Spec.Base64.value]
      rw [ih, ih (0 * base + y)]
      ring
  unfold Spec.Base64.value
  rw [List.foldl_cons, key]
  simp [Spec.Base64.value]

theorem value_lt (base : Nat) (ds : List Nat) (h : ∀ v ∈ ds, v < base) : Spec.Base64.value base ds < base ^ ds.length := by
  induction ds with
  | nil => simp [Spec.Base64.value]
  | cons x ds ih =>
    rw [value_cons, List.length_cons, pow_succ]
    have h1 := ih fun v hv => h v (List.mem_cons_of_mem _ hv)
    have h2 : (x + 1) * base ^ ds.length ≤ base * base ^ ds.length := Nat.mul_le_mul_right _ (h x List.mem_cons_self)
    have h3 : (x + 1) * base ^ ds.length = x * base ^ ds.length + base ^ ds.length := by ring
    have h4 : base ^ ds.length * base = base * base ^ ds.length := Nat.mul_comm _ _
    omega

theorem value_inj (base : Nat) : ∀ (ds es : List Nat), (∀ v ∈ ds, v < base) → (∀ v ∈ es, v < base) → ds.length = es.length →
    Spec.Base64.value base ds = Spec.Base64.value base es → ds = es
  | [], [], _, _, _, _ => rfl
  | [], _ :: _, _, _, h, _ => by simp at h
  | _ :: _, [], _, _, h, _ => by simp at h
  | x :: ds, y :: es, hd, he, hl, hv => by
    have hl : ds.length = es.length := by simpa using hl
    have hd' : ∀ v ∈ ds, v < base := fun v hv => hd v (List.mem_cons_of_mem _ hv)
    have he' : ∀ v ∈ es, v < base := fun v hv => he v (List.mem_cons_of_mem _ hv)
    rw [value_cons, value_cons, ← hl] at hv
    have h1 := value_lt base ds hd'
    have h2 := value_lt base es he'
    rw [← hl] at h2
    obtain ⟨hxy, hr⟩ := divmod_unique h1 h2 hv
    rw [hxy, value_inj base ds es hd' he' hl hr]
/-- The specification with the digits and the alphabet of the model. -/
def Digits (text bytes : Bytes) (r : Nat) (ds : List Nat) : Prop :=
  (∀ v ∈ ds, v < 64) ∧ text = ds.map char ++ List.replicate ((4 - ds.length % 4) % 4) padChar ∧
    ds.length = (4 * bytes.length + 2) / 3 ∧
    Spec.Base64.value 64 ds = Spec.Base64.value 256 (bytes.map UInt8.toNat) * 2 ^ (6 * ds.length - 8 * bytes.length) + r ∧
    r < 2 ^ (6 * ds.length - 8 * bytes.length)

theorem encodes_iff (text bytes : Bytes) (r : Nat) : Spec.Base64.Encodes text bytes r ↔ ∃ ds, Digits text bytes r ds := by
  constructor
  · rintro ⟨ds, h1, h2, h3⟩
    exact ⟨ds, h1, by rw [map_spec h1] at h2; exact h2, h3⟩
  · rintro ⟨ds, h1, h2, h3⟩
    exact ⟨ds, h1, by rw [map_spec h1]; exact h2, h3⟩

theorem pow_split (n : Nat) : 64 ^ ((4 * n + 2) / 3) = 256 ^ n * 2 ^ (6 * ((4 * n + 2) / 3) - 8 * n) := by
  rw [show (64 : Nat) = 2 ^ 6 by rfl, show (256 : Nat) = 2 ^ 8 by rfl, ← pow_mul, ← pow_mul, ← pow_add]
  congr 1
  omega

theorem bytes_lt (bs : Bytes) : ∀ v ∈ bs.map UInt8.toNat, v < 256 := by
  intro v hv
  obtain ⟨c, -, rfl⟩ := List.mem_map.1 hv
  exact c.toNat_lt

/-- Splitting off one quantum of three bytes and four digits. -/
theorem digits_step {t bs : Bytes} {ds : List Nat} {a b c : UInt8} {v0 v1 v2 v3 r : Nat}
    (h0 : v0 < 64) (h1 : v1 < 64) (h2 : v2 < 64) (h3 : v3 < 64) :
    Digits (char v0 :: char v1 :: char v2 :: char v3 :: t) (a :: b :: c :: bs) r (v0 :: v1 :: v2 :: v3 :: ds) ↔
      v0 * 2 ^ 18 + v1 * 2 ^ 12 + v2 * 2 ^ 6 + v3 = a.toNat * 2 ^ 16 + b.toNat * 2 ^ 8 + c.toNat ∧ Digits t bs r ds := by
  unfold Digits
  simp only [List.mem_cons, List.length_cons, List.map_cons, List.cons_append, List.cons.injEq, true_and, value_cons,
    List.length_map]
  rw [show (4 * (bs.length + 1 + 1 + 1) + 2) / 3 = (4 * bs.length + 2) / 3 + 1 + 1 + 1 + 1 by omega]
  rw [show (ds.length + 1 + 1 + 1 + 1) % 4 = ds.length % 4 by omega]
  rw [show 6 * (ds.length + 1 + 1 + 1 + 1) - 8 * (bs.length + 1 + 1 + 1) = 6 * ds.length - 8 * bs.length by omega]
  constructor
  · rintro ⟨hd, ht, hl, hv, hr⟩
    have hd' : ∀ v ∈ ds, v < 64 := fun v hv => hd v (by simp [hv])
    have hl' : ds.length = (4 * bs.length + 2) / 3 := by omega
    have hds := value_lt 64 ds hd'
    have hbs := value_lt 256 _ (bytes_lt bs)
    rw [List.length_map] at hbs
    have hp := pow_split bs.length
    rw [← hl'] at hp
    generalize 2 ^ (6 * ds.length - 8 * bs.length) = s at *
    generalize Spec.Base64.value 64 ds = x at *
    generalize Spec.Base64.value 256 (bs.map UInt8.toNat) = y at *
    have hlt : y * s + r < 64 ^ ds.length := by
      rw [hp]
      have : (y + 1) * s ≤ 256 ^ bs.length * s := Nat.mul_le_mul_right _ hbs
      have e : (y + 1) * s = y * s + s := by ring
      omega
    have e : (v0 * 2 ^ 18 + v1 * 2 ^ 12 + v2 * 2 ^ 6 + v3) * 64 ^ ds.length + x
        = (a.toNat * 2 ^ 16 + b.toNat * 2 ^ 8 + c.toNat) * 64 ^ ds.length + (y * s + r) := by
      have : (a.toNat * 2 ^ 16 + b.toNat * 2 ^ 8 + c.toNat) * 64 ^ ds.length + (y * s + r)
          = (a.toNat * 256 ^ (bs.length + 1 + 1) + (b.toNat * 256 ^ (bs.length + 1) + (c.toNat * 256 ^ bs.length + y))) * s + r := by
        rw [hp]; ring
      rw [this, ← hv]
      ring
    obtain ⟨e1, e2⟩ := divmod_unique hds hlt e
    exact ⟨e1, hd', ht, hl', e2, hr⟩
  · rintro ⟨e1, hd, ht, hl, hv, hr⟩
    have hp := pow_split bs.length
    rw [← hl] at hp
    refine ⟨?_, ht, by omega, ?_, hr⟩
    · rintro v (rfl | rfl | rfl | rfl | hv)
      · exact h0
      · exact h1
      · exact h2
      · exact h3
      · exact hd v hv
    · rw [hv]
      have : v0 * 64 ^ (ds.length + 1 + 1 + 1) + (v1 * 64 ^ (ds.length + 1 + 1) + (v2 * 64 ^ (ds.length + 1) + (v3 * 64 ^ ds.length
          + (Spec.Base64.value 256 (bs.map UInt8.toNat) * 2 ^ (6 * ds.length - 8 * bs.length) + r))))
          = (v0 * 2 ^ 18 + v1 * 2 ^ 12 + v2 * 2 ^ 6 + v3) * 64 ^ ds.length
            + (Spec.Base64.value 256 (bs.map UInt8.toNat) * 2 ^ (6 * ds.length - 8 * bs.length) + r) := by ring
      rw [this, e1, hp]
      ring

theorem ofNat_toNat_of {n : Nat} {a : UInt8} (h : n % 256 = a.toNat) : UInt8.ofNat n = a := by
  apply UInt8.toNat_inj.1
  rw [UInt8.toNat_ofNat']
  exact h

theorem digits_two {t : Bytes} {a : UInt8} {v0 v1 r : Nat} :
    Digits t [a] r [v0, v1] ↔ v0 < 64 ∧ v1 < 64 ∧ t = [char v0, char v1, padChar, padChar] ∧ v0 * 64 + v1 = a.toNat * 16 + r ∧ r < 16 := by
  unfold Digits
  simp [value_cons, Spec.Base64.value, List.replicate, and_assoc]

theorem digits_three {t : Bytes} {a b : UInt8} {v0 v1 v2 r : Nat} :
    Digits t [a, b] r [v0, v1, v2] ↔ v0 < 64 ∧ v1 < 64 ∧ v2 < 64 ∧ t = [char v0, char v1, char v2, padChar] ∧
      v0 * 4096 + v1 * 64 + v2 = (a.toNat * 256 + b.toNat) * 4 + r ∧ r < 4 := by
  unfold Digits
  simp only [Spec.Base64.value, List.map_cons, List.map_nil, List.foldl_cons, List.foldl_nil, List.length_cons, List.length_nil,
    List.forall_mem_cons, List.not_mem_nil, false_imp_iff, implies_true, and_true, and_assoc]
  simp [List.replicate]
  intro _ _ _ _ _
  omega

theorem digits_nil {t : Bytes} {r : Nat} : Digits t [] r [] ↔ t = [] ∧ r = 0 := by
  unfold Digits
  simp [Spec.Base64.value]
  intro _
  omega

/-- A text with its digits decodes to the bytes. -/
theorem decode_of_digits : ∀ (bytes t : Bytes) (r : Nat) (ds : List Nat), Digits t bytes r ds → decodeQuanta t = some bytes
  | [], t, r, ds, h => by
    have : ds = [] := List.length_eq_zero_iff.1 h.2.2.1
    subst this
    rw [(digits_nil.1 h).1]
    rfl
  | [a], t, r, ds, h => by
    obtain ⟨v0, v1, rfl⟩ : ∃ v0 v1, ds = [v0, v1] := List.length_eq_two.1 (by simpa using h.2.2.1)
    obtain ⟨h0, h1, rfl, e, hr⟩ := digits_two.1 h
    have ha := a.toNat_lt
    rw [decodeQuanta]
    simp only [value_char _ h0, value_char _ h1, value_pad, and_self, if_true]
    rw [ofNat_toNat_of (a := a) (by omega)]
  | [a, b], t, r, ds, h => by
    obtain ⟨v0, v1, v2, rfl⟩ : ∃ v0 v1 v2, ds = [v0, v1, v2] := List.length_eq_three.1 (by simpa using h.2.2.1)
    obtain ⟨h0, h1, h2, rfl, e, hr⟩ := digits_three.1 h
    have ha := a.toNat_lt
    have hb := b.toNat_lt
    rw [decodeQuanta]
    simp only [value_char _ h0, value_char _ h1, value_char _ h2, value_pad, and_self, if_true]
    rw [ofNat_toNat_of (a := a) (by omega), ofNat_toNat_of (a := b) (by omega)]
  | a :: b :: c :: bs, t, r, ds, h => by
    obtain ⟨v0, v1, v2, v3, ds', rfl⟩ : ∃ v0 v1 v2 v3 ds', ds = v0 :: v1 :: v2 :: v3 :: ds' := by
      have := h.2.2.1
      simp only [List.length_cons] at this
      match ds, this with
      | v0 :: v1 :: v2 :: v3 :: ds', _ => exact ⟨v0, v1, v2, v3, ds', rfl⟩
      | [], h => simp only [List.length_nil] at h; omega
      | [_], h => simp only [List.length_cons, List.length_nil] at h; omega
      | [_, _], h => simp only [List.length_cons, List.length_nil] at h; omega
      | [_, _, _], h => simp only [List.length_cons, List.length_nil] at h; omega
    have h0 : v0 < 64 := h.1 v0 (by simp)
    have h1 : v1 < 64 := h.1 v1 (by simp)
    have h2 : v2 < 64 := h.1 v2 (by simp)
    have h3 : v3 < 64 := h.1 v3 (by simp)
    obtain ⟨t', rfl⟩ : ∃ t', t = char v0 :: char v1 :: char v2 :: char v3 :: t' := ⟨_, h.2.1⟩
    obtain ⟨e, hrest⟩ := (digits_step h0 h1 h2 h3).1 h
    have ih := decode_of_digits bs t' r ds' hrest
    have ha := a.toNat_lt
    have hb := b.toNat_lt
    have hc := c.toNat_lt
    rw [decodeQuanta]
    simp only [value_char _ h0, value_char _ h1, value_char _ h2, value_char _ h3, ih]
    rw [ofNat_toNat_of (a := a) (by omega), ofNat_toNat_of (a := b) (by omega), ofNat_toNat_of (a := c) (by omega)]

/-- A text that decodes has digits. -/
theorem digits_of_decode : ∀ (t bytes : Bytes), decodeQuanta t = some bytes → ∃ r ds, Digits t bytes r ds
  | [], bytes, h => by
    rw [decodeQuanta] at h
    cases h
    exact ⟨0, [], digits_nil.2 ⟨rfl, rfl⟩⟩
  | [_], _, h => by simp [decodeQuanta] at h
  | [_, _], _, h => by simp [decodeQuanta] at h
  | [_, _, _], _, h => by simp [decodeQuanta] at h
  | c0 :: c1 :: c2 :: c3 :: rest, bytes, h => by
    rw [decodeQuanta] at h
    split at h
    · next v0 v1 e0 e1 =>
      obtain ⟨h0, rfl⟩ := value_some e0
      obtain ⟨h1, rfl⟩ := value_some e1
      split at h
      · split at h
        · next hp =>
          obtain ⟨rfl, rfl, rfl⟩ := hp
          simp only [Option.some.injEq] at h
          subst h
          refine ⟨v1 % 16, [v0, v1], digits_two.2 ⟨h0, h1, rfl, ?_, by omega⟩⟩
          rw [UInt8.toNat_ofNat']
          omega
        · cases h
      · next v2 e2 =>
        obtain ⟨h2, rfl⟩ := value_some e2
        split at h
        · split at h
          · next hp =>
            obtain ⟨rfl, rfl⟩ := hp
            simp only [Option.some.injEq] at h
            subst h
            refine ⟨v2 % 4, [v0, v1, v2], digits_three.2 ⟨h0, h1, h2, rfl, ?_, by omega⟩⟩
            rw [UInt8.toNat_ofNat', UInt8.toNat_ofNat']
            omega
          · cases h
        · next v3 e3 =>
          obtain ⟨h3, rfl⟩ := value_some e3
          simp only at h
          split at h
          · cases h
          · next out hout =>
            obtain ⟨r, ds, hd⟩ := digits_of_decode rest out hout
            simp only [Option.some.injEq] at h
            subst h
            refine ⟨r, v0 :: v1 :: v2 :: v3 :: ds, (digits_step h0 h1 h2 h3).2 ⟨?_, hd⟩⟩
            rw [UInt8.toNat_ofNat', UInt8.toNat_ofNat', UInt8.toNat_ofNat']
            omega
    · cases h

/-- Decoding accepts exactly the base64 texts of the bytes, whatever the unused bits are. -/
theorem decodeQuanta_iff (t bytes : Bytes) : decodeQuanta t = some bytes ↔ ∃ r, Spec.Base64.Encodes t bytes r := by
  constructor
  · intro h
    obtain ⟨r, ds, hd⟩ := digits_of_decode t bytes h
    exact ⟨r, (encodes_iff _ _ _).2 ⟨ds, hd⟩⟩
  · rintro ⟨r, h⟩
    obtain ⟨ds, hd⟩ := (encodes_iff _ _ _).1 h
    exact decode_of_digits _ _ _ _ hd

theorem char_mod (v : Nat) : char (v % 64) = char v := by
  unfold char
  rw [Nat.mod_mod]

theorem encode_digits : ∀ bytes : Bytes, ∃ ds, Digits (encode bytes) bytes 0 ds
  | [] => ⟨[], digits_nil.2 ⟨rfl, rfl⟩⟩
  | [a] => by
    have ha := a.toNat_lt
    refine ⟨[a.toNat * 2 ^ 16 / 2 ^ 18 % 64, a.toNat * 2 ^ 16 / 2 ^ 12 % 64],
      digits_two.2 ⟨by omega, by omega, ?_, by omega, by omega⟩⟩
    rw [char_mod, char_mod]
    rfl
  | [a, b] => by
    have ha := a.toNat_lt
    have hb := b.toNat_lt
    refine ⟨[(a.toNat * 2 ^ 16 + b.toNat * 2 ^ 8) / 2 ^ 18 % 64, (a.toNat * 2 ^ 16 + b.toNat * 2 ^ 8) / 2 ^ 12 % 64,
      (a.toNat * 2 ^ 16 + b.toNat * 2 ^ 8) / 2 ^ 6 % 64],
      digits_three.2 ⟨by omega, by omega, by omega, ?_, by omega, by omega⟩⟩
    rw [char_mod, char_mod, char_mod]
    rfl
  | a :: b :: c :: rest => by
    have ha := a.toNat_lt
    have hb := b.toNat_lt
    have hc := c.toNat_lt
    obtain ⟨ds, hd⟩ := encode_digits rest
    refine ⟨(a.toNat * 2 ^ 16 + b.toNat * 2 ^ 8 + c.toNat) / 2 ^ 18 % 64 ::
      (a.toNat * 2 ^ 16 + b.toNat * 2 ^ 8 + c.toNat) / 2 ^ 12 % 64 ::
      (a.toNat * 2 ^ 16 + b.toNat * 2 ^ 8 + c.toNat) / 2 ^ 6 % 64 ::
      (a.toNat * 2 ^ 16 + b.toNat * 2 ^ 8 + c.toNat) % 64 :: ds, ?_⟩
    have := (digits_step (t := encode rest) (bs := rest) (ds := ds) (a := a) (b := b) (c := c) (r := 0)
      (v0 := (a.toNat * 2 ^ 16 + b.toNat * 2 ^ 8 + c.toNat) / 2 ^ 18 % 64)
      (v1 := (a.toNat * 2 ^ 16 + b.toNat * 2 ^ 8 + c.toNat) / 2 ^ 12 % 64)
      (v2 := (a.toNat * 2 ^ 16 + b.toNat * 2 ^ 8 + c.toNat) / 2 ^ 6 % 64)
      (v3 := (a.toNat * 2 ^ 16 + b.toNat * 2 ^ 8 + c.toNat) % 64)
      (by omega) (by omega) (by omega) (by omega)).2 ⟨by omega, hd⟩
    rw [char_mod, char_mod, char_mod, char_mod] at this
    exact this

/-- The digits, and so the text, are determined by the bytes and the unused bits. -/
theorem digits_unique {t t' bytes : Bytes} {r : Nat} {ds ds' : List Nat} (h : Digits t bytes r ds) (h' : Digits t' bytes r ds') :
    t = t' := by
  have hl : ds.length = ds'.length := h.2.2.1.trans h'.2.2.1.symm
  have : ds = ds' := by
    refine value_inj 64 ds ds' h.1 h'.1 hl ?_
    rw [h.2.2.2.1, h'.2.2.2.1, hl]
  subst this
  rw [h.2.1, h'.2.1]

/-- The encoder gives the base64 text with zero unused bits. -/
theorem encode_iff (t bytes : Bytes) : encode bytes = t ↔ Spec.Base64.Encodes t bytes 0 := by
  rw [encodes_iff]
  constructor
  · rintro rfl
    exact encode_digits bytes
  · rintro ⟨ds, h⟩
    obtain ⟨ds', h'⟩ := encode_digits bytes
    exact digits_unique h' h

theorem char_not_newline (v : Nat) : (char v != 10 && char v != 13) = true := by
  have key : ∀ v : Fin 64, (char v.val != 10 && char v.val != 13) = true := by decide +kernel
  rw [← char_mod]
  exact key ⟨v % 64, Nat.mod_lt _ (by decide)⟩

theorem strip_encode (bytes : Bytes) : strip (encode bytes) = encode bytes := by
  obtain ⟨ds, h⟩ := encode_digits bytes
  rw [h.2.1]
  unfold strip
  rw [List.filter_eq_self]
  intro c hc
  rcases List.mem_append.1 hc with hc | hc
  · obtain ⟨v, -, rfl⟩ := List.mem_map.1 hc
    exact char_not_newline v
  · rw [List.eq_of_mem_replicate hc]
    decide +kernel

theorem decode_encode (bytes : Bytes) : decode (encode bytes) = some bytes := by
  unfold decode
  rw [strip_encode, decodeQuanta_iff]
  exact ⟨0, (encode_iff _ _).1 rfl⟩

end Verif.Base64
