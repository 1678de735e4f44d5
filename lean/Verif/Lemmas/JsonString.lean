import Verif.Spec.Json
import Mathlib.Tactic.Tauto
import Mathlib.Tactic.IntervalCases
import Mathlib.Tactic.Ring

/-!
What `unquoteBytes` makes of the text between two quotes.
-/

namespace Verif.Json

open Verif.Spec.Json

theorem hexVal_is {c : UInt8} {v : Nat} (h : HexIs c v) : hexVal c = v ∧ v < 16 := by
  have hv : v < 16 := by
    rcases h with h | h <;> exact (List.getElem?_eq_some_iff.mp h).1
  refine ⟨?_, hv⟩
  revert h
  unfold HexIs
  interval_cases v <;> simp only [List.getElem?_cons_zero, List.getElem?_cons_succ, Option.some.injEq] <;> rintro (rfl | rfl) <;> decide

theorem hex4_is {h : List UInt8} {v : Nat} (hv : Hex4Is h v) :
    ∃ c1 c2 c3 c4, h = [c1, c2, c3, c4] ∧ hex4 c1 c2 c3 c4 = v := by
  obtain ⟨c1, c2, c3, c4, v1, v2, v3, v4, rfl, h1, h2, h3, h4, rfl⟩ := hv
  refine ⟨c1, c2, c3, c4, rfl, ?_⟩
  unfold hex4
  rw [(hexVal_is h1).1, (hexVal_is h2).1, (hexVal_is h3).1, (hexVal_is h4).1]
  ring

theorem char_lt (c : Char) : c.toNat < 0x110000 := by
  have := c.valid
  unfold Char.toNat
  unfold UInt32.isValidChar Nat.isValidChar at this
  omega

theorem char_not_surrogate (c : Char) : ¬ (0xD800 ≤ c.toNat ∧ c.toNat < 0xE000) := by
  have := c.valid
  unfold Char.toNat
  unfold UInt32.isValidChar Nat.isValidChar at this
  omega

theorem encodeRune_char (c : Char) : encodeRune c.toNat = String.utf8EncodeChar c := by
  have := char_lt c
  unfold encodeRune String.utf8EncodeChar
  change _ = (if c.toNat ≤ 0x7f then _ else if c.toNat ≤ 0x7ff then _ else if c.toNat ≤ 0xffff then _ else _)
  change _ = (if c.toNat ≤ 0x7f then [UInt8.ofNat c.toNat] else if c.toNat ≤ 0x7ff then
    [UInt8.ofNat (c.toNat / 64 % 32 + 0xc0), UInt8.ofNat (c.toNat % 64 + 0x80)] else if c.toNat ≤ 0xffff then
    [UInt8.ofNat (c.toNat / 4096 % 16 + 0xe0), UInt8.ofNat (c.toNat / 64 % 64 + 0x80), UInt8.ofNat (c.toNat % 64 + 0x80)] else
    [UInt8.ofNat (c.toNat / 262144 % 8 + 0xf0), UInt8.ofNat (c.toNat / 4096 % 64 + 0x80), UInt8.ofNat (c.toNat / 64 % 64 + 0x80),
      UInt8.ofNat (c.toNat % 64 + 0x80)])
  generalize c.toNat = v at *
  by_cases h1 : v < 128
  · rw [if_pos h1, if_pos (by omega)]
  rw [if_neg h1, if_neg (by omega : ¬ v ≤ 0x7f)]
  by_cases h2 : v < 2048
  · rw [if_pos h2, if_pos (by omega : v ≤ 0x7ff), show 192 + v / 64 = v / 64 % 32 + 0xc0 by omega, show 128 + v % 64 = v % 64 + 0x80 by omega]
  rw [if_neg h2, if_neg (by omega : ¬ v ≤ 0x7ff)]
  by_cases h3 : v < 65536
  · rw [if_pos h3, if_pos (by omega : v ≤ 0xffff), show 224 + v / 4096 = v / 4096 % 16 + 0xe0 by omega,
      show 128 + v % 64 = v % 64 + 0x80 by omega, show 128 + v / 64 % 64 = v / 64 % 64 + 0x80 by omega]
  rw [if_neg h3, if_neg (by omega : ¬ v ≤ 0xffff), show 240 + v / 262144 = v / 262144 % 8 + 0xf0 by omega,
      show 128 + v % 64 = v % 64 + 0x80 by omega, show 128 + v / 64 % 64 = v / 64 % 64 + 0x80 by omega,
      show 128 + v / 4096 % 64 = v / 4096 % 64 + 0x80 by omega]

theorem unquoteFrom_copy (l s : Bytes) : unquoteFrom l.length (l ++ s) = l ++ unquoteFrom 0 s := by
  induction l with
  | nil => rfl
  | cons c l ih => simp only [List.length_cons, List.cons_append, unquoteFrom, ih]

theorem within_ofNat {lo hi n : Nat} (h : n < 256) (h1 : lo ≤ n) (h2 : n ≤ hi) : within lo hi (UInt8.ofNat n) = true := by
  have : (UInt8.ofNat n).toNat = n := by rw [UInt8.toNat_ofNat']; omega
  simp [within, this, h1, h2]

theorem not_within_ofNat {lo hi n : Nat} (h : n < 256) (h1 : n < lo ∨ hi < n) : within lo hi (UInt8.ofNat n) = false := by
  have : (UInt8.ofNat n).toNat = n := by rw [UInt8.toNat_ofNat']; omega
  simp only [within, this, decide_eq_false_iff_not]
  omega

theorem ofNat_inj {n : Nat} (h : n < 256) (m : Nat) (hm : m < 256) : UInt8.ofNat n = UInt8.ofNat m ↔ n = m := by
  constructor
  · intro he
    have := congrArg UInt8.toNat he
    rw [UInt8.toNat_ofNat', UInt8.toNat_ofNat'] at this
    omega
  · rintro rfl; rfl

theorem unq_plain {c : UInt8} (h1 : c ≠ 92) (h2 : c.toNat < 128) (r : Bytes) : unquoteFrom 0 (c :: r) = c :: unquoteFrom 0 r := by
  rw [unquoteFrom.eq_def]
  simp only [if_neg h1, if_pos h2]

theorem unq_tail {c : UInt8} (h1 : c ≠ 92) (h2 : ¬ c.toNat < 128) {r : Bytes} {k : Nat} (h : utf8Tail (c :: r) = some k) :
    unquoteFrom 0 (c :: r) = c :: unquoteFrom k r := by
  rw [unquoteFrom.eq_def]
  simp only [if_neg h1, if_neg h2, h]

theorem unq_esc {e : UInt8} (h1 : e ≠ 117) (r : Bytes) : unquoteFrom 0 (92 :: e :: r) = unescape e :: unquoteFrom 0 r := by
  rw [unquoteFrom.eq_def]
  simp only [if_true, if_neg h1]

theorem unq_unicode {h1 h2 h3 h4 : UInt8} (h : ¬ (0xD800 ≤ hex4 h1 h2 h3 h4 ∧ hex4 h1 h2 h3 h4 < 0xE000)) (r : Bytes) :
    unquoteFrom 0 (92 :: 117 :: h1 :: h2 :: h3 :: h4 :: r) = encodeRune (hex4 h1 h2 h3 h4) ++ unquoteFrom 0 r := by
  rw [unquoteFrom.eq_def]
  simp only [if_true, if_neg h]

theorem unq_pair {h1 h2 h3 h4 g1 g2 g3 g4 : UInt8} {x : Nat} (h : 0xD800 ≤ hex4 h1 h2 h3 h4 ∧ hex4 h1 h2 h3 h4 < 0xE000)
    (hx : surrogates (hex4 h1 h2 h3 h4) (hex4 g1 g2 g3 g4) = some x) (r : Bytes) :
    unquoteFrom 0 (92 :: 117 :: h1 :: h2 :: h3 :: h4 :: 92 :: 117 :: g1 :: g2 :: g3 :: g4 :: r) = encodeRune x ++ unquoteFrom 0 r := by
  rw [unquoteFrom.eq_def]
  simp only [if_true, if_pos h, and_self, hx]

/-- The bytes of a character outside ASCII are recognised. -/
theorem char_tail (c : Char) (hc : 128 ≤ c.toNat) : ∃ a l, String.utf8EncodeChar c = a :: l ∧ a ≠ 92 ∧ ¬ a.toNat < 128 ∧
    ∀ s, utf8Tail (a :: l ++ s) = some l.length := by
  have hlt := char_lt c
  have hsur := char_not_surrogate c
  rw [← encodeRune_char]
  generalize c.toNat = v at *
  unfold encodeRune
  rw [if_neg (by omega)]
  by_cases h2 : v < 2048
  · rw [if_pos h2]
    have h0 : 192 + v / 64 < 256 := by omega
    refine ⟨_, _, rfl, ?_, ?_, ?_⟩
    · rw [Ne, show (92 : UInt8) = UInt8.ofNat 92 from rfl, ofNat_inj h0 _ (by omega)]; omega
    · rw [UInt8.toNat_ofNat']; omega
    · intro s
      simp only [List.cons_append, List.nil_append, utf8Tail, List.length_cons, List.length_nil]
      rw [if_pos ⟨within_ofNat (by omega) (by omega) (by omega), within_ofNat (by omega) (by omega) (by omega)⟩]
  rw [if_neg h2]
  by_cases h3 : v < 65536
  · rw [if_pos h3]
    have h0 : 224 + v / 4096 < 256 := by omega
    refine ⟨_, _, rfl, ?_, ?_, ?_⟩
    · rw [Ne, show (92 : UInt8) = UInt8.ofNat 92 from rfl, ofNat_inj h0 _ (by omega)]; omega
    · rw [UInt8.toNat_ofNat']; omega
    · intro s
      simp only [List.cons_append, List.nil_append, utf8Tail, List.length_cons, List.length_nil]
      rw [if_neg (by rw [not_within_ofNat h0 (by omega)]; simp)]
      have hE0 : (UInt8.ofNat (224 + v / 4096) = 0xE0) ↔ v / 4096 = 0 := by
        rw [show (0xE0 : UInt8) = UInt8.ofNat 224 from rfl, ofNat_inj h0 _ (by omega)]; omega
      have hED : (UInt8.ofNat (224 + v / 4096) = 0xED) ↔ v / 4096 = 13 := by
        rw [show (0xED : UInt8) = UInt8.ofNat 237 from rfl, ofNat_inj h0 _ (by omega)]; omega
      rw [if_pos]
      refine ⟨?_, within_ofNat (by omega) (by omega) (by omega)⟩
      rw [hE0, hED]
      by_cases h4 : v / 4096 = 0
      · exact Or.inl ⟨h4, within_ofNat (by omega) (by omega) (by omega)⟩
      by_cases h5 : v / 4096 = 13
      · exact Or.inr (Or.inr (Or.inl ⟨h5, within_ofNat (by omega) (by omega) (by omega)⟩))
      by_cases h6 : v / 4096 < 13
      · exact Or.inr (Or.inl ⟨within_ofNat (by omega) (by omega) (by omega), within_ofNat (by omega) (by omega) (by omega)⟩)
      · exact Or.inr (Or.inr (Or.inr ⟨within_ofNat (by omega) (by omega) (by omega), within_ofNat (by omega) (by omega) (by omega)⟩))
  rw [if_neg h3]
  have h0 : 240 + v / 262144 < 256 := by omega
  refine ⟨_, _, rfl, ?_, ?_, ?_⟩
  · rw [Ne, show (92 : UInt8) = UInt8.ofNat 92 from rfl, ofNat_inj h0 _ (by omega)]; omega
  · rw [UInt8.toNat_ofNat']; omega
  · intro s
    simp only [List.cons_append, List.nil_append, utf8Tail, List.length_cons, List.length_nil]
    rw [if_neg (by rw [not_within_ofNat h0 (by omega)]; simp)]
    have hE0 : (UInt8.ofNat (240 + v / 262144) = 0xE0) ↔ False := by
      rw [show (0xE0 : UInt8) = UInt8.ofNat 224 from rfl, ofNat_inj h0 _ (by omega), iff_false]; omega
    have hED : (UInt8.ofNat (240 + v / 262144) = 0xED) ↔ False := by
      rw [show (0xED : UInt8) = UInt8.ofNat 237 from rfl, ofNat_inj h0 _ (by omega), iff_false]; omega
    have hF0 : (UInt8.ofNat (240 + v / 262144) = 0xF0) ↔ v / 262144 = 0 := by
      rw [show (0xF0 : UInt8) = UInt8.ofNat 240 from rfl, ofNat_inj h0 _ (by omega)]; omega
    have hF4 : (UInt8.ofNat (240 + v / 262144) = 0xF4) ↔ v / 262144 = 4 := by
      rw [show (0xF4 : UInt8) = UInt8.ofNat 244 from rfl, ofNat_inj h0 _ (by omega)]; omega
    rw [if_neg (by
      rw [hE0, hED, not_within_ofNat (lo := 0xE1) (hi := 0xEC) h0 (by omega), not_within_ofNat (lo := 0xEE) (hi := 0xEF) h0 (by omega)]
      simp)]
    rw [if_pos]
    refine ⟨?_, within_ofNat (by omega) (by omega) (by omega), within_ofNat (by omega) (by omega) (by omega)⟩
    rw [hF0, hF4]
    by_cases h4 : v / 262144 = 0
    · exact Or.inl ⟨h4, within_ofNat (by omega) (by omega) (by omega)⟩
    by_cases h5 : v / 262144 = 4
    · exact Or.inr (Or.inr ⟨h5, within_ofNat (by omega) (by omega) (by omega)⟩)
    · exact Or.inr (Or.inl ⟨within_ofNat (by omega) (by omega) (by omega), within_ofNat (by omega) (by omega) (by omega)⟩)

/-- A character outside ASCII is copied. -/
theorem unquote_char (c : Char) (hc : 128 ≤ c.toNat) (s : Bytes) :
    unquoteFrom 0 (String.utf8EncodeChar c ++ s) = String.utf8EncodeChar c ++ unquoteFrom 0 s := by
  obtain ⟨a, l, h1, h2, h3, h4⟩ := char_tail c hc
  rw [h1, List.cons_append, unq_tail (r := l ++ s) h2 h3 (h4 s), unquoteFrom_copy, List.cons_append]

/-- Only those are. -/
theorem tail_char {c : UInt8} {r : Bytes} {k : Nat} (h : utf8Tail (c :: r) = some k) :
    ∃ (d : Char) (s : Bytes), 128 ≤ d.toNat ∧ c :: r = String.utf8EncodeChar d ++ s := by
  have mk : ∀ v : Nat, 128 ≤ v → v < 0x110000 → ¬ (0xD800 ≤ v ∧ v < 0xE000) → ∃ d : Char, d.toNat = v := by
    intro v h1 h2 h3
    have hv : v.isValidChar := by unfold Nat.isValidChar; omega
    exact ⟨Char.ofNatAux v hv, by unfold Char.ofNatAux Char.toNat; simp [UInt32.toNat]⟩
  have fin : ∀ (v : Nat) (s : Bytes), 128 ≤ v → v < 0x110000 → ¬ (0xD800 ≤ v ∧ v < 0xE000) → c :: r = encodeRune v ++ s →
      ∃ (d : Char) (s : Bytes), 128 ≤ d.toNat ∧ c :: r = String.utf8EncodeChar d ++ s := by
    intro v s h1 h2 h3 h4
    obtain ⟨d, rfl⟩ := mk v h1 h2 h3
    exact ⟨d, s, h1, by rw [← encodeRune_char, h4]⟩
  have eq : ∀ (a : UInt8) (n : Nat), a.toNat = n → a = UInt8.ofNat n := by
    rintro a n rfl
    exact UInt8.ofNat_toNat.symm
  have w : ∀ {lo hi : Nat} {a : UInt8}, within lo hi a = true → lo ≤ a.toNat ∧ a.toNat ≤ hi := by
    intro lo hi a h
    simpa [within] using h
  cases r with
  | nil => cases h
  | cons c1 r =>
    rw [utf8Tail.eq_def] at h
    simp only at h
    split at h
    · rename_i h2
      obtain ⟨⟨a1, a2⟩, ⟨b1, b2⟩⟩ := And.intro (w h2.1) (w h2.2)
      refine fin ((c.toNat - 192) * 64 + (c1.toNat - 128)) r (by omega) (by omega) (by omega) ?_
      unfold encodeRune
      rw [if_neg (by omega), if_pos (by omega), ← eq c _ (by omega), ← eq c1 _ (by omega)]
      rfl
    cases r with
    | nil => cases h
    | cons c2 r =>
      simp only at h
      split at h
      · rename_i h2
        obtain ⟨h3, h4⟩ := h2
        obtain ⟨d1, d2⟩ := w h4
        have : 0xE0 ≤ c.toNat ∧ c.toNat ≤ 0xEF ∧ 0x80 ≤ c1.toNat ∧ c1.toNat ≤ 0xBF ∧ (c.toNat = 0xE0 → 0xA0 ≤ c1.toNat) ∧
            (c.toNat = 0xED → c1.toNat ≤ 0x9F) := by
          rcases h3 with ⟨rfl, h5⟩ | ⟨h5, h6⟩ | ⟨rfl, h5⟩ | ⟨h5, h6⟩
          · obtain ⟨g1, g2⟩ := w h5
            simp only [show (0xE0 : UInt8).toNat = 0xE0 from rfl]
            omega
          · obtain ⟨g1, g2⟩ := w h5
            obtain ⟨g3, g4⟩ := w h6
            omega
          · obtain ⟨g1, g2⟩ := w h5
            simp only [show (0xED : UInt8).toNat = 0xED from rfl]
            omega
          · obtain ⟨g1, g2⟩ := w h5
            obtain ⟨g3, g4⟩ := w h6
            omega
        refine fin (((c.toNat - 224) * 64 + (c1.toNat - 128)) * 64 + (c2.toNat - 128)) r (by omega) (by omega) (by omega) ?_
        unfold encodeRune
        rw [if_neg (by omega), if_neg (by omega), if_pos (by omega), ← eq c _ (by omega), ← eq c1 _ (by omega), ← eq c2 _ (by omega)]
        rfl
      cases r with
      | nil => cases h
      | cons c3 r =>
        simp only at h
        split at h
        · rename_i h2
          obtain ⟨h3, h4, h5⟩ := h2
          obtain ⟨d1, d2⟩ := w h4
          obtain ⟨e1, e2⟩ := w h5
          have : 0xF0 ≤ c.toNat ∧ c.toNat ≤ 0xF4 ∧ 0x80 ≤ c1.toNat ∧ c1.toNat ≤ 0xBF ∧ (c.toNat = 0xF0 → 0x90 ≤ c1.toNat) ∧
              (c.toNat = 0xF4 → c1.toNat ≤ 0x8F) := by
            rcases h3 with ⟨rfl, h6⟩ | ⟨h6, h7⟩ | ⟨rfl, h6⟩
            · obtain ⟨g1, g2⟩ := w h6
              simp only [show (0xF0 : UInt8).toNat = 0xF0 from rfl]
              omega
            · obtain ⟨g1, g2⟩ := w h6
              obtain ⟨g3, g4⟩ := w h7
              omega
            · obtain ⟨g1, g2⟩ := w h6
              simp only [show (0xF4 : UInt8).toNat = 0xF4 from rfl]
              omega
          refine fin ((((c.toNat - 240) * 64 + (c1.toNat - 128)) * 64 + (c2.toNat - 128)) * 64 + (c3.toNat - 128)) r (by omega) (by omega) (by omega) ?_
          unfold encodeRune
          rw [if_neg (by omega), if_neg (by omega), if_neg (by omega), ← eq c _ (by omega), ← eq c1 _ (by omega), ← eq c2 _ (by omega),
            ← eq c3 _ (by omega)]
          rfl
        · cases h

theorem unq_bad {c : UInt8} (h1 : c ≠ 92) (h2 : ¬ c.toNat < 128) {r : Bytes} (h : utf8Tail (c :: r) = none) :
    unquoteFrom 0 (c :: r) = replacement ++ unquoteFrom 0 r := by
  rw [unquoteFrom.eq_def]
  simp only [if_neg h1, if_neg h2, h]

theorem fffd_eq : fffd = replacement := by decide

theorem hexIs_hex {c : UInt8} {v : Nat} (h : HexIs c v) : Hex c := by
  have h' := h
  unfold HexIs at h
  unfold Hex Digit
  rcases h with h | h <;> (have := List.mem_of_getElem? h; simp only [List.mem_cons, List.not_mem_nil, or_false] at this ⊢; tauto)

/-- The bytes of a character that is not a control character, a quote or a backslash. -/
theorem utf8_bytes (c : Char) (h1 : 0x20 ≤ c.toNat) (h2 : c ≠ '"') (h3 : c ≠ '\\') :
    ∀ b ∈ String.utf8EncodeChar c, 0x20 ≤ b ∧ b ≠ 0x22 ∧ b ≠ 0x5C := by
  have hlt := char_lt c
  by_cases hc : c.toNat < 128
  · have he : String.utf8EncodeChar c = [UInt8.ofNat c.toNat] := by
      rw [← encodeRune_char]; unfold encodeRune; rw [if_pos hc]
    rw [he]
    intro b hb
    rw [List.mem_singleton.mp hb]
    refine ⟨?_, ?_, ?_⟩
    · rw [UInt8.le_iff_toNat_le, UInt8.toNat_ofNat']
      have : (0x20 : UInt8).toNat = 32 := rfl
      omega
    · rw [Ne, show (0x22 : UInt8) = UInt8.ofNat 34 from rfl, ofNat_inj (by omega) _ (by omega)]
      intro h
      exact h2 (Char.toNat_inj.mp h)
    · rw [Ne, show (0x5C : UInt8) = UInt8.ofNat 92 from rfl, ofNat_inj (by omega) _ (by omega)]
      intro h
      exact h3 (Char.toNat_inj.mp h)
  · have big : ∀ n : Nat, 128 ≤ n → n < 256 → 0x20 ≤ UInt8.ofNat n ∧ UInt8.ofNat n ≠ 0x22 ∧ UInt8.ofNat n ≠ 0x5C := by
      intro n hn hn'
      refine ⟨?_, ?_, ?_⟩
      · rw [UInt8.le_iff_toNat_le, UInt8.toNat_ofNat']
        have : (0x20 : UInt8).toNat = 32 := rfl
        omega
      · rw [Ne, show (0x22 : UInt8) = UInt8.ofNat 34 from rfl, ofNat_inj (by omega) _ (by omega)]
        omega
      · rw [Ne, show (0x5C : UInt8) = UInt8.ofNat 92 from rfl, ofNat_inj (by omega) _ (by omega)]
        omega
    have hsur := char_not_surrogate c
    rw [← encodeRune_char]
    generalize c.toNat = v at *
    unfold encodeRune
    rw [if_neg hc]
    intro b hb
    split at hb
    · simp only [List.mem_cons, List.not_mem_nil, or_false] at hb
      rcases hb with rfl | rfl <;> exact big _ (by omega) (by omega)
    split at hb
    · simp only [List.mem_cons, List.not_mem_nil, or_false] at hb
      rcases hb with rfl | rfl | rfl <;> exact big _ (by omega) (by omega)
    · simp only [List.mem_cons, List.not_mem_nil, or_false] at hb
      rcases hb with rfl | rfl | rfl | rfl <;> exact big _ (by omega) (by omega)

theorem Chars.append {s t : Bytes} (hs : ∀ b ∈ s, 0x20 ≤ b ∧ b ≠ 0x22 ∧ b ≠ 0x5C) (ht : Chars t) : Chars (s ++ t) := by
  induction s with
  | nil => exact ht
  | cons c s ih =>
    rw [List.forall_mem_cons] at hs
    exact .plain hs.1.1 hs.1.2.1 hs.1.2.2 (ih hs.2)

/-- What has a meaning may stand between quotes. -/
theorem means_chars {raw t : Bytes} (h : Means raw t) : Chars raw := by
  have hex4 : ∀ {h : List UInt8} {v : Nat} {s : Bytes}, Hex4Is h v → Chars s → Chars (0x5C :: 0x75 :: h ++ s) := by
    rintro h v s ⟨c1, c2, c3, c4, v1, v2, v3, v4, rfl, h1, h2, h3, h4, _⟩ hs
    exact .unicode (hexIs_hex h1) (hexIs_hex h2) (hexIs_hex h3) (hexIs_hex h4) hs
  induction h with
  | nil => exact .nil
  | char h1 h2 h3 _ ih => exact Chars.append (utf8_bytes _ h1 h2 h3) ih
  | esc h1 _ ih =>
    refine .esc ?_ ih
    simp only [List.mem_cons, Prod.mk.injEq, List.not_mem_nil, or_false] at h1 ⊢
    tauto
  | unicode h1 _ ih => exact hex4 h1 ih
  | pair _ h1 h2 _ ih =>
    have := hex4 h1 (hex4 h2 ih)
    simpa using this
  | bad h1 _ _ ih =>
    refine .plain (UInt8.le_trans (by decide) h1) ?_ ?_ ih
    · rintro rfl; exact absurd h1 (by decide)
    · rintro rfl; exact absurd h1 (by decide)
  | alone h1 _ _ _ _ ih => exact hex4 h1 ih

theorem hex_hexIs {c : UInt8} (h : Hex c) : ∃ v, HexIs c v := by
  unfold Hex Digit at h
  simp only [List.mem_cons, List.not_mem_nil, or_false] at h
  unfold HexIs
  rcases h with (rfl | rfl | rfl | rfl | rfl | rfl | rfl | rfl | rfl | rfl) | rfl | rfl | rfl | rfl | rfl | rfl | rfl | rfl | rfl | rfl | rfl | rfl
  · exact ⟨0, by decide⟩
  · exact ⟨1, by decide⟩
  · exact ⟨2, by decide⟩
  · exact ⟨3, by decide⟩
  · exact ⟨4, by decide⟩
  · exact ⟨5, by decide⟩
  · exact ⟨6, by decide⟩
  · exact ⟨7, by decide⟩
  · exact ⟨8, by decide⟩
  · exact ⟨9, by decide⟩
  · exact ⟨10, by decide⟩
  · exact ⟨11, by decide⟩
  · exact ⟨12, by decide⟩
  · exact ⟨13, by decide⟩
  · exact ⟨14, by decide⟩
  · exact ⟨15, by decide⟩
  · exact ⟨10, by decide⟩
  · exact ⟨11, by decide⟩
  · exact ⟨12, by decide⟩
  · exact ⟨13, by decide⟩
  · exact ⟨14, by decide⟩
  · exact ⟨15, by decide⟩

theorem hex4_of {h1 h2 h3 h4 : UInt8} (g1 : Hex h1) (g2 : Hex h2) (g3 : Hex h3) (g4 : Hex h4) :
    Hex4Is [h1, h2, h3, h4] (hex4 h1 h2 h3 h4) := by
  obtain ⟨v1, g1⟩ := hex_hexIs g1
  obtain ⟨v2, g2⟩ := hex_hexIs g2
  obtain ⟨v3, g3⟩ := hex_hexIs g3
  obtain ⟨v4, g4⟩ := hex_hexIs g4
  have h : Hex4Is [h1, h2, h3, h4] (4096 * v1 + 256 * v2 + 16 * v3 + v4) := ⟨_, _, _, _, _, _, _, _, rfl, g1, g2, g3, g4, rfl⟩
  obtain ⟨c1, c2, c3, c4, hc, hv⟩ := hex4_is h
  cases hc
  rwa [hv]

/-- Between quotes, backslash and `u` are followed by four hexadecimal digits. -/
theorem Chars.inv_unicode {s : Bytes} (h : Chars (92 :: 117 :: s)) :
    ∃ h1 h2 h3 h4 r, s = h1 :: h2 :: h3 :: h4 :: r ∧ Hex h1 ∧ Hex h2 ∧ Hex h3 ∧ Hex h4 ∧ Chars r := by
  cases h with
  | plain _ _ h _ => exact absurd rfl h
  | esc h _ => exact absurd h (by decide)
  | unicode g1 g2 g3 g4 hs => exact ⟨_, _, _, _, _, rfl, g1, g2, g3, g4, hs⟩

/-- Half of a pair that is alone is replaced. -/
theorem unq_alone {h1 h2 h3 h4 : UInt8} {s : Bytes} (hs : Chars s) (h : 0xD800 ≤ hex4 h1 h2 h3 h4 ∧ hex4 h1 h2 h3 h4 < 0xE000)
    (hn : ¬ (hex4 h1 h2 h3 h4 < 0xDC00 ∧ SecondHalf s)) :
    unquoteFrom 0 (92 :: 117 :: h1 :: h2 :: h3 :: h4 :: s) = replacement ++ unquoteFrom 0 s := by
  rw [unquoteFrom.eq_def]
  simp only [if_true, if_pos h]
  split
  · rename_i b u g1 g2 g3 g4 r
    split
    · rename_i hb
      obtain ⟨rfl, rfl⟩ := hb
      obtain ⟨_, _, _, _, _, he, k1, k2, k3, k4, -⟩ := Chars.inv_unicode hs
      cases he
      have : surrogates (hex4 h1 h2 h3 h4) (hex4 g1 g2 g3 g4) = none := by
        unfold surrogates
        rw [if_neg]
        rintro ⟨m1, m2, m3, m4⟩
        exact hn ⟨m2, _, _, _, rfl, hex4_of k1 k2 k3 k4, m3, m4⟩
      rw [this]
    · rfl
  · rfl

theorem unquote_means {raw t : Bytes} (h : Means raw t) : unquote raw = t := by
  unfold unquote
  induction h with
  | nil => rfl
  | char h1 h2 h3 _ ih =>
    rename_i c s t _
    by_cases hc : 128 ≤ c.toNat
    · rw [unquote_char c hc, ih]
    · have he : String.utf8EncodeChar c = [UInt8.ofNat c.toNat] := by
        rw [← encodeRune_char]; unfold encodeRune; rw [if_pos (by omega)]
      have h92 : UInt8.ofNat c.toNat ≠ 92 := by
        rw [Ne, show (92 : UInt8) = UInt8.ofNat 92 from rfl, ofNat_inj (by omega) _ (by omega)]
        intro h
        exact h3 (Char.toNat_inj.mp h)
      rw [he, List.cons_append, List.nil_append, unq_plain h92 (by rw [UInt8.toNat_ofNat']; omega), ih]
      rfl
  | esc h1 _ ih =>
    rename_i c d s t _
    have : c ≠ 117 ∧ unescape c = d := by
      revert h1
      simp only [List.mem_cons, Prod.mk.injEq, List.not_mem_nil, or_false]
      rintro (⟨rfl, rfl⟩ | ⟨rfl, rfl⟩ | ⟨rfl, rfl⟩ | ⟨rfl, rfl⟩ | ⟨rfl, rfl⟩ | ⟨rfl, rfl⟩ | ⟨rfl, rfl⟩ | ⟨rfl, rfl⟩) <;> decide
    rw [unq_esc this.1, this.2, ih]
  | unicode h1 _ ih =>
    rename_i c h s t _
    obtain ⟨c1, c2, c3, c4, rfl, hv⟩ := hex4_is h1
    simp only [List.cons_append, List.nil_append]
    rw [unq_unicode (by rw [hv]; exact char_not_surrogate c), hv, encodeRune_char, ih]
  | pair h0 h1 h2 _ ih =>
    rename_i c h h' s t _
    obtain ⟨c1, c2, c3, c4, rfl, hv⟩ := hex4_is h1
    obtain ⟨d1, d2, d3, d4, rfl, hw⟩ := hex4_is h2
    have hlt := char_lt c
    simp only [List.cons_append, List.nil_append]
    have hs : surrogates (0xD800 + (c.toNat - 0x10000) / 1024) (0xDC00 + (c.toNat - 0x10000) % 1024) = some c.toNat := by
      unfold surrogates
      rw [if_pos ⟨by omega, by omega, by omega, by omega⟩]
      have : ∀ v : Nat, 0x10000 ≤ v → (0xD800 + (v - 0x10000) / 1024 - 0xD800) * 1024 + (0xDC00 + (v - 0x10000) % 1024 - 0xDC00) + 0x10000 = v := by
        intro v hv
        omega
      rw [this _ h0]
    rw [unq_pair (by rw [hv]; omega) (by rw [hv, hw]; exact hs), encodeRune_char, ih]
  | bad h1 h2 _ ih =>
    rename_i b s t _
    have h3 : ¬ b.toNat < 128 := by
      have := UInt8.le_iff_toNat_le.mp h1
      simpa using this
    have h4 : utf8Tail (b :: s) = none := by
      cases h5 : utf8Tail (b :: s) with
      | none => rfl
      | some k =>
        obtain ⟨d, s', _, h6⟩ := tail_char h5
        exact absurd h6 (h2 d s')
    rw [unq_bad (by rintro rfl; exact h3 (by decide)) h3 h4, ih, fffd_eq]
  | alone h1 h2 h3 h4 hs ih =>
    rename_i h v s t
    obtain ⟨c1, c2, c3, c4, rfl, rfl⟩ := hex4_is h1
    simp only [List.cons_append, List.nil_append]
    rw [unq_alone (means_chars hs) ⟨h2, h3⟩ h4, ih, fffd_eq]

/-- Bytes of at least 128 may be taken away at the start. -/
theorem Chars.of_append {l s : Bytes} (hl : ∀ b ∈ l, b ≠ 0x5C) (h : Chars (l ++ s)) : Chars s := by
  induction l with
  | nil => exact h
  | cons c l ih =>
    rw [List.forall_mem_cons] at hl
    rw [List.cons_append] at h
    generalize hx : l ++ s = x at h
    cases h with
    | plain _ _ _ h => exact ih hl.2 (hx ▸ h)
    | esc => exact absurd rfl hl.1
    | unicode => exact absurd rfl hl.1

/-- Everything that may stand between quotes has a meaning. -/
theorem means_total {raw : Bytes} (h : Chars raw) : ∃ t, Means raw t := by
  induction hn : raw.length using Nat.strong_induction_on generalizing raw with
  | _ n ih =>
  subst hn
  cases h with
  | nil => exact ⟨_, .nil⟩
  | @plain c s h1 h2 h3 hs =>
    obtain ⟨t, ht⟩ := ih s.length (by simp) hs rfl
    by_cases hc : c.toNat < 128
    · have hv : c.toNat.isValidChar := by unfold Nat.isValidChar; omega
      obtain ⟨d, hd⟩ : ∃ d : Char, d.toNat = c.toNat := ⟨Char.ofNatAux _ hv, by unfold Char.ofNatAux Char.toNat; simp [UInt32.toNat]⟩
      have he : String.utf8EncodeChar d = [c] := by
        rw [← encodeRune_char, hd]; unfold encodeRune; rw [if_pos hc, UInt8.ofNat_toNat]
      have := Means.char (c := d) (s := s) (t := t) (by
        rw [hd]
        have := UInt8.le_iff_toNat_le.mp h1
        simpa using this) (by
        rintro rfl
        exact h2 (UInt8.toNat_inj.mp hd.symm)) (by
        rintro rfl
        exact h3 (UInt8.toNat_inj.mp hd.symm)) ht
      rw [he] at this
      exact ⟨_, this⟩
    · by_cases hd : ∃ (d : Char) (s' : Bytes), c :: s = String.utf8EncodeChar d ++ s'
      · obtain ⟨d, s', hd⟩ := hd
        have hge : 128 ≤ d.toNat := by
          by_contra hlt
          have he : String.utf8EncodeChar d = [UInt8.ofNat d.toNat] := by
            rw [← encodeRune_char]; unfold encodeRune; rw [if_pos (by omega)]
          rw [he, List.cons_append] at hd
          obtain ⟨rfl, _⟩ := List.cons.inj hd
          rw [UInt8.toNat_ofNat'] at hc
          omega
        have hq : d ≠ '"' ∧ d ≠ '\\' := by
          constructor <;> (rintro rfl; revert hge; decide)
        have hb := utf8_bytes d (by omega) hq.1 hq.2
        have hs' : Chars s' := Chars.of_append (fun b hb' => (hb b hb').2.2) (hd ▸ .plain h1 h2 h3 hs)
        obtain ⟨a, l, ha, -⟩ := char_tail d hge
        obtain ⟨t', ht'⟩ := ih s'.length (by rw [hd, ha, List.length_append, List.length_cons]; omega) hs' rfl
        exact ⟨_, by rw [hd]; exact Means.char (by omega) hq.1 hq.2 ht'⟩
      · refine ⟨_, .bad ?_ (fun d s' h => hd ⟨d, s', h⟩) ht⟩
        rw [UInt8.le_iff_toNat_le]
        simpa using hc
  | @esc c s h hs =>
    obtain ⟨t, ht⟩ := ih s.length (by simp; omega) hs rfl
    have : ∃ d, (c, d) ∈ ([(0x22, 0x22), (0x5C, 0x5C), (0x2F, 0x2F), (0x62, 0x08), (0x66, 0x0C), (0x6E, 0x0A), (0x72, 0x0D),
        (0x74, 0x09)] : List (UInt8 × UInt8)) := by
      simp only [List.mem_cons, List.not_mem_nil, or_false] at h
      rcases h with rfl | rfl | rfl | rfl | rfl | rfl | rfl | rfl
      · exact ⟨0x22, by decide⟩
      · exact ⟨0x5C, by decide⟩
      · exact ⟨0x2F, by decide⟩
      · exact ⟨0x08, by decide⟩
      · exact ⟨0x0C, by decide⟩
      · exact ⟨0x0A, by decide⟩
      · exact ⟨0x0D, by decide⟩
      · exact ⟨0x09, by decide⟩
    obtain ⟨d, hd⟩ := this
    exact ⟨_, .esc hd ht⟩
  | @unicode h1 h2 h3 h4 s g1 g2 g3 g4 hs =>
    have hx := hex4_of g1 g2 g3 g4
    have hlt : hex4 h1 h2 h3 h4 < 65536 := by
      obtain ⟨c1, c2, c3, c4, v1, v2, v3, v4, _, k1, k2, k3, k4, hv⟩ := hx
      have := (hexVal_is k1).2
      have := (hexVal_is k2).2
      have := (hexVal_is k3).2
      have := (hexVal_is k4).2
      omega
    obtain ⟨t, ht⟩ := ih s.length (by simp; omega) hs rfl
    by_cases hsur : 0xD800 ≤ hex4 h1 h2 h3 h4 ∧ hex4 h1 h2 h3 h4 < 0xE000
    · by_cases hp : hex4 h1 h2 h3 h4 < 0xDC00 ∧ SecondHalf s
      · obtain ⟨hp, h', w, s', rfl, hw, w1, w2⟩ := hp
        have hs' : Chars s' := by
          obtain ⟨e1, e2, e3, e4, rfl, -⟩ := hex4_is hw
          obtain ⟨_, _, _, _, _, he, -, -, -, -, hs'⟩ := Chars.inv_unicode (show Chars (92 :: 117 :: (e1 :: e2 :: e3 :: e4 :: s')) from hs)
          cases he
          exact hs'
        obtain ⟨t', ht'⟩ := ih s'.length (by simp; omega) hs' rfl
        have hv : ((hex4 h1 h2 h3 h4 - 0xD800) * 1024 + (w - 0xDC00) + 0x10000).isValidChar := by unfold Nat.isValidChar; omega
        obtain ⟨d, hd⟩ : ∃ d : Char, d.toNat = (hex4 h1 h2 h3 h4 - 0xD800) * 1024 + (w - 0xDC00) + 0x10000 :=
          ⟨Char.ofNatAux _ hv, by unfold Char.ofNatAux Char.toNat; simp [UInt32.toNat]⟩
        have := Means.pair (c := d) (h := [h1, h2, h3, h4]) (h' := h') (s := s') (t := t') (by omega)
          (by rw [show 0xD800 + (d.toNat - 0x10000) / 1024 = hex4 h1 h2 h3 h4 by omega]; exact hx)
          (by rw [show 0xDC00 + (d.toNat - 0x10000) % 1024 = w by omega]; exact hw) ht'
        exact ⟨_, by simpa using this⟩
      · exact ⟨_, .alone hx hsur.1 hsur.2 hp ht⟩
    · have hv : (hex4 h1 h2 h3 h4).isValidChar := by unfold Nat.isValidChar; omega
      obtain ⟨d, hd⟩ : ∃ d : Char, d.toNat = hex4 h1 h2 h3 h4 :=
        ⟨Char.ofNatAux _ hv, by unfold Char.ofNatAux Char.toNat; simp [UInt32.toNat]⟩
      exact ⟨_, .unicode (c := d) (h := [h1, h2, h3, h4]) (by rw [hd]; exact hx) ht⟩

theorem means_unquote {raw : Bytes} (h : Chars raw) : Means raw (unquote raw) := by
  obtain ⟨t, ht⟩ := means_total h
  rwa [unquote_means ht]


end Verif.Json
