import Verif.Lemmas.JsonString
import Mathlib.Data.List.TakeWhile
import Mathlib.Tactic.Tauto

/-!
The reader accepts exactly the texts of the grammar.
-/

namespace Verif.Json

open Spec.Json

theorem isSpace_iff (c : UInt8) : isSpace c = true ↔ c ∈ ([0x20, 0x09, 0x0A, 0x0D] : Bytes) := by
  simp [isSpace]; tauto

/-- A statement about a byte can be checked for all 256. -/
theorem byte_all {p : UInt8 → Prop} (h : ∀ n : Fin 256, p (UInt8.ofNat n.val)) (c : UInt8) : p c := by
  have := h ⟨c.toNat, c.toNat_lt⟩
  rwa [UInt8.ofNat_toNat] at this

theorem isDigit_iff (c : UInt8) : isDigit c = true ↔ Digit c := by
  refine byte_all (p := fun c => isDigit c = true ↔ Digit c) ?_ c
  unfold isDigit Digit
  decide +kernel

theorem isHex_iff (c : UInt8) : isHex c = true ↔ Hex c := by
  refine byte_all (p := fun c => isHex c = true ↔ Hex c) ?_ c
  unfold isHex isDigit Hex Digit
  decide +kernel

theorem isEsc_iff (c : UInt8) : isEsc c = true ↔ c ∈ ([0x22, 0x5C, 0x2F, 0x62, 0x66, 0x6E, 0x72, 0x74] : Bytes) := by
  simp [isEsc]; tauto

theorem skipWs_ws {w : Bytes} (hw : Ws w) (b : Bytes) : skipWs (w ++ b) = skipWs b := by
  induction w with
  | nil => rfl
  | cons c w ih =>
    have h1 : isSpace c = true := (isSpace_iff c).mpr (hw c List.mem_cons_self)
    rw [List.cons_append, skipWs, List.dropWhile_cons_of_pos h1]
    exact ih fun d hd => hw d (List.mem_cons_of_mem _ hd)

theorem skipWs_cons {c : UInt8} (h : isSpace c = false) (b : Bytes) : skipWs (c :: b) = c :: b := by
  rw [skipWs, List.dropWhile_cons_of_neg (by simp [h])]

theorem skipWs_split (b : Bytes) : ∃ w, Ws w ∧ b = w ++ skipWs b :=
  ⟨b.takeWhile isSpace, fun c hc => (isSpace_iff c).mp (List.mem_takeWhile_imp hc), (List.takeWhile_append_dropWhile).symm⟩

theorem skipWs_ws_nil {w : Bytes} (hw : Ws w) : skipWs w = [] := by
  have := skipWs_ws hw []
  rwa [List.append_nil] at this

/-- The end of the text or a character that ends a value. -/
def Stop (b : Bytes) : Prop := ∀ c r, b = c :: r → isSpace c = true ∨ c = 44 ∨ c = 93 ∨ c = 125

theorem Stop.nil : Stop [] := fun c r h => by cases h

theorem Stop.ws {w b : Bytes} (hw : Ws w) (h : Stop b) : Stop (w ++ b) := by
  intro c r he
  cases w with
  | nil => exact h c r he
  | cons d w =>
    cases he
    exact Or.inl ((isSpace_iff _).mpr (hw _ List.mem_cons_self))

theorem Stop.comma (r : Bytes) : Stop (44 :: r) := by rintro c r' h; cases h; simp
theorem Stop.bracket (r : Bytes) : Stop (93 :: r) := by rintro c r' h; cases h; simp
theorem Stop.brace (r : Bytes) : Stop (125 :: r) := by rintro c r' h; cases h; simp

theorem Stop.notDigit {b : Bytes} (h : Stop b) {c : UInt8} {r : Bytes} (he : b = c :: r) : isDigit c = false ∧ c ≠ 46 ∧ c ≠ 101 ∧ c ≠ 69 := by
  rcases h c r he with h | rfl | rfl | rfl
  · revert h
    refine byte_all (p := fun c => isSpace c = true → isDigit c = false ∧ c ≠ 46 ∧ c ≠ 101 ∧ c ≠ 69) ?_ c
    unfold isSpace isDigit
    decide +kernel
  all_goals decide

/-! ## Strings -/

theorem scanString_chars {raw : Bytes} (h : Chars raw) (rest : Bytes) : scanString (raw ++ 34 :: rest) = some (raw, rest) := by
  induction h with
  | nil => rw [List.nil_append, scanString.eq_def]; rfl
  | @plain c s h1 h2 h3 _ ih =>
    rw [List.cons_append, scanString.eq_def]
    have h4 : ¬ c.toNat < 32 := by
      have := UInt8.le_iff_toNat_le.mp h1
      simpa using this
    simp only [if_neg h2, if_neg h3, if_neg h4, ih, Option.map_some]
  | @esc c s h _ ih =>
    rw [List.cons_append, List.cons_append, scanString.eq_def]
    simp only [show (0x5C : UInt8) ≠ 34 by decide, if_false, if_true, (isEsc_iff c).mpr h, ih, Option.map_some]
  | @unicode h1 h2 h3 h4 s g1 g2 g3 g4 _ ih =>
    simp only [List.cons_append]
    rw [scanString.eq_def]
    simp only [show (0x5C : UInt8) ≠ 34 by decide, if_false, if_true, show isEsc 0x75 = false by decide, Bool.false_eq_true,
      (isHex_iff _).mpr g1, (isHex_iff _).mpr g2, (isHex_iff _).mpr g3, (isHex_iff _).mpr g4, ih, Option.map_some, and_self]

theorem scanString_sound {b raw rest : Bytes} (h : scanString b = some (raw, rest)) : Chars raw ∧ b = raw ++ 34 :: rest := by
  induction hn : b.length using Nat.strong_induction_on generalizing b raw rest with
  | _ n ih =>
  rw [scanString.eq_def] at h
  cases b with
  | nil => cases h
  | cons c r =>
    simp only at h
    split at h
    · rename_i hc
      cases h; subst hc
      exact ⟨.nil, rfl⟩
    rename_i hc34
    split at h
    · rename_i hc
      subst hc
      cases r with
      | nil => cases h
      | cons e r =>
        simp only at h
        split at h
        · rename_i he
          obtain ⟨p, h1, h2⟩ := Option.map_eq_some_iff.mp h
          cases h2
          obtain ⟨g1, g2⟩ := ih r.length (by simp only [List.length_cons] at hn; omega) (raw := p.1) (rest := p.2) h1 rfl
          exact ⟨.esc ((isEsc_iff e).mp he) g1, by rw [g2]; rfl⟩
        split at h
        · rename_i he
          subst he
          match r, h, hn with
          | h1 :: h2 :: h3 :: h4 :: r, h, hn =>
            simp only at h
            split at h
            · rename_i hx
              obtain ⟨p, k1, k2⟩ := Option.map_eq_some_iff.mp h
              cases k2
              obtain ⟨g1, g2⟩ := ih r.length (by simp only [List.length_cons] at hn; omega) (raw := p.1) (rest := p.2) k1 rfl
              exact ⟨.unicode ((isHex_iff _).mp hx.1) ((isHex_iff _).mp hx.2.1) ((isHex_iff _).mp hx.2.2.1) ((isHex_iff _).mp hx.2.2.2) g1,
                by rw [g2]; rfl⟩
            · cases h
          | [], h, _ => cases h
          | [_], h, _ => cases h
          | [_, _], h, _ => cases h
          | [_, _, _], h, _ => cases h
        · cases h
    · rename_i hc92
      split at h
      · cases h
      · rename_i hc
        obtain ⟨p, h1, h2⟩ := Option.map_eq_some_iff.mp h
        cases h2
        obtain ⟨g1, g2⟩ := ih r.length (by simp only [List.length_cons] at hn; omega) (raw := p.1) (rest := p.2) h1 rfl
        refine ⟨.plain ?_ hc34 hc92 g1, by rw [g2]; rfl⟩
        rw [UInt8.le_iff_toNat_le]
        simpa using hc

/-! ## Numbers -/

theorem takeWhile_digits {ds b : Bytes} (h : ∀ d ∈ ds, Digit d) (hb : ∀ c r, b = c :: r → isDigit c = false) :
    (ds ++ b).takeWhile isDigit = ds ∧ (ds ++ b).dropWhile isDigit = b := by
  induction ds with
  | nil =>
    cases b with
    | nil => exact ⟨rfl, rfl⟩
    | cons c r => simp [hb c r rfl]
  | cons d ds ih =>
    have h1 : isDigit d = true := (isDigit_iff d).mpr (h d List.mem_cons_self)
    obtain ⟨h2, h3⟩ := ih fun e he => h e (List.mem_cons_of_mem _ he)
    rw [List.cons_append, List.takeWhile_cons_of_pos h1, List.dropWhile_cons_of_pos h1, h2, h3]
    exact ⟨rfl, rfl⟩

theorem digits_split (b : Bytes) : (∀ d ∈ b.takeWhile isDigit, Digit d) ∧ b = b.takeWhile isDigit ++ b.dropWhile isDigit :=
  ⟨fun d hd => (isDigit_iff d).mp (List.mem_takeWhile_imp hd), (List.takeWhile_append_dropWhile).symm⟩

theorem scanTail_exp {e : Bytes} (he : ExpPart e) (lit : Bytes) {rest : Bytes} (hr : Stop rest) :
    scanTail lit (e ++ rest) = some (lit ++ e, rest) := by
  rcases he with rfl | ⟨x, sign, ds, rfl, hx, hs, hne, hds⟩
  · rw [List.nil_append, List.append_nil]
    cases rest with
    | nil => rfl
    | cons c r =>
      have := hr.notDigit rfl
      simp only [scanTail, this.2.2.1, this.2.2.2, or_self, if_false]
  · have hx' : x = 101 ∨ x = 69 := hx
    obtain ⟨t1, t2⟩ := takeWhile_digits hds fun c r h => (hr.notDigit h).1
    simp only [List.cons_append, List.append_assoc, scanTail, if_pos hx']
    obtain ⟨d, ds', rfl⟩ := List.exists_cons_of_ne_nil hne
    have hd : isDigit d = true := (isDigit_iff d).mpr (hds d List.mem_cons_self)
    have hd' : ¬ (d = 43 ∨ d = 45) := by
      rintro (rfl | rfl) <;> exact absurd hd (by decide)
    rcases hs with rfl | rfl | rfl
    · simp only [List.nil_append, List.cons_append, scanExp, if_neg hd'] at t1 t2 ⊢
      rw [t1, t2, if_neg (by simp)]
      simp
    · simp only [List.cons_append, List.nil_append, scanExp] at t1 t2 ⊢
      simp only [true_or, or_true, if_true]
      rw [t1, t2, if_neg (by simp)]
      simp
    · simp only [List.cons_append, List.nil_append, scanExp] at t1 t2 ⊢
      simp only [true_or, or_true, if_true]
      rw [t1, t2, if_neg (by simp)]
      simp

theorem expPart_head {e : Bytes} (he : ExpPart e) {rest : Bytes} (hr : Stop rest) {c : UInt8} {r : Bytes} (h : e ++ rest = c :: r) :
    isDigit c = false ∧ c ≠ 46 := by
  rcases he with rfl | ⟨x, sign, ds, rfl, hx, _⟩
  · have := hr.notDigit h
    exact ⟨this.1, this.2.1⟩
  · cases h
    rcases hx with rfl | rfl <;> decide

theorem scanFrac_frac {f e : Bytes} (hf : FracPart f) (he : ExpPart e) (lit : Bytes) {rest : Bytes} (hr : Stop rest) :
    scanFrac lit (f ++ e ++ rest) = some (lit ++ f ++ e, rest) := by
  rcases hf with rfl | ⟨ds, rfl, hne, hds⟩
  · rw [List.nil_append, List.append_nil]
    cases hb : e ++ rest with
    | nil =>
      rw [← scanTail_exp he lit hr, hb]
      rfl
    | cons c r =>
      have := expPart_head he hr hb
      simp only [scanFrac, if_neg this.2]
      rw [← hb, scanTail_exp he lit hr]
  · obtain ⟨t1, t2⟩ := takeWhile_digits (b := e ++ rest) hds fun c r h => (expPart_head he hr h).1
    simp only [List.cons_append, List.append_assoc, scanFrac]
    rw [if_pos (by decide), t1, t2, if_neg hne, scanTail_exp he _ hr]
    simp

theorem fracPart_head {f e : Bytes} (hf : FracPart f) (he : ExpPart e) {rest : Bytes} (hr : Stop rest) {c : UInt8} {r : Bytes}
    (h : f ++ e ++ rest = c :: r) : isDigit c = false := by
  rcases hf with rfl | ⟨ds, rfl, _⟩
  · exact (expPart_head he hr (by simpa using h)).1
  · cases h
    decide

theorem scanNumber_number {s : Bytes} (h : Number s) {rest : Bytes} (hr : Stop rest) : scanNumber (s ++ rest) = some (s, rest) := by
  obtain ⟨sign, i, f, e, rfl, hs, hi, hf, he⟩ := h
  have key : ∀ sg, scanInt sg (i ++ f ++ e ++ rest) = some (sg ++ i ++ f ++ e, rest) := by
    intro sg
    rcases hi with rfl | ⟨c, ds, rfl, hc, hc0, hds⟩
    · simp only [List.cons_append, List.nil_append, scanInt]
      rw [if_pos (by decide), scanFrac_frac hf he _ hr]
    · have hc' : isDigit c = true := (isDigit_iff c).mpr hc
      obtain ⟨t1, t2⟩ := takeWhile_digits (ds := c :: ds) (b := f ++ e ++ rest)
        (by intro d hd; rcases List.mem_cons.mp hd with rfl | hd; exacts [hc, hds d hd]) fun c r h => fracPart_head hf he hr h
      simp only [List.cons_append, List.append_assoc] at t1 t2
      simp only [List.cons_append, List.append_assoc, scanInt]
      rw [if_neg (show ¬ c = 48 from hc0), if_pos hc', t1, t2]
      rw [← List.append_assoc, scanFrac_frac hf he _ hr]
      simp only [List.append_assoc, List.cons_append]
  have hcons : ∃ c r, i ++ f ++ e ++ rest = c :: r ∧ isDigit c = true := by
    rcases hi with rfl | ⟨c, ds, rfl, hc, _⟩
    · exact ⟨_, _, rfl, by decide⟩
    · exact ⟨_, _, rfl, (isDigit_iff c).mpr hc⟩
  rcases hs with rfl | rfl
  · obtain ⟨c, r, h1, h2⟩ := hcons
    have hne : c ≠ 45 := by rintro rfl; exact absurd h2 (by decide)
    have h3 := key []
    simp only [List.nil_append] at h3 ⊢
    rw [h1] at h3 ⊢
    rw [scanNumber, if_neg hne, h3]
  · have h3 := key [45]
    simp only [List.cons_append, List.nil_append, scanNumber, if_true] at h3 ⊢
    exact h3

theorem scanTail_sound {lit b lit' rest : Bytes} (h : scanTail lit b = some (lit', rest)) : ∃ e, ExpPart e ∧ lit' = lit ++ e ∧ b = e ++ rest := by
  cases b with
  | nil => cases h; exact ⟨[], Or.inl rfl, by simp, rfl⟩
  | cons c r =>
    simp only [scanTail] at h
    split at h
    · rename_i hc
      cases r with
      | nil => cases h
      | cons d r =>
        simp only [scanExp] at h
        by_cases hd : d = 43 ∨ d = 45
        · simp only [if_pos hd] at h
          split at h
          · cases h
          · rename_i hne
            cases h
            obtain ⟨h1, h2⟩ := digits_split r
            refine ⟨c :: d :: r.takeWhile isDigit, Or.inr ⟨c, [d], r.takeWhile isDigit, rfl, hc, Or.inr ?_, hne, h1⟩, by simp, ?_⟩
            · rcases hd with rfl | rfl <;> simp
            · simp
        · simp only [if_neg hd] at h
          split at h
          · cases h
          · rename_i hne
            cases h
            obtain ⟨h1, h2⟩ := digits_split (d :: r)
            refine ⟨c :: (d :: r).takeWhile isDigit, Or.inr ⟨c, [], (d :: r).takeWhile isDigit, rfl, hc, Or.inl rfl, hne, h1⟩, by simp, ?_⟩
            simp
    · cases h; exact ⟨[], Or.inl rfl, by simp, rfl⟩

theorem scanFrac_sound {lit b lit' rest : Bytes} (h : scanFrac lit b = some (lit', rest)) :
    ∃ f e, FracPart f ∧ ExpPart e ∧ lit' = lit ++ f ++ e ∧ b = f ++ e ++ rest := by
  cases b with
  | nil =>
    obtain ⟨e, h1, h2, h3⟩ := scanTail_sound (b := []) h
    exact ⟨[], e, Or.inl rfl, h1, by simpa using h2, by simpa using h3⟩
  | cons c r =>
    simp only [scanFrac] at h
    split at h
    · rename_i hc
      subst hc
      split at h
      · cases h
      · rename_i hne
        obtain ⟨e, h1, h2, h3⟩ := scanTail_sound h
        obtain ⟨g1, g2⟩ := digits_split r
        refine ⟨46 :: r.takeWhile isDigit, e, Or.inr ⟨_, rfl, hne, g1⟩, h1, by simpa using h2, ?_⟩
        rw [List.cons_append, List.cons_append, List.append_assoc, ← h3, ← g2]
    · obtain ⟨e, h1, h2, h3⟩ := scanTail_sound h
      exact ⟨[], e, Or.inl rfl, h1, by simpa using h2, by simpa using h3⟩

theorem scanNumber_sound {b lit rest : Bytes} (h : scanNumber b = some (lit, rest)) : Number lit ∧ b = lit ++ rest := by
  have key : ∀ sg r, (sg = [] ∨ sg = [45]) → scanInt sg r = some (lit, rest) → Number lit ∧ sg ++ r = lit ++ rest := by
    intro sg r hsg h
    cases r with
    | nil => cases h
    | cons c r =>
      simp only [scanInt] at h
      split at h
      · rename_i hc
        subst hc
        obtain ⟨f, e, h1, h2, h3, h4⟩ := scanFrac_sound h
        refine ⟨⟨sg, [48], f, e, by rw [h3], hsg, Or.inl rfl, h1, h2⟩, ?_⟩
        rw [h3, h4]; simp
      · rename_i hc0
        split at h
        · rename_i hc
          obtain ⟨f, e, h1, h2, h3, h4⟩ := scanFrac_sound h
          obtain ⟨g1, g2⟩ := digits_split (c :: r)
          rw [List.takeWhile_cons_of_pos hc] at g1 g2 h3
          refine ⟨⟨sg, c :: r.takeWhile isDigit, f, e, h3, hsg, Or.inr ⟨c, _, rfl, (isDigit_iff c).mp hc, hc0, ?_⟩, h1, h2⟩, ?_⟩
          · exact fun d hd => g1 d (List.mem_cons_of_mem _ hd)
          · rw [h3, g2, h4]; simp
        · cases h
  cases b with
  | nil => cases h
  | cons c r =>
    simp only [scanNumber] at h
    split at h
    · rename_i hc
      subst hc
      exact key [45] r (Or.inr rfl) h
    · exact key [] _ (Or.inl rfl) h

/-! ## Values -/

theorem expect_append (w rest : Bytes) : expect w (w ++ rest) = some rest := by
  induction w with
  | nil => rfl
  | cons c w ih => simp [expect, ih]

theorem expect_sound {w b rest : Bytes} (h : expect w b = some rest) : b = w ++ rest := by
  induction w generalizing b with
  | nil => simp only [expect, Option.some.injEq] at h; simp [h]
  | cons c w ih =>
    cases b with
    | nil => cases h
    | cons d r =>
      simp only [expect] at h
      split at h
      · rename_i hd
        rw [hd, ih h]
        rfl
      · cases h

theorem number_head {s : Bytes} (h : Number s) : ∃ c r, s = c :: r ∧ (isDigit c = true ∨ c = 45) := by
  obtain ⟨sign, i, f, e, rfl, hs, hi, _, _⟩ := h
  rcases hs with rfl | rfl
  · rcases hi with rfl | ⟨c, ds, rfl, hc, _⟩
    · exact ⟨48, f ++ e, by simp, Or.inl (by decide)⟩
    · exact ⟨c, ds ++ f ++ e, by simp, Or.inl ((isDigit_iff c).mpr hc)⟩
  · exact ⟨45, i ++ f ++ e, by simp, Or.inr rfl⟩

theorem number_char {c : UInt8} (h : isDigit c = true ∨ c = 45) :
    isSpace c = false ∧ c ≠ 93 ∧ c ≠ 125 ∧ c ≠ 123 ∧ c ≠ 91 ∧ c ≠ 34 ∧ c ≠ 116 ∧ c ≠ 102 ∧ c ≠ 110 := by
  revert h
  refine byte_all (p := fun c => (isDigit c = true ∨ c = 45) →
    isSpace c = false ∧ c ≠ 93 ∧ c ≠ 125 ∧ c ≠ 123 ∧ c ≠ 91 ∧ c ≠ 34 ∧ c ≠ 116 ∧ c ≠ 102 ∧ c ≠ 110) ?_ c
  unfold isSpace isDigit
  decide +kernel

theorem text_head {v : Value} {b : Bytes} (h : Text v b) : ∃ c r, b = c :: r ∧ isSpace c = false ∧ c ≠ 93 ∧ c ≠ 125 := by
  cases h with
  | num h =>
    obtain ⟨c, r, h1, h2⟩ := number_head h
    have := number_char h2
    exact ⟨c, r, h1, this.1, this.2.1, this.2.2.1⟩
  | null => exact ⟨_, _, rfl, by decide, by decide, by decide⟩
  | true => exact ⟨_, _, rfl, by decide, by decide, by decide⟩
  | false => exact ⟨_, _, rfl, by decide, by decide, by decide⟩
  | str _ => exact ⟨_, _, rfl, by decide, by decide, by decide⟩
  | noElems _ => exact ⟨_, _, rfl, by decide, by decide, by decide⟩
  | arr _ => exact ⟨_, _, rfl, by decide, by decide, by decide⟩
  | noMembers _ => exact ⟨_, _, rfl, by decide, by decide, by decide⟩
  | obj _ => exact ⟨_, _, rfl, by decide, by decide, by decide⟩

theorem elems_head {l : List Value} {b : Bytes} (h : Elems l b) (rest : Bytes) : ∃ c r, skipWs (b ++ rest) = c :: r ∧ c ≠ 93 := by
  cases h with
  | one hw ht hw' =>
    obtain ⟨c, r, rfl, h1, h2, _⟩ := text_head ht
    simp only [List.append_assoc, List.cons_append]
    rw [skipWs_ws hw, skipWs_cons h1]
    exact ⟨_, _, rfl, h2⟩
  | more hw ht hw' _ =>
    obtain ⟨c, r, rfl, h1, h2, _⟩ := text_head ht
    simp only [List.append_assoc, List.cons_append]
    rw [skipWs_ws hw, skipWs_cons h1]
    exact ⟨_, _, rfl, h2⟩

theorem members_head {l : List (Bytes × Value)} {b : Bytes} (h : Members l b) (rest : Bytes) : ∃ r, skipWs (b ++ rest) = 34 :: r := by
  cases h with
  | one hw _ _ _ _ _ =>
    simp only [List.append_assoc, List.cons_append]
    rw [skipWs_ws hw, skipWs_cons (by decide)]
    exact ⟨_, rfl⟩
  | more hw _ _ _ _ _ _ =>
    simp only [List.append_assoc, List.cons_append]
    rw [skipWs_ws hw, skipWs_cons (by decide)]
    exact ⟨_, rfl⟩

mutual

theorem value_complete {v : Value} {b : Bytes} (h : Text v b) {n : Nat} (hn : b.length ≤ n) {w rest : Bytes} (hw : Ws w) (hr : Stop rest) :
    value n (w ++ b ++ rest) = some (v, rest) := by
  cases n with
  | zero =>
    obtain ⟨c, r, rfl, _⟩ := text_head h
    simp at hn
  | succ n =>
    rw [List.append_assoc, value, skipWs_ws hw]
    match h, hn with
    | .null, _ => rw [List.cons_append, skipWs_cons (by decide)]; rfl
    | .true, _ => rw [List.cons_append, skipWs_cons (by decide)]; rfl
    | .false, _ => rw [List.cons_append, skipWs_cons (by decide)]; rfl
    | .num h, _ =>
      obtain ⟨c, r, rfl, hc⟩ := number_head h
      obtain ⟨h1, _, _, h2, h3, h4, h5, h6, h7⟩ := number_char hc
      have := scanNumber_number h hr
      rw [List.cons_append] at this ⊢
      rw [skipWs_cons h1]
      simp only [if_neg h2, if_neg h3, if_neg h4, if_neg h5, if_neg h6, if_neg h7, this, Option.map_some]
    | .str h, _ =>
      rw [List.cons_append, List.cons_append, List.append_assoc, skipWs_cons (by decide)]
      have := scanString_chars (means_chars h) rest
      simp only [show (0x22 : UInt8) ≠ 123 by decide, show (0x22 : UInt8) ≠ 91 by decide, if_false, if_true, List.cons_append,
        List.nil_append, this, Option.map_some, unquote_means h]
    | .noElems h, _ =>
      rw [List.cons_append, List.cons_append, List.append_assoc, skipWs_cons (by decide)]
      simp only [show (0x5B : UInt8) ≠ 123 by decide, if_false, if_true, skipWs_ws h, List.cons_append, List.nil_append,
        skipWs_cons (show isSpace 0x5D = Bool.false by decide)]
    | .noMembers h, _ =>
      rw [List.cons_append, List.cons_append, List.append_assoc, skipWs_cons (by decide)]
      simp only [if_true, skipWs_ws h, List.cons_append, List.nil_append, skipWs_cons (show isSpace 0x7D = Bool.false by decide)]
    | .arr (b := b) h, hn =>
      rw [List.cons_append, List.cons_append, List.append_assoc, skipWs_cons (by decide)]
      obtain ⟨c, r, h1, h2⟩ := elems_head h ([0x5D] ++ rest)
      have := elements_complete h (n := n) (rest := rest) (by simp only [List.length_append, List.length_cons] at hn; simp at hn; omega)
      simp only [show (0x5B : UInt8) ≠ 123 by decide, if_false, if_true, h1, if_neg h2]
      rw [show ([0x5D] ++ rest : Bytes) = 93 :: rest from rfl, this]
      rfl
    | .obj (b := b) h, hn =>
      rw [List.cons_append, List.cons_append, List.append_assoc, skipWs_cons (by decide)]
      obtain ⟨r, h1⟩ := members_head h ([0x7D] ++ rest)
      have := members_complete h (n := n) (rest := rest) (by simp only [List.length_append, List.length_cons] at hn; simp at hn; omega)
      simp only [if_true, h1, show (34 : UInt8) ≠ 125 by decide, if_false]
      rw [show ([0x7D] ++ rest : Bytes) = 125 :: rest from rfl, this]
      rfl

theorem elements_complete {l : List Value} {b : Bytes} (h : Elems l b) {n : Nat} (hn : b.length < n) {rest : Bytes} :
    elements n (b ++ 93 :: rest) = some (l, rest) := by
  cases n with
  | zero => omega
  | succ n =>
    rw [elements]
    match h, hn with
    | .one hw ht hw', hn =>
      simp only [List.length_append] at hn
      rw [List.append_assoc, value_complete ht (by omega) hw (Stop.ws hw' (Stop.bracket rest))]
      simp only [skipWs_ws hw', skipWs_cons (show isSpace 93 = Bool.false by decide), show (93 : UInt8) ≠ 44 by decide, if_false, if_true]
    | .more (r := r) hw ht hw' hl, hn =>
      simp only [List.length_append, List.length_cons] at hn
      rw [List.append_assoc, List.append_assoc, List.cons_append, value_complete ht (by omega) hw (Stop.ws hw' (Stop.comma _))]
      simp only [skipWs_ws hw', skipWs_cons (show isSpace 0x2C = Bool.false by decide), if_true]
      rw [elements_complete hl (by omega)]
      rfl

theorem members_complete {l : List (Bytes × Value)} {b : Bytes} (h : Members l b) {n : Nat} (hn : b.length < n) {rest : Bytes} :
    members n (b ++ 125 :: rest) = some (l, rest) := by
  cases n with
  | zero => omega
  | succ n =>
    rw [members]
    match h, hn with
    | .one (w₃ := w₃) hw hk hw₂ hw₃ ht hw', hn =>
      simp only [List.length_append, List.length_cons] at hn
      simp only [List.append_assoc, List.cons_append, skipWs_ws hw, skipWs_cons (show isSpace 0x22 = Bool.false by decide),
        scanString_chars (means_chars hk), unquote_means hk, skipWs_ws hw₂, skipWs_cons (show isSpace 0x3A = Bool.false by decide), ne_eq, not_true_eq_false, if_false]
      rw [← List.append_assoc w₃, value_complete ht (by omega) hw₃ (Stop.ws hw' (Stop.brace rest))]
      simp only [skipWs_ws hw', skipWs_cons (show isSpace 125 = Bool.false by decide), show (125 : UInt8) ≠ 44 by decide, if_false, if_true]
    | .more (w₃ := w₃) (r := r) hw hk hw₂ hw₃ ht hw' hl, hn =>
      simp only [List.length_append, List.length_cons] at hn
      simp only [List.append_assoc, List.cons_append, skipWs_ws hw, skipWs_cons (show isSpace 0x22 = Bool.false by decide),
        scanString_chars (means_chars hk), unquote_means hk, skipWs_ws hw₂, skipWs_cons (show isSpace 0x3A = Bool.false by decide), ne_eq, not_true_eq_false, if_false]
      rw [← List.append_assoc w₃, value_complete ht (by omega) hw₃ (Stop.ws hw' (Stop.comma _))]
      simp only [skipWs_ws hw', List.cons_append, skipWs_cons (show isSpace 0x2C = Bool.false by decide), if_true]
      rw [members_complete hl (by omega)]
      rfl

end

theorem ws_of_nil {b : Bytes} (h : skipWs b = []) : Ws b := by
  obtain ⟨w, h1, h2⟩ := skipWs_split b
  rw [h, List.append_nil] at h2
  exact h2 ▸ h1

theorem split_of_cons {b : Bytes} {c : UInt8} {r : Bytes} (h : skipWs b = c :: r) : ∃ w, Ws w ∧ b = w ++ c :: r := by
  obtain ⟨w, h1, h2⟩ := skipWs_split b
  exact ⟨w, h1, h ▸ h2⟩

theorem sound (n : Nat) :
    (∀ b v rest, value n b = some (v, rest) → ∃ w t, b = w ++ t ++ rest ∧ Ws w ∧ Text v t) ∧
    (∀ b l rest, elements n b = some (l, rest) → ∃ t, b = t ++ 93 :: rest ∧ Elems l t) ∧
    (∀ b l rest, members n b = some (l, rest) → ∃ t, b = t ++ 125 :: rest ∧ Members l t) := by
  induction n with
  | zero =>
    refine ⟨?_, ?_, ?_⟩
    · intro b v rest h; rw [value] at h; cases h
    · intro b v rest h; rw [elements] at h; cases h
    · intro b v rest h; rw [members] at h; cases h
  | succ n ih =>
    obtain ⟨ihv, ihe, ihm⟩ := ih
    refine ⟨?_, ?_, ?_⟩
    · intro b v rest h
      rw [value] at h
      cases hb : skipWs b with
      | nil => rw [hb] at h; cases h
      | cons c r =>
        rw [hb] at h
        obtain ⟨w, hw, rfl⟩ := split_of_cons hb
        simp only at h
        split at h
        · rename_i hc
          subst hc
          cases hb' : skipWs r with
          | nil => rw [hb'] at h; cases h
          | cons d r' =>
            rw [hb'] at h
            simp only at h
            split at h
            · rename_i hd
              subst hd
              cases h
              obtain ⟨w', hw', rfl⟩ := split_of_cons hb'
              exact ⟨w, _, by simp, hw, .noMembers hw'⟩
            · obtain ⟨p, h1, h2⟩ := Option.map_eq_some_iff.mp h
              cases h2
              obtain ⟨t, rfl, ht⟩ := ihm _ _ _ h1
              exact ⟨w, _, by simp, hw, .obj ht⟩
        split at h
        · rename_i hc
          subst hc
          cases hb' : skipWs r with
          | nil => rw [hb'] at h; cases h
          | cons d r' =>
            rw [hb'] at h
            simp only at h
            split at h
            · rename_i hd
              subst hd
              cases h
              obtain ⟨w', hw', rfl⟩ := split_of_cons hb'
              exact ⟨w, _, by simp, hw, .noElems hw'⟩
            · obtain ⟨p, h1, h2⟩ := Option.map_eq_some_iff.mp h
              cases h2
              obtain ⟨t, rfl, ht⟩ := ihe _ _ _ h1
              exact ⟨w, _, by simp, hw, .arr ht⟩
        split at h
        · rename_i hc
          subst hc
          obtain ⟨p, h1, h2⟩ := Option.map_eq_some_iff.mp h
          cases h2
          obtain ⟨h3, rfl⟩ := scanString_sound (raw := p.1) (rest := p.2) h1
          exact ⟨w, _, by simp, hw, .str (means_unquote h3)⟩
        split at h
        · rename_i hc
          subst hc
          obtain ⟨p, h1, h2⟩ := Option.map_eq_some_iff.mp h
          cases h2
          rw [expect_sound h1]
          exact ⟨w, _, by simp, hw, .true⟩
        split at h
        · rename_i hc
          subst hc
          obtain ⟨p, h1, h2⟩ := Option.map_eq_some_iff.mp h
          cases h2
          rw [expect_sound h1]
          exact ⟨w, _, by simp, hw, .false⟩
        split at h
        · rename_i hc
          subst hc
          obtain ⟨p, h1, h2⟩ := Option.map_eq_some_iff.mp h
          cases h2
          rw [expect_sound h1]
          exact ⟨w, _, by simp, hw, .null⟩
        · obtain ⟨p, h1, h2⟩ := Option.map_eq_some_iff.mp h
          cases h2
          obtain ⟨h3, h4⟩ := scanNumber_sound (lit := p.1) (rest := p.2) h1
          rw [h4]
          exact ⟨w, _, by simp, hw, .num h3⟩
    · intro b l rest h
      rw [elements] at h
      cases hv : value n b with
      | none => rw [hv] at h; cases h
      | some p =>
        obtain ⟨v, r⟩ := p
        rw [hv] at h
        simp only at h
        obtain ⟨w, t, rfl, hw, ht⟩ := ihv _ _ _ hv
        cases hb : skipWs r with
        | nil => rw [hb] at h; cases h
        | cons c r' =>
          rw [hb] at h
          simp only at h
          obtain ⟨w', hw', rfl⟩ := split_of_cons hb
          split at h
          · rename_i hc
            subst hc
            obtain ⟨p, h1, h2⟩ := Option.map_eq_some_iff.mp h
            cases h2
            obtain ⟨t', rfl, ht'⟩ := ihe _ _ _ h1
            exact ⟨_, by simp, .more hw ht hw' ht'⟩
          split at h
          · rename_i hc
            subst hc
            cases h
            exact ⟨_, by simp, .one hw ht hw'⟩
          · cases h
    · intro b l rest h
      rw [members] at h
      cases hb : skipWs b with
      | nil => rw [hb] at h; cases h
      | cons q r =>
        rw [hb] at h
        simp only at h
        obtain ⟨w₁, hw₁, rfl⟩ := split_of_cons hb
        split at h
        · cases h
        rename_i hq
        obtain rfl := not_not.mp hq
        cases hs : scanString r with
        | none => rw [hs] at h; cases h
        | some p =>
          obtain ⟨raw, r₂⟩ := p
          rw [hs] at h
          simp only at h
          obtain ⟨hraw, rfl⟩ := scanString_sound hs
          cases hb₂ : skipWs r₂ with
          | nil => rw [hb₂] at h; cases h
          | cons c r₃ =>
            rw [hb₂] at h
            simp only at h
            obtain ⟨w₂, hw₂, rfl⟩ := split_of_cons hb₂
            split at h
            · cases h
            rename_i hc
            obtain rfl := not_not.mp hc
            cases hv : value n r₃ with
            | none => rw [hv] at h; cases h
            | some p =>
              obtain ⟨v, r₄⟩ := p
              rw [hv] at h
              simp only at h
              obtain ⟨w₃, t, rfl, hw₃, ht⟩ := ihv _ _ _ hv
              cases hb₄ : skipWs r₄ with
              | nil => rw [hb₄] at h; cases h
              | cons c r' =>
                rw [hb₄] at h
                simp only at h
                obtain ⟨w₄, hw₄, rfl⟩ := split_of_cons hb₄
                split at h
                · rename_i hc
                  subst hc
                  obtain ⟨p, h1, h2⟩ := Option.map_eq_some_iff.mp h
                  cases h2
                  obtain ⟨t', rfl, ht'⟩ := ihm _ _ _ h1
                  exact ⟨_, by simp, .more hw₁ (means_unquote hraw) hw₂ hw₃ ht hw₄ ht'⟩
                split at h
                · rename_i hc
                  subst hc
                  cases h
                  exact ⟨_, by simp, .one hw₁ (means_unquote hraw) hw₂ hw₃ ht hw₄⟩
                · cases h

mutual

theorem nested_of_depth : ∀ (v : Value) (n : Nat), depth v ≤ n → Nested n v
  | .null, _, _ => .null
  | .bool _, _, _ => .bool
  | .num _, _, _ => .num
  | .str _, _, _ => .str
  | .arr l, 0, h => by rw [depth] at h; omega
  | .arr l, n + 1, h => by rw [depth] at h; exact .arr (nested_of_depthElems l n (by omega))
  | .obj l, 0, h => by rw [depth] at h; omega
  | .obj l, n + 1, h => by rw [depth] at h; exact .obj (nested_of_depthMembers l n (by omega))

theorem nested_of_depthElems : ∀ (l : List Value) (n : Nat), depthElems l ≤ n → ∀ v ∈ l, Nested n v
  | [], _, _ => fun _ h => nomatch h
  | v :: l, n, h => by
    rw [depthElems] at h
    rw [List.forall_mem_cons]
    exact ⟨nested_of_depth v n (by omega), nested_of_depthElems l n (by omega)⟩

theorem nested_of_depthMembers : ∀ (l : List (Bytes × Value)) (n : Nat), depthMembers l ≤ n → ∀ p ∈ l, Nested n p.2
  | [], _, _ => fun _ h => nomatch h
  | (k, v) :: l, n, h => by
    rw [depthMembers] at h
    rw [List.forall_mem_cons]
    exact ⟨nested_of_depth v n (by omega), nested_of_depthMembers l n (by omega)⟩

end

theorem depthElems_le {l : List Value} {n : Nat} (h : ∀ v ∈ l, depth v ≤ n) : depthElems l ≤ n := by
  induction l with
  | nil => rw [depthElems]; omega
  | cons v l ih =>
    rw [List.forall_mem_cons] at h
    have := ih h.2
    rw [depthElems]
    omega

theorem depthMembers_le {l : List (Bytes × Value)} {n : Nat} (h : ∀ p ∈ l, depth p.2 ≤ n) : depthMembers l ≤ n := by
  induction l with
  | nil => rw [depthMembers]; omega
  | cons v l ih =>
    obtain ⟨k, v⟩ := v
    rw [List.forall_mem_cons] at h
    have h1 : depth v ≤ n := h.1
    have h2 := ih h.2
    rw [depthMembers]
    omega

theorem depth_of_nested {n : Nat} {v : Value} (h : Nested n v) : depth v ≤ n := by
  induction h with
  | null => rw [depth]; omega
  | bool => rw [depth]; omega
  | num => rw [depth]; omega
  | str => rw [depth]; omega
  | arr _ ih => rw [depth]; have := depthElems_le ih; omega
  | obj _ ih => rw [depth]; have := depthMembers_le ih; omega

/-- The reader accepts exactly the grammar, up to its depth. -/
theorem parse_iff (b : Bytes) (v : Value) : parse b = some v ↔ Readable v b := by
  unfold parse Readable
  constructor
  · intro h
    cases hv : value (b.length + 1) b with
    | none => rw [hv] at h; cases h
    | some p =>
      obtain ⟨v', r⟩ := p
      rw [hv] at h
      simp only at h
      split at h
      · rename_i hr
        cases h
        obtain ⟨w, t, h1, hw, ht⟩ := (sound _).1 _ _ _ hv
        exact ⟨⟨w, t, r, h1, hw, ht, ws_of_nil hr.1⟩, nested_of_depth _ _ hr.2⟩
      · cases h
  · rintro ⟨⟨w, t, w', rfl, hw, ht, hw'⟩, hd⟩
    have hs : Stop w' := by simpa using Stop.ws hw' Stop.nil
    rw [value_complete ht (by simp; omega) hw hs]
    simp only [skipWs_ws_nil hw', true_and]
    exact if_pos (depth_of_nested hd)

/-- A text has one value at most. -/
theorem document_unique {b : Bytes} {v v' : Value} (h : Document v b) (h' : Document v' b) : v = v' := by
  have key : ∀ {v : Value}, Document v b → ∃ r, value (b.length + 1) b = some (v, r) := by
    rintro v ⟨w, t, w', rfl, hw, ht, hw'⟩
    exact ⟨_, value_complete ht (by simp; omega) hw (by simpa using Stop.ws hw' Stop.nil)⟩
  obtain ⟨r, hr⟩ := key h
  obtain ⟨r', hr'⟩ := key h'
  rw [hr] at hr'
  cases hr'
  rfl

end Verif.Json
