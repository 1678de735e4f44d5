import Verif.Lemmas.Json

/-!
What `json.Marshal` and `json.MarshalIndent` write is text of the grammar.
-/

namespace Verif.Json

open Verif.Spec.Json

/-- Printable ASCII without quote and backslash. -/
def PlainStr (s : Bytes) : Prop := ∀ c ∈ s, 32 ≤ c.toNat ∧ c.toNat < 127 ∧ c ≠ 34 ∧ c ≠ 92

mutual

/-- All strings are plain and all numbers are numbers. -/
def Plain : Value → Prop
  | .num lit => Number lit
  | .str s => PlainStr s
  | .arr l => PlainElems l
  | .obj l => PlainMembers l
  | .null => True
  | .bool _ => True

def PlainElems : List Value → Prop
  | [] => True
  | v :: l => Plain v ∧ PlainElems l

def PlainMembers : List (Bytes × Value) → Prop
  | [] => True
  | (k, v) :: l => PlainStr k ∧ Plain v ∧ PlainMembers l

end

theorem unquote_plain {s : Bytes} (h : PlainStr s) : unquote s = s := by
  unfold unquote
  induction s with
  | nil => rfl
  | cons c s ih =>
    have hc := h c (List.mem_cons_self ..)
    rw [unq_plain hc.2.2.2 (by omega), ih fun d hd => h d (List.mem_cons_of_mem _ hd)]

theorem chars_plain {s : Bytes} (h : PlainStr s) : Chars s := by
  induction s with
  | nil => exact .nil
  | cons c s ih =>
    have hc := h c (List.mem_cons_self ..)
    exact .plain (UInt8.le_iff_toNat_le.mpr hc.1) hc.2.2.1 hc.2.2.2 (ih fun d hd => h d (List.mem_cons_of_mem _ hd))

theorem means_plain {s : Bytes} (h : PlainStr s) : Means s s := by
  have := means_unquote (chars_plain h)
  rwa [unquote_plain h] at this

theorem Ws.nil : Ws [] := fun _ h => by cases h

theorem Ws.newline (w d : Nat) : Ws (newline w d) := by
  intro c hc
  unfold Json.newline at hc
  rcases List.mem_cons.mp hc with rfl | hc
  · decide
  · rw [(List.mem_replicate.mp hc).2]; decide

theorem Ws.space : Ws [32] := by
  intro c hc
  rw [List.mem_singleton.mp hc]; decide

theorem text_str {s : Bytes} (h : PlainStr s) : Text (.str s) (quote s) := Text.str (means_plain h)

theorem one_member {w₁ w₃ w₄ k b : Bytes} {v : Value} (h1 : Ws w₁) (hk : PlainStr k) (h3 : Ws w₃) (hv : Text v b) (h4 : Ws w₄) :
    Members [(k, v)] (w₁ ++ (quote k ++ 58 :: (w₃ ++ (b ++ w₄)))) := by
  have := Members.one h1 (means_plain hk) Ws.nil h3 hv h4
  simpa [quote] using this

theorem more_members {w₁ w₃ w₄ k b r : Bytes} {v : Value} {l : List (Bytes × Value)} (h1 : Ws w₁) (hk : PlainStr k) (h3 : Ws w₃)
    (hv : Text v b) (h4 : Ws w₄) (hl : Members l r) :
    Members ((k, v) :: l) (w₁ ++ (quote k ++ 58 :: (w₃ ++ (b ++ (w₄ ++ 44 :: r))))) := by
  have := Members.more h1 (means_plain hk) Ws.nil h3 hv h4 hl
  simpa [quote] using this

mutual

theorem compact_text : ∀ v : Value, Plain v → Text v (compact v)
  | .null, _ => .null
  | .bool Bool.true, _ => .true
  | .bool Bool.false, _ => .false
  | .num _, h => .num h
  | .str _, h => text_str h
  | .arr [], _ => by
    simp only [compact, compactElems]
    exact .noElems Ws.nil
  | .arr (v :: l), h => by
    simp only [compact]
    exact .arr (compactElems_text (v :: l) h (by simp))
  | .obj [], _ => by
    simp only [compact, compactMembers]
    exact .noMembers Ws.nil
  | .obj (v :: l), h => by
    simp only [compact]
    exact .obj (compactMembers_text (v :: l) h (by simp))

theorem compactElems_text : ∀ l : List Value, PlainElems l → l ≠ [] → Elems l (compactElems l)
  | [], _, h => absurd rfl h
  | [v], h, _ => by
    simp only [compactElems]
    have := Elems.one Ws.nil (compact_text v h.1) Ws.nil
    simpa using this
  | v :: v' :: l, h, _ => by
    simp only [compactElems]
    have := Elems.more Ws.nil (compact_text v h.1) Ws.nil (compactElems_text (v' :: l) h.2 (by simp))
    simpa using this

theorem compactMembers_text : ∀ l : List (Bytes × Value), PlainMembers l → l ≠ [] → Members l (compactMembers l)
  | [], _, h => absurd rfl h
  | [(k, v)], h, _ => by
    simp only [compactMembers]
    have := one_member Ws.nil h.1 Ws.nil (compact_text v h.2.1) Ws.nil
    simpa using this
  | (k, v) :: p :: l, h, _ => by
    simp only [compactMembers]
    have := more_members Ws.nil h.1 Ws.nil (compact_text v h.2.1) Ws.nil (compactMembers_text (p :: l) h.2.2 (by simp))
    simpa using this

end

/-- White space after the last element. -/
theorem Elems.trail {l : List Value} {b : Bytes} (h : Elems l b) {w : Bytes} (hw : Ws w) : Elems l (b ++ w) := by
  match h with
  | .one h1 h2 h3 =>
    have := Elems.one h1 h2 (w' := _ ++ w) (by
      intro c hc
      rcases List.mem_append.mp hc with hc | hc
      · exact h3 c hc
      · exact hw c hc)
    simpa using this
  | .more h1 h2 h3 h4 =>
    have := Elems.more h1 h2 h3 (Elems.trail h4 hw)
    simpa using this

/-- White space after the last member. -/
theorem Members.trail {l : List (Bytes × Value)} {b : Bytes} (h : Members l b) {w : Bytes} (hw : Ws w) : Members l (b ++ w) := by
  match h with
  | .one h1 h2 h3 h4 h5 h6 =>
    have := Members.one h1 h2 h3 h4 h5 (w₄ := _ ++ w) (by
      intro c hc
      rcases List.mem_append.mp hc with hc | hc
      · exact h6 c hc
      · exact hw c hc)
    simpa using this
  | .more h1 h2 h3 h4 h5 h6 h7 =>
    have := Members.more h1 h2 h3 h4 h5 h6 (Members.trail h7 hw)
    simpa using this

mutual

theorem indent_text (w : Nat) : ∀ (d : Nat) (v : Value), Plain v → Text v (indent w d v)
  | _, .null, _ => by simp only [indent, compact]; exact .null
  | _, .bool Bool.true, _ => by simp only [indent, compact]; exact .true
  | _, .bool Bool.false, _ => by simp only [indent, compact]; exact .false
  | _, .num _, h => by simp only [indent, compact]; exact .num h
  | _, .str _, h => by simp only [indent, compact]; exact text_str h
  | _, .arr [], _ => by
    simp only [indent]
    exact .noElems Ws.nil
  | d, .arr (v :: l), h => by
    have := Text.arr (Elems.trail (indentElems_text w (d + 1) (v :: l) h (by simp)) (Ws.newline w d))
    simpa [indent] using this
  | _, .obj [], _ => by
    simp only [indent]
    exact .noMembers Ws.nil
  | d, .obj (v :: l), h => by
    have := Text.obj (Members.trail (indentMembers_text w (d + 1) (v :: l) h (by simp)) (Ws.newline w d))
    simpa [indent] using this

theorem indentElems_text (w : Nat) : ∀ (d : Nat) (l : List Value), PlainElems l → l ≠ [] → Elems l (indentElems w d l)
  | _, [], _, h => absurd rfl h
  | d, [v], h, _ => by
    have := Elems.one (Ws.newline w d) (indent_text w d v h.1) Ws.nil
    simpa [indentElems] using this
  | d, v :: v' :: l, h, _ => by
    have := Elems.more (Ws.newline w d) (indent_text w d v h.1) Ws.nil (indentElems_text w d (v' :: l) h.2 (by simp))
    simpa [indentElems] using this

theorem indentMembers_text (w : Nat) : ∀ (d : Nat) (l : List (Bytes × Value)), PlainMembers l → l ≠ [] → Members l (indentMembers w d l)
  | _, [], _, h => absurd rfl h
  | d, [(k, v)], h, _ => by
    have := one_member (Ws.newline w d) h.1 Ws.space (indent_text w d v h.2.1) Ws.nil
    simpa [indentMembers] using this
  | d, (k, v) :: p :: l, h, _ => by
    have := more_members (Ws.newline w d) h.1 Ws.space (indent_text w d v h.2.1) Ws.nil (indentMembers_text w d (p :: l) h.2.2 (by simp))
    simpa [indentMembers] using this

end

theorem parse_compact {v : Value} (h : Plain v) (hd : Nested 10000 v) : parse (compact v) = some v :=
  (parse_iff _ _).mpr ⟨⟨[], _, [], by simp, Ws.nil, compact_text v h, Ws.nil⟩, hd⟩

theorem parse_indent {v : Value} (h : Plain v) (hd : Nested 10000 v) (w d : Nat) : parse (indent w d v) = some v :=
  (parse_iff _ _).mpr ⟨⟨[], _, [], by simp, Ws.nil, indent_text w d v h, Ws.nil⟩, hd⟩

end Verif.Json
