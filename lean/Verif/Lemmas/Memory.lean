import Verif.Spec.Memory
import Mathlib.Data.List.Basic
import Mathlib.Tactic.Ring

/-!
Appending to slices in memory.
-/

namespace Verif.Memory

open Spec Mem

variable {α : Type}

theorem _root_.Verif.Spec.Keeps.refl (m : Mem α) (may : Nat → Nat → Prop) : Keeps m m may := ⟨le_refl _, fun _ _ => rfl, fun _ _ _ _ => rfl⟩

theorem _root_.Verif.Spec.Keeps.trans {m m₁ m₂ : Mem α} {may may₁ may₂ : Nat → Nat → Prop} (h : Keeps m m₁ may₁) (h' : Keeps m₁ m₂ may₂)
    (h₁ : ∀ a i, may₁ a i → may a i) (h₂ : ∀ a i, a < m.next → may₂ a i → may a i) : Keeps m m₂ may where
  next := h.next.trans h'.next
  length a ha := (h'.length a (ha.trans_le h.next)).trans (h.length a ha)
  cells a ha i hi := (h'.cells a (ha.trans_le h.next) i fun hm => hi (h₂ a i ha hm)).trans
    (h.cells a ha i fun hm => hi (h₁ a i hm))

theorem _root_.Verif.Spec.Keeps.mono {m m₁ : Mem α} {may may₁ : Nat → Nat → Prop} (h : Keeps m m₁ may₁) (h₁ : ∀ a i, a < m.next → may₁ a i → may a i) :
    Keeps m m₁ may :=
  ⟨h.next, h.length, fun a ha i hi => h.cells a ha i fun hm => hi (h₁ a i ha hm)⟩

theorem run_bind {β γ : Type} (x : Run α β) (f : β → Run α γ) (m : Mem α) : (x >>= f) m = f (x m).1 (x m).2 := rfl

theorem run_get (m : Mem α) : (get : Run α (Mem α)) m = (m, m) := rfl

theorem run_pure {β : Type} (b : β) (m : Mem α) : (pure b : Run α β) m = (b, m) := rfl

theorem read_length {m : Mem α} {s : Slice} (h : m.Wf s) : (m.read s).length = s.len := by
  have := h.len; have := h.cap
  simp only [Mem.read, List.length_take, List.length_drop]; omega

theorem read_getElem? (m : Mem α) (s : Slice) (i : Nat) :
    (m.read s)[i]? = if i < s.len then (m.array s.arr)[s.off + i]? else none := by
  simp [Mem.read, List.getElem?_take, List.getElem?_drop]

/-- A slice whose cells are not written keeps its elements. -/
theorem _root_.Verif.Spec.Keeps.read {m m' : Mem α} {may : Nat → Nat → Prop} (h : Keeps m m' may) {t : Slice} (ht : m.Wf t)
    (hd : ∀ i, t.off ≤ i → i < t.off + t.len → ¬ may t.arr i) : m'.read t = m.read t := by
  apply List.ext_getElem?
  intro i
  rw [read_getElem?, read_getElem?]
  split
  · rename_i hi
    exact h.cells _ ht.arr _ (hd _ (by omega) (by omega))
  · rfl

theorem _root_.Verif.Spec.Keeps.wf {m m' : Mem α} {may : Nat → Nat → Prop} (h : Keeps m m' may) {t : Slice} (ht : m.Wf t) : m'.Wf t :=
  ⟨ht.arr.trans_le h.next, ht.len, by rw [h.length _ ht.arr]; exact ht.cap⟩

theorem write_array_self (m : Mem α) (s : Slice) (i : Nat) (vs : List α) :
    (m.write s i vs).array s.arr = (m.array s.arr).take (s.off + i) ++ vs ++ (m.array s.arr).drop (s.off + i + vs.length) := by
  simp [write]

theorem write_array_other (m : Mem α) (s : Slice) (i : Nat) (vs : List α) {a : Nat} (h : a ≠ s.arr) :
    (m.write s i vs).array a = m.array a := by
  simp [write, h]

theorem splice_getElem? (l vs : List α) (k i : Nat) (h : k + vs.length ≤ l.length) :
    (l.take k ++ vs ++ l.drop (k + vs.length))[i]? = if k ≤ i ∧ i < k + vs.length then vs[i - k]? else l[i]? := by
  have hk : k ≤ l.length := by omega
  rw [List.append_assoc, List.getElem?_append]
  simp only [List.length_take, Nat.min_eq_left hk]
  split
  · rw [if_neg (by omega), List.getElem?_take, if_pos (by omega)]
  · rw [List.getElem?_append]
    split
    · rw [if_pos (by omega)]
    · rw [if_neg (by omega), List.getElem?_drop]; congr 1; omega

theorem splice_length (l vs : List α) (k : Nat) (h : k + vs.length ≤ l.length) :
    (l.take k ++ vs ++ l.drop (k + vs.length)).length = l.length := by
  simp only [List.length_append, List.length_take, List.length_drop]; omega

/-- What a write inside the capacity does. -/
theorem keeps_write {m : Mem α} {s : Slice} (i : Nat) (vs : List α) (h : m.Wf s) (hi : i + vs.length ≤ s.cap) :
    Keeps m (m.write s i vs) fun a j => a = s.arr ∧ s.off + i ≤ j ∧ j < s.off + i + vs.length := by
  have hc := h.cap
  refine ⟨le_refl _, fun a _ => ?_, fun a _ j hj => ?_⟩
  · by_cases e : a = s.arr
    · subst e; rw [write_array_self]; exact splice_length _ _ _ (by omega)
    · rw [write_array_other _ _ _ _ e]
  · by_cases e : a = s.arr
    · subst e
      rw [write_array_self, splice_getElem? _ _ _ _ (by omega), if_neg]
      rintro ⟨h₁, h₂⟩
      exact hj ⟨rfl, h₁, h₂⟩
    · rw [write_array_other _ _ _ _ e]

/-- The elements after a write inside the slice. -/
theorem read_write {m : Mem α} {s : Slice} (i : Nat) (vs : List α) (h : m.Wf s) (hi : i + vs.length ≤ s.len) :
    (m.write s i vs).read s = (m.read s).take i ++ vs ++ (m.read s).drop (i + vs.length) := by
  have hc := h.cap
  have hl := h.len
  apply List.ext_getElem?
  intro j
  rw [read_getElem?, write_array_self, splice_getElem? _ _ _ _ (by omega),
    splice_getElem? _ _ _ _ (by rw [read_length h]; exact hi), read_getElem?]
  by_cases h₁ : j < s.len
  · simp only [h₁, if_true]
    by_cases h₂ : i ≤ j ∧ j < i + vs.length
    · rw [if_pos h₂, if_pos (by omega)]; congr 1; omega
    · rw [if_neg h₂, if_neg (by omega)]
  · rw [if_neg h₁, if_neg (by omega), if_neg h₁]

theorem keeps_allocate (m : Mem α) (content : List α) (may : Nat → Nat → Prop) : Keeps m (m.allocate content) may := by
  have e : ∀ a < m.next, (m.allocate content).array a = m.array a := by
    intro a ha
    simp only [allocate]
    rw [if_neg (by omega)]
  exact ⟨Nat.le_succ _, fun a ha => by rw [e a ha], fun a ha i _ => by rw [e a ha]⟩

theorem allocate_array (m : Mem α) (content : List α) : (m.allocate content).array m.next = content := by
  simp [allocate]

variable [Inhabited α]

theorem appended (grow : Nat → Nat → Nat) {m : Mem α} {s : Slice} (vs : List α) (h : m.Wf s) :
    Appended m s vs (append grow s vs m).2 (append grow s vs m).1 := by
  have hl := h.len
  have hc := h.cap
  have hr := read_length h
  unfold append
  by_cases fit : s.len + vs.length ≤ s.cap
  · simp only [fit, if_true]
    have hk := keeps_write s.len vs h fit
    refine ⟨⟨h.arr, fit, ?_⟩, ?_, rfl, ?_, fun _ => ⟨rfl, rfl, rfl, rfl⟩, fun hn => absurd hn (by omega)⟩
    · rw [hk.length _ h.arr]; exact hc
    · apply List.ext_getElem?
      intro j
      rw [read_getElem?, List.getElem?_append, hr, read_getElem?]
      simp only
      rw [write_array_self, splice_getElem? _ _ _ _ (by omega)]
      by_cases h₁ : j < s.len
      · rw [if_pos (by omega), if_neg (by omega), if_pos h₁, if_pos h₁]
      · rw [if_neg h₁]
        by_cases h₂ : j < s.len + vs.length
        · rw [if_pos h₂, if_pos (by omega)]; congr 1; omega
        · rw [if_neg h₂, List.getElem?_eq_none (by omega)]
    · exact hk.mono fun a i _ hi => ⟨hi.1, hi.2.1, hi.2.2, by omega⟩
  · simp only [fit, if_false]
    refine ⟨⟨Nat.lt_succ_self _, le_max_left _ _, ?_⟩, ?_, rfl, keeps_allocate _ _ _, fun hn => absurd hn fit, fun _ => le_refl _⟩
    · simp only [allocate_array, List.length_append, List.length_replicate, hr]
      omega
    · simp only [Mem.read, allocate_array, List.drop_zero]
      rw [List.take_append_of_le_length, List.take_of_length_le]
      · have := hr; simp only [Mem.read] at this; simp [this]
      · have := hr; simp only [Mem.read] at this; simp [this]

omit [Inhabited α] in
/-- Appending twice. -/
theorem _root_.Verif.Spec.Appended.append {m m₁ m₂ : Mem α} {s s₁ s₂ : Slice} {vs ws : List α} (h : Appended m s vs m₁ s₁)
    (h' : Appended m₁ s₁ ws m₂ s₂) : Appended m s (vs ++ ws) m₂ s₂ := by
  have l₁ := h.len
  refine ⟨h'.wf, by rw [h'.read, h.read, List.append_assoc], by rw [h'.len, h.len, List.length_append]; omega, ?_, ?_, ?_⟩
  · refine Keeps.trans h.keeps h'.keeps (fun a i hi => ⟨hi.1, hi.2.1, ?_, hi.2.2.2⟩) fun a i ha hi => ?_
    · have := hi.2.2.1; rw [List.length_append]; omega
    · obtain ⟨e₁, e₂, e₃, e₄⟩ := hi
      by_cases fit : s.len + vs.length ≤ s.cap
      · obtain ⟨r₁, r₂, r₃, _⟩ := h.room fit
        rw [r₁] at e₁; rw [r₂, l₁] at e₂ e₃; rw [r₂, r₃] at e₄
        exact ⟨e₁, by omega, by rw [List.length_append]; omega, e₄⟩
      · have := h.noRoom (by omega)
        omega
  · intro fit
    rw [List.length_append] at fit
    obtain ⟨r₁, r₂, r₃, r₄⟩ := h.room (by omega)
    obtain ⟨q₁, q₂, q₃, q₄⟩ := h'.room (by omega)
    exact ⟨q₁.trans r₁, q₂.trans r₂, q₃.trans r₃, q₄.trans r₄⟩
  · intro hn
    rw [List.length_append] at hn
    by_cases fit : s.len + vs.length ≤ s.cap
    · obtain ⟨r₁, r₂, r₃, r₄⟩ := h.room fit
      have := h'.noRoom (by omega)
      omega
    · have n₁ := h.noRoom (by omega)
      by_cases fit' : s₁.len + ws.length ≤ s₁.cap
      · rw [(h'.room fit').1]; exact n₁
      · exact h.keeps.next.trans (h'.noRoom (by omega))

omit [Inhabited α] in
theorem _root_.Verif.Spec.Appended.nil {m : Mem α} {s : Slice} (h : m.Wf s) : Appended m s [] m s :=
  ⟨h, by simp, by simp, Keeps.refl _ _, fun _ => ⟨rfl, rfl, rfl, rfl⟩, fun hn => absurd hn (by have := h.len; simp; omega)⟩

/-- `make` and then appending. -/
theorem fresh_of_make {m m' : Mem α} {s' : Slice} {vs : List α} {n : Nat}
    (h : Appended (make 0 n m).2 (make 0 n m).1 vs m' s') : FreshSlice m vs m' s' := by
  have hk := keeps_allocate m (List.replicate n (default : α)) fun _ _ => False
  refine ⟨h.wf, by rw [h.read]; simp [make, Mem.read], ?_, Keeps.trans hk h.keeps (fun _ _ h => h) fun a i ha hi => ?_⟩
  · by_cases fit : vs.length ≤ n
    · rw [(h.room (by simpa [make] using fit)).1]
      exact le_refl _
    · exact hk.next.trans (h.noRoom (by simp only [make]; omega))
  · have := hi.1
    simp only [make] at this
    omega

theorem exact_of_make {m m' : Mem α} {s' : Slice} {vs : List α} {n : Nat} (hn : vs.length = n)
    (h : Appended (make 0 n m).2 (make 0 n m).1 vs m' s') : Exact m vs m' s' := by
  refine ⟨fresh_of_make h, ?_, ?_⟩
  · rw [(h.room (by simp [make, hn])).2.2.2]; rfl
  · rw [(h.room (by simp [make, hn])).2.2.1, hn]; rfl

theorem make_wf (m : Mem α) {len cap : Nat} (h : len ≤ cap) : (make len cap m).2.Wf (make len cap m).1 :=
  ⟨Nat.lt_succ_self _, h, by simp [make, allocate_array]⟩

end Verif.Memory
