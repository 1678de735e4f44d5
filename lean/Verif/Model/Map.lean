import Verif.Model.Party

/-!
Go maps with party IDs as keys, and their unspecified iteration order.
-/

namespace Verif

/-- `map[party.ID]V` as an association list with distinct keys. -/
abbrev GoMap (V : Type) := List (ID × V)

namespace GoMap

variable {V W : Type}

/-- `v, ok := m[k]` -/
def get? : GoMap V → ID → Option V
  | [], _ => none
  | (k', v) :: m, k => if k' = k then some v else get? m k

/-- `m[k] = v` -/
def set : GoMap V → ID → V → GoMap V
  | [], k, v => [(k, v)]
  | (k', v') :: m, k, v => if k' = k then (k, v) :: m else (k', v') :: set m k v

/-- The keys present. -/
def keys (m : GoMap V) : List ID := m.map Prod.fst

/-- `_, ok := m[k]` -/
def has (m : GoMap V) (k : ID) : Bool := (m.get? k).isSome

/-- Keys distinct: what makes an association list a map. -/
def WF (m : GoMap V) : Prop := m.keys.Nodup

@[simp] theorem get?_nil (k : ID) : get? ([] : GoMap V) k = none := rfl
@[simp] theorem keys_nil : keys ([] : GoMap V) = [] := rfl

theorem wf_nil : WF ([] : GoMap V) := List.nodup_nil

theorem get?_set_same (m : GoMap V) (k : ID) (v : V) : (m.set k v).get? k = some v := by
  induction m with
  | nil => simp [set, get?]
  | cons p m ih =>
    obtain ⟨k', v'⟩ := p
    by_cases h : k' = k <;> simp [set, get?, h, ih]

theorem get?_set_ne (m : GoMap V) {k k' : ID} (v : V) (h : k' ≠ k) : (m.set k v).get? k' = m.get? k' := by
  induction m with
  | nil => simp [set, get?, h.symm]
  | cons p m ih =>
    obtain ⟨a, b⟩ := p
    by_cases h1 : a = k
    · subst h1
      simp [set, get?, h.symm]
    · by_cases h2 : a = k'
      · subst h2; simp [set, get?, h]
      · simp [set, get?, h1, h2, ih]

theorem get?_set (m : GoMap V) (k k' : ID) (v : V) :
    (m.set k v).get? k' = if k' = k then some v else m.get? k' := by
  by_cases h : k' = k
  · subst h; simp [get?_set_same]
  · simp [h, get?_set_ne]

theorem get?_eq_none {m : GoMap V} {k : ID} : m.get? k = none ↔ k ∉ m.keys := by
  induction m with
  | nil => simp
  | cons p m ih =>
    obtain ⟨a, b⟩ := p
    by_cases h : a = k
    · simp [get?, h, keys]
    · have h' : ¬ k = a := fun hh => h hh.symm
      simp only [get?, h, ↓reduceIte, ih, keys, List.map_cons, List.mem_cons, h', false_or]

theorem mem_keys_iff {m : GoMap V} {k : ID} : k ∈ m.keys ↔ ∃ v, m.get? k = some v := by
  rw [← not_iff_not, ← get?_eq_none]
  cases m.get? k <;> simp

theorem has_iff {m : GoMap V} {k : ID} : m.has k = true ↔ k ∈ m.keys := by
  unfold has
  rw [Option.isSome_iff_exists, mem_keys_iff]

theorem has_eq_false {m : GoMap V} {k : ID} : m.has k = false ↔ k ∉ m.keys := by
  rw [← has_iff]; simp

theorem keys_set_of_mem {m : GoMap V} {k : ID} (v : V) (h : k ∈ m.keys) : (m.set k v).keys = m.keys := by
  induction m with
  | nil => simp at h
  | cons p m ih =>
    obtain ⟨a, b⟩ := p
    by_cases h1 : a = k
    · subst h1; simp [set, keys]
    · have : k ∈ keys m := by
        simp only [keys, List.map_cons, List.mem_cons] at h
        rcases h with h | h
        · exact absurd h.symm h1
        · exact h
      simp only [set, h1, ↓reduceIte, keys, List.map_cons] at ih ⊢
      rw [ih this]

theorem set_of_not_mem {m : GoMap V} {k : ID} (v : V) (h : k ∉ m.keys) : m.set k v = m ++ [(k, v)] := by
  induction m with
  | nil => rfl
  | cons p m ih =>
    obtain ⟨a, b⟩ := p
    simp only [keys, List.map_cons, List.mem_cons, not_or] at h
    have h1 : ¬ a = k := fun hh => h.1 hh.symm
    simp [set, h1, ih h.2]

theorem keys_set_of_not_mem {m : GoMap V} {k : ID} (v : V) (h : k ∉ m.keys) : (m.set k v).keys = m.keys ++ [k] := by
  rw [set_of_not_mem v h]; simp [keys]

theorem mem_keys_set {m : GoMap V} {k k' : ID} {v : V} : k' ∈ (m.set k v).keys ↔ k' = k ∨ k' ∈ m.keys := by
  rw [mem_keys_iff, mem_keys_iff, get?_set]
  by_cases h : k' = k <;> simp [h]

theorem WF.set {m : GoMap V} (h : m.WF) (k : ID) (v : V) : (m.set k v).WF := by
  unfold WF
  by_cases hk : k ∈ m.keys
  · rw [keys_set_of_mem v hk]; exact h
  · rw [keys_set_of_not_mem v hk]
    refine List.nodup_append.mpr ⟨h, by simp, ?_⟩
    intro a ha b hb
    simp only [List.mem_singleton] at hb
    subst hb
    rintro rfl
    exact hk ha

theorem get?_eq_some_iff {m : GoMap V} (h : m.WF) {k : ID} {v : V} : m.get? k = some v ↔ (k, v) ∈ m := by
  induction m with
  | nil => simp
  | cons p m ih =>
    obtain ⟨a, b⟩ := p
    have hn : a ∉ keys m ∧ WF m := by
      unfold WF keys at h ⊢
      simpa using h
    by_cases h1 : a = k
    · subst h1
      simp only [get?, ↓reduceIte, Option.some.injEq, List.mem_cons, Prod.mk.injEq, true_and]
      constructor
      · intro hh; exact Or.inl hh.symm
      · rintro (hh | hh)
        · exact hh.symm
        · exact absurd (List.mem_map.mpr ⟨_, hh, rfl⟩) hn.1
    · have h1' : ¬ k = a := fun hh => h1 hh.symm
      simp only [get?, h1, ↓reduceIte, ih hn.2, List.mem_cons, Prod.mk.injEq, h1', false_and, false_or]

theorem mem_of_get? {m : GoMap V} {k : ID} {v : V} (h : m.get? k = some v) : (k, v) ∈ m := by
  induction m with
  | nil => simp at h
  | cons p m ih =>
    obtain ⟨a, b⟩ := p
    by_cases h1 : a = k
    · subst h1; simp [get?] at h; simp [h]
    · simp only [get?, h1, ↓reduceIte] at h
      exact List.mem_cons_of_mem _ (ih h)

theorem keys_length (m : GoMap V) : m.keys.length = m.length := by simp [keys]

theorem WF.perm {m m' : GoMap V} (h : m.WF) (hp : m'.Perm m) : m'.WF :=
  (hp.map Prod.fst).nodup_iff.mpr h

theorem get?_perm {m m' : GoMap V} (h : m.WF) (hp : m'.Perm m) (k : ID) : m'.get? k = m.get? k := by
  have h' : m'.WF := h.perm hp
  apply Option.ext
  intro v
  rw [get?_eq_some_iff h', get?_eq_some_iff h, hp.mem_iff]

/-- A map with distinct keys is determined, up to order, by its lookups. -/
theorem perm_of_get? {m m' : GoMap V} (h : m.WF) (h' : m'.WF) (he : ∀ k, m.get? k = m'.get? k) : m.Perm m' := by
  apply (List.perm_ext_iff_of_nodup (List.Nodup.of_map _ h) (List.Nodup.of_map _ h')).mpr
  rintro ⟨k, v⟩
  rw [← get?_eq_some_iff h, ← get?_eq_some_iff h', he]

end GoMap

/-- The iteration order the Go run-time picks for `range` over a map during one call: any permutation of the entries. -/
structure MapOrder where
  order : (V : Type) → GoMap V → GoMap V
  perm : ∀ V (m : GoMap V), (order V m).Perm m

/-- Iteration in insertion order, one of the possible orders. -/
def MapOrder.insertion : MapOrder := ⟨fun _ m => m, fun _ _ => List.Perm.refl _⟩

/-- Iteration in reverse insertion order, another possible order. -/
def MapOrder.reversed : MapOrder := ⟨fun _ m => m.reverse, fun _ m => List.reverse_perm m⟩

end Verif
