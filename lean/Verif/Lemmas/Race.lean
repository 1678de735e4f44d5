import Verif.Model.Race
import Mathlib.Tactic.Common

/-!
Executions of goroutines sharing a `State`: what holds the mutex is ordered, and the variables change as the code says.
-/

namespace Verif.Race

open Verif.Spec.GoMem

variable {Ω : Type} {tr : Trace Ω} {hs : Nat → Holder}

theorem HB.lt {i j : Nat} (h : HB tr i j) : i < j := by
  induction h with
  | program h => exact h
  | mutex h => exact h
  | channel h => exact h
  | trans _ _ h1 h2 => exact h1.trans h2

/-- The event is one of the holder of the mutex, or takes the mutex. -/
def Owned (tr : Trace Ω) (hs : Nat → Holder) (i : Nat) : Prop :=
  ∃ e, tr[i]? = some e ∧ (e.act = .lock ∨ ∃ p, hs i = some (e.thread, p))

/-- The event `i` comes before whatever the holder of the mutex does, or whoever takes it next. -/
def Before (tr : Trace Ω) (i n : Nat) : Holder → Prop
  | none => ∃ u t, u < n ∧ tr[u]? = some ⟨t, .unlock⟩ ∧ (i = u ∨ HB tr i u)
  | some (t, _) => (∃ e, tr[i]? = some e ∧ e.thread = t) ∨
      ∃ u l t', u < l ∧ l < n ∧ tr[u]? = some ⟨t', .unlock⟩ ∧ tr[l]? = some ⟨t, .lock⟩ ∧ (i = u ∨ HB tr i u)

theorem ordered (hx : Executes tr hs) (n : Nat) (hn : n ≤ tr.length) : ∀ i, i < n → Owned tr hs i → Before tr i n (hs n) := by
  induction n with
  | zero => intro i hi; omega
  | succ n ih =>
    have ih := ih (by omega)
    intro i hi ho
    have he : tr[n]? = some tr[n] := List.getElem?_eq_getElem _
    have hnext := hx.2 n _ he
    generalize tr[n] = e at he hnext
    have old : i < n → Before tr i n (hs n) := fun h => ih i h ho
    clear ih
    generalize hh : hs n = h at hnext old
    generalize hh' : hs (n + 1) = h' at hnext
    have held : ∀ t p, h = some (t, p) → e.thread = t → (∃ p', h' = some (t, p')) →
        (∃ e, tr[i]? = some e ∧ e.thread = t) ∨
        ∃ u l t', u < l ∧ l < n + 1 ∧ tr[u]? = some ⟨t', .unlock⟩ ∧ tr[l]? = some ⟨t, .lock⟩ ∧ (i = u ∨ HB tr i u) := by
      intro t p hp hte _
      rcases Nat.lt_succ_iff_lt_or_eq.mp hi with hlt | heq
      · have := old hlt
        rw [hp] at this
        rcases this with h | ⟨u, l, t', h1, h2, h3⟩
        · exact Or.inl h
        · exact Or.inr ⟨u, l, t', h1, by omega, h3⟩
      · exact Or.inl ⟨e, heq ▸ he, hte⟩
    have same : h' = h → (i = n → False) → Before tr i (n + 1) h' := by
      rintro rfl hne
      have := old (lt_of_le_of_ne (Nat.lt_succ_iff.mp hi) hne)
      match h', this with
      | none, ⟨u, t, h1, h2⟩ => exact ⟨u, t, by omega, h2⟩
      | some (t, _), Or.inl h => exact Or.inl h
      | some (t, _), Or.inr ⟨u, l, t', h1, h2, h3⟩ => exact Or.inr ⟨u, l, t', h1, by omega, h3⟩
    have release : ∀ t p, h = some (t, p) → e = ⟨t, .unlock⟩ →
        ∃ u t, u < n + 1 ∧ tr[u]? = some ⟨t, .unlock⟩ ∧ (i = u ∨ HB tr i u) := by
      rintro t p hp rfl
      refine ⟨n, t, by omega, he, ?_⟩
      rcases Nat.lt_succ_iff_lt_or_eq.mp hi with hlt | heq
      · right
        have := old hlt
        rw [hp] at this
        rcases this with ⟨e, h1, h2⟩ | ⟨u, l, t', h1, h2, h3, h4, h5⟩
        · exact .program hlt h1 he h2
        · have h6 : HB tr l n := .program h2 h4 he rfl
          have h7 := HB.trans (.mutex h1 h3 h4) h6
          rcases h5 with rfl | h5
          · exact h7
          · exact .trans h5 h7
      · exact Or.inl heq
    cases hnext with
    | @lock t =>
      rcases Nat.lt_succ_iff_lt_or_eq.mp hi with hlt | heq
      · obtain ⟨u, t', h1, h2, h3⟩ := old hlt
        exact Or.inr ⟨u, n, t', h1, by omega, h2, he, h3⟩
      · exact Or.inl ⟨_, heq ▸ he, rfl⟩
    | finished => exact held _ _ rfl rfl ⟨_, rfl⟩
    | unfinished => exact held _ _ rfl rfl ⟨_, rfl⟩
    | output o => exact held _ _ rfl rfl ⟨_, rfl⟩
    | report e => exact held _ _ rfl rfl ⟨_, rfl⟩
    | abort => exact held _ _ rfl rfl ⟨_, rfl⟩
    | finish => exact held _ _ rfl rfl ⟨_, rfl⟩
    | close => exact held _ _ rfl rfl ⟨_, rfl⟩
    | quiet => exact release _ _ rfl rfl
    | leave => exact release _ _ rfl rfl
    | look hp => exact held _ _ rfl rfl ⟨_, rfl⟩
    | @peek h t x v hp =>
      refine same rfl ?_
      rintro rfl
      obtain ⟨e, h1, h2⟩ := ho
      rw [he] at h1
      obtain rfl := Option.some.inj h1
      rcases h2 with h2 | ⟨p, h2⟩
      · cases h2
      · rw [hh] at h2; exact hp p h2
    | @wait h t hp =>
      refine same rfl ?_
      rintro rfl
      obtain ⟨e, h1, h2⟩ := ho
      rw [he] at h1
      obtain rfl := Option.some.inj h1
      rcases h2 with h2 | ⟨p, h2⟩
      · cases h2
      · rw [hh] at h2; exact hp p h2

/-- What is done with the mutex held happens in the order of the list. -/
theorem owned_hb (hx : Executes tr hs) {i j : Nat} (hij : i < j) (hi : Owned tr hs i) (hj : Owned tr hs j) : HB tr i j := by
  obtain ⟨e, he, hj⟩ := hj
  have hn : j < tr.length := (List.getElem?_eq_some_iff.mp he).1
  have ho := ordered hx j (by omega) i hij hi
  rcases hj with hl | ⟨p, hp⟩
  · have := hx.2 j _ he
    obtain ⟨t, a⟩ := e
    simp only at hl
    subst hl
    generalize hh : hs j = h at this
    generalize hs (j + 1) = h' at this
    cases this with
    | lock =>
      rw [hh] at ho
      obtain ⟨u, t', h1, h2, h3⟩ := ho
      have h4 : HB tr u j := .mutex h1 h2 he
      rcases h3 with rfl | h3
      · exact h4
      · exact .trans h3 h4
  · rw [hp] at ho
    rcases ho with ⟨e', h1, h2⟩ | ⟨u, l, t', h1, h2, h3, h4, h5⟩
    · exact .program hij h1 he h2
    · have h7 := HB.trans (.mutex h1 h3 h4) (.program h2 h4 he rfl)
      rcases h5 with rfl | h5
      · exact h7
      · exact .trans h5 h7

/-- Writes, and closing the channel, are done with the mutex held. -/
theorem owned_write (hx : Executes tr hs) {i t : Nat} {x : Var} {v : Val Ω x} (h : tr[i]? = some ⟨t, .write x v⟩) : Owned tr hs i := by
  refine ⟨_, h, Or.inr ?_⟩
  have := hx.2 i _ h
  generalize hs i = h at this
  generalize hs (i + 1) = h' at this
  cases this <;> exact ⟨_, rfl⟩

theorem owned_close (hx : Executes tr hs) {i t : Nat} (h : tr[i]? = some ⟨t, .close⟩) : Owned tr hs i := by
  refine ⟨_, h, Or.inr ?_⟩
  have := hx.2 i _ h
  generalize hs i = h at this
  generalize hs (i + 1) = h' at this
  cases this; exact ⟨_, rfl⟩

/-- The value of a variable after the first `n` events in the order of the mutex. -/
abbrev ValueAt (tr : Trace Ω) (n : Nat) (x : Var) (v : Val Ω x) : Prop := After init tr n x v

theorem valueAt_unique {n : Nat} {x : Var} {v v' : Val Ω x} (h : ValueAt tr n x v) (h' : ValueAt tr n x v') : v = v' := by
  rcases h with ⟨i, t, h1, h2, h3⟩ | ⟨rfl, h3⟩ <;> rcases h' with ⟨i', t', g1, g2, g3⟩ | ⟨rfl, g3⟩
  · rcases Nat.lt_trichotomy i i' with hlt | heq | hlt
    · exact absurd g2 (h3 _ _ _ hlt g1)
    · subst heq
      rw [h2] at g2
      injection g2 with g2
      injection g2 with _ g2
      injection g2 with _ g2
    · exact absurd h2 (g3 _ _ _ hlt h1)
  · exact absurd h2 (g3 _ _ _ h1)
  · exact absurd g2 (h3 _ _ _ g1)
  · rfl

/-- A read that is ordered with all writes of its variable returns the value in the order of the list. -/
theorem maySee_ordered (hx : Executes tr hs) {j : Nat} {x : Var} {v : Val Ω x} (h : MaySee init tr j x v)
    (hbefore : ∀ i u v', i < j → tr[i]? = some ⟨u, .write x v'⟩ → HB tr i j)
    (hafter : ∀ i u v', j ≤ i → tr[i]? = some ⟨u, .write x v'⟩ → HB tr j i) : ValueAt tr j x v := by
  rcases h with ⟨i, t, h1, h2, h3⟩ | ⟨h1, h2⟩
  · have hij : i < j := by
      by_contra hc
      exact h2 (hafter i t v (by omega) h1)
    refine Or.inl ⟨i, t, hij, h1, fun k u v' hik hkj hk => h3 ⟨k, u, v', hk, ?_, hbefore k u v' hkj hk⟩⟩
    exact owned_hb hx hik (owned_write hx h1) (owned_write hx hk)
  · exact Or.inr ⟨h1, fun k u v' hkj hk => h2 ⟨k, u, v', hk, hbefore k u v' hkj hk⟩⟩

/-- With the mutex held one reads the value in the order of the mutex. -/
theorem owned_read (hx : Executes tr hs) (ha : Allowed init tr) {j t : Nat} {x : Var} {v : Val Ω x} (hj : tr[j]? = some ⟨t, .read x v⟩)
    (ho : Owned tr hs j) : ValueAt tr j x v := by
  refine maySee_ordered hx (ha.1 j t x v hj) (fun i u v' hij hi => owned_hb hx hij (owned_write hx hi) ho) fun i u v' hji hi => ?_
  rcases Nat.eq_or_lt_of_le hji with rfl | hlt
  · rw [hj] at hi
    injection hi with hi
    injection hi with _ hi
    cases hi
  · exact owned_hb hx hlt ho (owned_write hx hi)

/-- There is a write to the variable among the first `n` events. -/
def Written (tr : Trace Ω) (n : Nat) (x : Var) : Prop := ∃ i t v, i < n ∧ tr[i]? = some ⟨t, .write x v⟩

/-- The channel was closed in the first `n` events. -/
def Closed (tr : Trace Ω) (n : Nat) : Prop := ∃ i t, i < n ∧ tr[i]? = some ⟨t, .close⟩

theorem Written.mono {n m : Nat} {x : Var} (h : Written tr n x) (hnm : n ≤ m) : Written tr m x := by
  obtain ⟨i, t, v, h1, h2⟩ := h
  exact ⟨i, t, v, by omega, h2⟩

theorem Closed.mono {n m : Nat} (h : Closed tr n) (hnm : n ≤ m) : Closed tr m := by
  obtain ⟨i, t, h1, h2⟩ := h
  exact ⟨i, t, by omega, h2⟩

/-- The variable that an action writes. -/
def writes : Act Ω → Option Var
  | .write x _ => some x
  | _ => none

/-- Whether an action closes the channel. -/
def closes : Act Ω → Bool
  | .close => true
  | _ => false

theorem writes_iff (e : Event Ω) (x : Var) : writes e.act = some x ↔ ∃ t v, e = ⟨t, .write x v⟩ := by
  obtain ⟨t, a⟩ := e
  constructor
  · intro h
    cases a with
    | write y v =>
      obtain rfl : y = x := Option.some.inj h
      exact ⟨t, v, rfl⟩
    | _ => cases h
  · rintro ⟨t', v, h⟩
    cases h
    rfl

theorem closes_iff (e : Event Ω) : closes e.act = true ↔ ∃ t, e = ⟨t, .close⟩ := by
  obtain ⟨t, a⟩ := e
  constructor
  · intro h
    cases a with
    | close => exact ⟨t, rfl⟩
    | _ => cases h
  · rintro ⟨t', h⟩
    cases h
    rfl

theorem written_succ {n : Nat} {x : Var} {e : Event Ω} (he : tr[n]? = some e) :
    Written tr (n + 1) x ↔ Written tr n x ∨ writes e.act = some x := by
  rw [writes_iff]
  constructor
  · rintro ⟨i, t, v, h1, h2⟩
    rcases Nat.lt_succ_iff_lt_or_eq.mp h1 with h | rfl
    · exact Or.inl ⟨i, t, v, h, h2⟩
    · exact Or.inr ⟨t, v, Option.some.inj (he.symm.trans h2)⟩
  · rintro (h | ⟨t, v, rfl⟩)
    · exact h.mono (by omega)
    · exact ⟨n, t, v, by omega, he⟩

theorem closed_succ {n : Nat} {e : Event Ω} (he : tr[n]? = some e) :
    Closed tr (n + 1) ↔ Closed tr n ∨ closes e.act = true := by
  rw [closes_iff]
  constructor
  · rintro ⟨i, t, h1, h2⟩
    rcases Nat.lt_succ_iff_lt_or_eq.mp h1 with h | rfl
    · exact Or.inl ⟨i, t, h, h2⟩
    · exact Or.inr ⟨t, Option.some.inj (he.symm.trans h2)⟩
  · rintro (h | ⟨t, rfl⟩)
    · exact h.mono (by omega)
    · exact ⟨n, t, by omega, he⟩

/-- What the phases say about the writes so far. -/
structure Facts (tr : Trace Ω) (n : Nat) (h : Holder) : Prop where
  working : ∀ t, h = some (t, .working) → ¬ Written tr n .done ∧ ¬ Written tr n .err
  reported : ∀ t, h = some (t, .reported) → ¬ Written tr n .done ∧ Written tr n .err
  err : Written tr n .err → Written tr n .done ∨ ∃ t, h = some (t, .reported)
  closed : Closed tr n → Written tr n .done
  closing : ∀ t, h = some (t, .closing) → Written tr n .done ∧ ¬ Closed tr n
  done : Written tr n .done → Closed tr n ∨ ∃ t, h = some (t, .closing)

theorem value_done (hx : Executes tr hs) {n : Nat} {b : Bool} (h : ValueAt tr n .done b) : b = true ↔ Written tr n .done := by
  constructor
  · rintro rfl
    rcases h with ⟨i, t, h1, h2, _⟩ | ⟨h1, _⟩
    · exact ⟨i, t, _, h1, h2⟩
    · cases h1
  · rintro ⟨i, t, v, h1, h2⟩
    rcases h with ⟨i', t', g1, g2, _⟩ | ⟨_, g2⟩
    · have := hx.2 i' _ g2
      generalize hs i' = h at this
      generalize hs (i' + 1) = h' at this
      cases this <;> rfl
    · exact absurd h2 (g2 _ _ _ h1)

theorem facts (hx : Executes tr hs) (ha : Allowed init tr) (n : Nat) (hn : n ≤ tr.length) : Facts tr n (hs n) := by
  induction n with
  | zero =>
    rw [hx.1]
    constructor
    · intro t h; cases h
    · intro t h; cases h
    · rintro ⟨i, t, v, h, _⟩; omega
    · rintro ⟨i, t, h, _⟩; omega
    · intro t h; cases h
    · rintro ⟨i, t, v, h, _⟩; omega
  | succ n ih =>
    have ih := ih (by omega)
    have he : tr[n]? = some tr[n] := List.getElem?_eq_getElem _
    have hnext := hx.2 n _ he
    generalize tr[n] = e at he hnext
    have hw : ∀ x, Written tr (n + 1) x ↔ Written tr n x ∨ writes e.act = some x := fun x => written_succ he
    have hc : Closed tr (n + 1) ↔ Closed tr n ∨ closes e.act = true := closed_succ he
    have hr : ∀ t b, hs n = some (t, .entered) → e = ⟨t, .read .done b⟩ → (b = true ↔ Written tr n .done) := by
      rintro t b ht rfl
      exact value_done hx (owned_read hx ha he ⟨_, he, Or.inr ⟨_, ht⟩⟩)
    generalize hh : hs n = h at hnext ih hr
    generalize hh' : hs (n + 1) = h' at hnext
    obtain ⟨i1, i2, i3, i4, i5, i6⟩ := ih
    cases hnext with
    | lock =>
      constructor <;> simp_all [writes, closes]
    | @finished t =>
      have := hr t true rfl rfl
      constructor <;> simp_all [writes, closes]
    | @unfinished t =>
      have := hr t false rfl rfl
      constructor <;> simp_all [writes, closes]
    | output o => constructor <;> simp_all [writes, closes]
    | report e => constructor <;> simp_all [writes, closes]
    | abort => constructor <;> simp_all [writes, closes]
    | finish => constructor <;> simp_all [writes, closes]
    | close => constructor <;> simp_all [writes, closes]
    | quiet => constructor <;> simp_all [writes, closes]
    | leave => constructor <;> simp_all [writes, closes]
    | look hp => constructor <;> simp_all [writes, closes]
    | peek hp => constructor <;> simp_all [writes, closes]
    | wait hp => constructor <;> simp_all [writes, closes]

/-- What a read may return if all took place in the order of the list. -/
theorem valueAt_maySee {n : Nat} {x : Var} {v : Val Ω x} (h : ValueAt tr n x v) : MaySee init tr n x v := by
  rcases h with ⟨i, t, h1, h2, h3⟩ | ⟨h1, h2⟩
  · refine Or.inl ⟨i, t, h2, fun hb => absurd (HB.lt hb) (by omega), ?_⟩
    rintro ⟨k, u, v', g1, g2, g3⟩
    exact h3 k u v' (HB.lt g2) (HB.lt g3) g1
  · refine Or.inr ⟨h1, ?_⟩
    rintro ⟨k, u, v', g1, g2⟩
    exact h2 k u v' (HB.lt g2) g1

theorem written_of {i t : Nat} {x : Var} {v : Val Ω x} (h : tr[i]? = some ⟨t, .write x v⟩) : Written tr (i + 1) x :=
  ⟨i, t, v, by omega, h⟩

/-- No variable is written when `done` already was. -/
theorem not_written (hx : Executes tr hs) (ha : Allowed init tr) {i t : Nat} {x : Var} {v : Val Ω x} (h : tr[i]? = some ⟨t, .write x v⟩) :
    ¬ Written tr i .done := by
  have hf := facts hx ha i (List.getElem?_eq_some_iff.mp h).1.le
  have := hx.2 i _ h
  generalize hs i = h at this hf
  generalize hs (i + 1) = h' at this
  cases this with
  | output => exact (hf.working _ rfl).1
  | report => exact (hf.working _ rfl).1
  | abort => exact (hf.reported _ rfl).1
  | finish => exact (hf.working _ rfl).1

/-- When the error is written it was not written before. -/
theorem not_written_err (hx : Executes tr hs) (ha : Allowed init tr) {i t : Nat} {v : Val Ω .err} (h : tr[i]? = some ⟨t, .write .err v⟩) :
    ¬ Written tr i .err := by
  have hf := facts hx ha i (List.getElem?_eq_some_iff.mp h).1.le
  have := hx.2 i _ h
  generalize hs i = h at this hf
  generalize hs (i + 1) = h' at this
  cases this with
  | report => exact (hf.working _ rfl).2

/-- When the channel is closed `done` was written and the channel was not closed before. -/
theorem at_close (hx : Executes tr hs) (ha : Allowed init tr) {i t : Nat} (h : tr[i]? = some ⟨t, .close⟩) : Written tr i .done ∧ ¬ Closed tr i := by
  have hf := facts hx ha i (List.getElem?_eq_some_iff.mp h).1.le
  have := hx.2 i _ h
  generalize hs i = h at this hf
  generalize hs (i + 1) = h' at this
  cases this with
  | close => exact hf.closing _ rfl

/-- A read that comes after the write of `done` returns the final value. -/
theorem read_after_done (hx : Executes tr hs) (ha : Allowed init tr) {d t k u : Nat} {b : Val Ω .done} {x : Var} {v : Val Ω x}
    (hd : tr[d]? = some ⟨t, .write .done b⟩) (hk : tr[k]? = some ⟨u, .read x v⟩) (hb : HB tr d k) : Final init tr x v := by
  have none_after : ∀ i u v', d < i → tr[i]? ≠ some ⟨u, .write x v'⟩ := fun i u v' hi hw =>
    not_written hx ha hw ((written_of hd).mono (by omega))
  have hdk := HB.lt hb
  have hat : ValueAt tr k x v := by
    refine maySee_ordered hx (ha.1 k u x v hk) (fun i u v' hij hi => ?_) fun i u v' hki hi => absurd hi (none_after i u v' (by omega))
    rcases Nat.lt_trichotomy i d with hlt | rfl | hlt
    · exact .trans (owned_hb hx hlt (owned_write hx hi) (owned_write hx hd)) hb
    · exact hb
    · exact absurd hi (none_after i u v' hlt)
  have hlen : k < tr.length := (List.getElem?_eq_some_iff.mp hk).1
  rcases hat with ⟨i, t, h1, h2, h3⟩ | ⟨h1, h2⟩
  · refine Or.inl ⟨i, t, by omega, h2, fun j u v' hij _ => ?_⟩
    rcases Nat.lt_or_ge j k with h | h
    · exact h3 j u v' hij h
    · exact none_after j u v' (by omega)
  · refine Or.inr ⟨h1, fun j u v' _ => ?_⟩
    rcases Nat.lt_or_ge j k with h | h
    · exact h2 j u v' h
    · exact none_after j u v' (by omega)

/-- What comes before an event of goroutine `t` that does not synchronise from `m` on is of the same goroutine, or before `m`. -/
theorem hb_foreign {t m : Nat} (hsync : ∀ i, m ≤ i → tr[i]? ≠ some ⟨t, .lock⟩ ∧ tr[i]? ≠ some ⟨t, .recv⟩) {i j : Nat} (h : HB tr i j) :
    (∀ e, tr[j]? = some e → e.thread = t) → (∀ e, tr[i]? = some e → e.thread = t) ∨ i < m := by
  induction h with
  | program _ h1 h2 h3 =>
    intro h
    left
    intro e he
    rw [h1] at he
    obtain rfl := Option.some.inj he
    rw [h3]
    exact h _ h2
  | @mutex i j _ u hij _ h2 =>
    intro h
    obtain rfl : u = t := h _ h2
    right
    by_contra hc
    exact (hsync j (by omega)).1 h2
  | @channel i j _ u hij _ h2 =>
    intro h
    obtain rfl : u = t := h _ h2
    right
    by_contra hc
    exact (hsync j (by omega)).2 h2
  | @trans i j k h1 _ ih1 ih2 =>
    intro h
    rcases ih2 h with h | h
    · exact ih1 h
    · have := HB.lt h1
      right; omega

end Verif.Race
