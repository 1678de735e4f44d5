import Verif.Lemmas.Prompt

/-!
There are executions in which callers and network are prompt.
-/

namespace Verif.State

open Spec

variable {G R : Type}

section

variable {impl : RoundImpl G R} {ids : IDSlice} {r₀ : ID → R} {coins : ID → Coins} {M : Nat → ID → ID → Message G}
  {out : ID → Nat → List (Message G)} {Good : ID → Nat → R → Prop} {timeout now : ID → Nat} {N : Net G R} {tys : List MsgType}
  {init : ID → State G R} {event : Nat → Option (Event G)} {net : Nat → Net G R} {time : Nat → Nat} {δ τ : Nat}

theorem start_init (hN0 : NetInv impl ids r₀ out Good timeout now (Net.start init)) : ∀ i ∈ ids, init i = newBaseState impl (r₀ i) (timeout i) (now i) := by
  intro i hi
  have aux : ∀ s₀ h s, Hist impl s₀ h s → h = [] → s = s₀ := by
    intro s₀ h s hh he
    cases hh with
    | nil => rfl
    | snoc => simp at he
  exact aux _ _ _ (hN0.hist i hi) rfl

theorem bound_all {α : Type} {P : α → Nat → Prop} (l : List α) (hmono : ∀ k ∈ l, ∀ a b, a ≤ b → P k a → P k b) (h : ∀ k ∈ l, ∃ n, P k n) :
    ∃ n, ∀ k ∈ l, P k n := by
  induction l with
  | nil => exact ⟨0, (fun _ h => nomatch h)⟩
  | cons a l ih =>
    obtain ⟨n, hn⟩ := ih (fun k hk => hmono k (List.mem_cons_of_mem _ hk)) (fun k hk => h k (List.mem_cons_of_mem _ hk))
    obtain ⟨n', hn'⟩ := h a List.mem_cons_self
    refine ⟨max n n', fun k hk => ?_⟩
    rcases List.mem_cons.mp hk with rfl | hk
    · exact hmono _ List.mem_cons_self _ _ (le_max_right _ _) hn'
    · exact hmono _ (List.mem_cons_of_mem _ hk) _ _ (le_max_left _ _) (hn k hk)

/-- Only `advance` changes the clock. -/
theorem step_now {s s' : State G R} {op : Op G} {ret : Ret G} (h : step impl s op = some (s', ret)) (ha : ∀ dt, op ≠ .advance dt) :
    s'.timer.now = s.timer.now := by
  have hack : s.timer.ackMessage.now = s.timer.now := by unfold Timer.ackMessage; split <;> rfl
  have hstop : ∀ t : Timer, t.stopTimer.now = t.now := fun t => by unfold Timer.stopTimer; split <;> rfl
  rcases step_cases h with ⟨m, e, rfl, rfl, h5⟩ | ⟨ord, c, o, rfl, rfl, h5⟩ | ⟨dt, rfl, rfl, rfl⟩ |
    ⟨rfl, rfl, rfl | ⟨t, _, _, rfl⟩⟩ | ⟨rfl, rfl, ⟨_, rfl⟩ | ⟨_, _, rfl⟩ | ⟨r, _, _, _, _, rfl⟩⟩
  · cases handle_cases _ h5 with
    | stored | queued => exact hack
    | _ => rfl
  · cases h5 with
    | idle | next => rfl
    | _ => exact hstop _
  · exact absurd rfl (ha dt)
  · rfl
  · rfl
  · rfl
  · rfl
  · exact hstop _

/-- A fair execution in which no time passes, stopped when everybody has finished, is prompt for all `δ`; after that time goes on. -/
theorem prompt_exists (E : Execution impl ids coins init event net) (F : Fair ids event net)
    (hadv : ∀ n i op ret, event n = some (i, op, ret) → ∀ dt, op ≠ .advance dt)
    (hfin : ∃ n, ∀ k, n ≤ k → ∀ i ∈ ids, ((net k).state i).done = true) :
    ∃ event' net' time, TimedExecution impl ids coins init event' net' time ∧ (∀ δ, Swift ids δ event' net' time) ∧ ∀ T, ∃ n, T < time n := by
  obtain ⟨n₁, hn₁⟩ := hfin
  -- when everything has happened that promptness asks for before `n₁`
  have hproc : ∃ B, ∀ n ∈ List.range n₁, ∀ i ∈ ids, ∃ k, n ≤ k ∧ k < B ∧ ∃ ord c o, event k = some (i, .processAll ord c, .messages o) := by
    refine bound_all (P := fun n B => ∀ i ∈ ids, ∃ k, n ≤ k ∧ k < B ∧ ∃ ord c o, event k = some (i, .processAll ord c, .messages o)) _
      (fun n _ a b hab h i hi => ?_) (fun n _ => ?_)
    · obtain ⟨k, h1, h2, h3⟩ := h i hi
      exact ⟨k, h1, by omega, h3⟩
    · refine bound_all (P := fun i B => ∃ k, n ≤ k ∧ k < B ∧ ∃ ord c o, event k = some (i, .processAll ord c, .messages o)) ids
        (fun i _ a b hab ⟨k, h1, h2, h3⟩ => ⟨k, h1, by omega, h3⟩) (fun i hi => ?_)
      obtain ⟨k, h1, h2⟩ := F.processes i hi n
      exact ⟨k + 1, k, h1, by omega, h2⟩
  have hdel : ∃ B, ∀ n ∈ List.range n₁, ∀ i ∈ ids, ∀ m ∈ (net n).sent, m.header.fromID ≠ i → m.header.toID = 0 ∨ m.header.toID = i →
      (∃ k < n, event k = some (i, .handle m, .handled none)) ∨ ∃ k, n ≤ k ∧ k < B ∧ ∃ e, event k = some (i, .handle m, .handled e) := by
    refine bound_all (P := fun n B => ∀ i ∈ ids, ∀ m ∈ (net n).sent, m.header.fromID ≠ i → m.header.toID = 0 ∨ m.header.toID = i →
      (∃ k < n, event k = some (i, .handle m, .handled none)) ∨ ∃ k, n ≤ k ∧ k < B ∧ ∃ e, event k = some (i, .handle m, .handled e)) _
      (fun n _ a b hab h i hi m hm h1 h2 => (h i hi m hm h1 h2).imp_right fun ⟨k, h3, h4, h5⟩ => ⟨k, h3, by omega, h5⟩) (fun n _ => ?_)
    refine bound_all (P := fun i B => ∀ m ∈ (net n).sent, m.header.fromID ≠ i → m.header.toID = 0 ∨ m.header.toID = i →
      (∃ k < n, event k = some (i, .handle m, .handled none)) ∨ ∃ k, n ≤ k ∧ k < B ∧ ∃ e, event k = some (i, .handle m, .handled e)) ids
      (fun i _ a b hab h m hm h1 h2 => (h m hm h1 h2).imp_right fun ⟨k, h3, h4, h5⟩ => ⟨k, h3, by omega, h5⟩) (fun i hi => ?_)
    refine bound_all (P := fun m B => m.header.fromID ≠ i → m.header.toID = 0 ∨ m.header.toID = i →
      (∃ k < n, event k = some (i, .handle m, .handled none)) ∨ ∃ k, n ≤ k ∧ k < B ∧ ∃ e, event k = some (i, .handle m, .handled e)) _
      ?_ (fun m hm => ?_)
    · intro m _ a b hab h h1 h2
      exact (h h1 h2).imp_right fun ⟨k, h3, h4, h5⟩ => ⟨k, h3, by omega, h5⟩
    by_cases hrel : m.header.fromID ≠ i ∧ (m.header.toID = 0 ∨ m.header.toID = i)
    swap
    · exact ⟨0, fun h1 h2 => absurd ⟨h1, h2⟩ hrel⟩
    rcases F.delivers i hi n m hm hrel.1 hrel.2 with ⟨k, hk⟩ | h
    · by_cases hkn : k < n
      · exact ⟨0, fun _ _ => Or.inl ⟨k, hkn, hk⟩⟩
      · exact ⟨k + 1, fun _ _ => Or.inr ⟨k, by omega, by omega, _, hk⟩⟩
    · obtain ⟨k, h1, h2⟩ := h n
      exact ⟨k + 1, fun _ _ => Or.inr ⟨k, h1, by omega, h2⟩⟩
  obtain ⟨B₁, hB₁⟩ := hproc
  obtain ⟨B₂, hB₂⟩ := hdel
  let B := max n₁ (max B₁ B₂)
  have hb1 : n₁ ≤ B := le_max_left _ _
  have hb2 : B₁ ≤ B := (le_max_left _ _).trans (le_max_right _ _)
  have hb3 : B₂ ≤ B := (le_max_right _ _).trans (le_max_right _ _)
  have hlt : ∀ n i, i ∈ ids → ((net (min n B)).state i).done = false → n < n₁ := by
    intro n i hi hd
    by_contra h
    rw [hn₁ _ (show n₁ ≤ min n B from le_min (by omega) hb1) i hi] at hd
    cases hd
  refine ⟨fun k => if k < B then event k else none, fun k => net (min k B), fun k => k - B, ?_, fun δ => ?_, fun T => ⟨B + T + 1, by show T < B + T + 1 - B; omega⟩⟩
  · refine ⟨?_, ?_, ?_, Nat.zero_sub _, fun n => by show n - B ≤ n + 1 - B; omega, ?_⟩
    · show net (min 0 B) = _
      rw [Nat.zero_min]
      exact E.start
    · intro n h
      show net (min (n + 1) B) = net (min n B)
      by_cases hn : n < B
      · rw [Nat.min_eq_left (by omega), Nat.min_eq_left (by omega)]
        simp only [if_pos hn] at h
        exact E.rest n h
      · rw [Nat.min_eq_right (by omega), Nat.min_eq_right (by omega)]
    · intro n i op ret h
      by_cases hn : n < B
      · simp only [if_pos hn] at h
        obtain ⟨h1, h2, h3⟩ := E.step n i op ret h
        show _ ∧ AllowedT coins (net (min n B)) i op ∧ ∃ s, State.step impl ((net (min n B)).state i) op = some (s, ret) ∧
          net (min (n + 1) B) = (net (min n B)).after i op ret s
        rw [Nat.min_eq_left (show n ≤ B by omega), Nat.min_eq_left (show n + 1 ≤ B by omega)]
        exact ⟨h1, Or.inr h2, h3⟩
      · simp only [if_neg hn] at h
        cases h
    · intro n i hi
      show ((net (min (n + 1) B)).state i).timer.now + (n - B) ≤ ((net (min n B)).state i).timer.now + (n + 1 - B)
      by_cases hn : n < B
      · rw [Nat.min_eq_left (show n ≤ B by omega), Nat.min_eq_left (show n + 1 ≤ B by omega)]
        have : ((net (n + 1)).state i).timer.now = ((net n).state i).timer.now := by
          cases he : event n with
          | none => rw [E.rest n he]
          | some x =>
            obtain ⟨j, op, ret⟩ := x
            obtain ⟨_, _, s, h3, h4⟩ := E.step n j op ret he
            rw [h4]
            exact update_mem (f := (net n).state) (i := j) (j := i) (P := fun t : State G R => t.timer.now = ((net n).state i).timer.now)
              (fun h => by rw [h]; exact step_now h3 (hadv n j op ret he)) (fun _ => rfl)
        omega
      · rw [Nat.min_eq_right (by omega), Nat.min_eq_right (by omega)]
        omega
  · constructor
    · intro i hi n hd
      have hn := hlt n i hi hd
      obtain ⟨k, h1, h2, ord, c, o, h3⟩ := hB₁ n (List.mem_range.mpr hn) i hi
      exact ⟨k, h1, by show k + 1 - B ≤ n - B + δ; omega, ord, c, o, by simp only [if_pos (show k < B by omega)]; exact h3⟩
    · intro i hi n hd m hm h1 h2
      have hn := hlt n i hi hd
      simp only [Nat.min_eq_left (show n ≤ B by omega)] at hm
      rcases hB₂ n (List.mem_range.mpr hn) i hi m hm h1 h2 with ⟨k, h3, h4⟩ | ⟨k, h3, h4, e, h5⟩
      · exact Or.inl ⟨k, h3, by simp only [if_pos (show k < B by omega)]; exact h4⟩
      · exact Or.inr ⟨k, h3, by show k + 1 - B ≤ n - B + δ; omega, e, by simp only [if_pos (show k < B by omega)]; exact h5⟩

theorem robin_no_advance (n : Nat) (i : ID) (op : Op G) (ret : Ret G) (h : schedEvent impl (roundRobin ids coins) init n = some (i, op, ret)) (dt : Nat) :
    op ≠ .advance dt := by
  unfold schedEvent at h
  cases hr : roundRobin ids coins n (schedNet impl (roundRobin ids coins) init n) with
  | none => rw [hr] at h; cases h
  | some x =>
    obtain ⟨j, op'⟩ := x
    rw [hr] at h
    simp only [perform] at h
    cases hs : State.step impl ((schedNet impl (roundRobin ids coins) init n).state j) op' with
    | none => rw [hs] at h; cases h
    | some y =>
      rw [hs] at h
      simp only [Option.some.injEq, Prod.mk.injEq] at h
      obtain ⟨rfl, rfl, rfl⟩ := h
      unfold roundRobin at hr
      split at hr
      · cases hr
      · split at hr
        · obtain ⟨_, rfl⟩ := Prod.mk.inj (Option.some.inj hr)
          exact fun h => nomatch h
        · rw [Option.map_eq_some_iff] at hr
          obtain ⟨m, _, hr⟩ := hr
          obtain ⟨_, rfl⟩ := Prod.mk.inj hr
          exact fun h => nomatch h

theorem robin_prompt (H : Honest impl ids r₀ coins M out Good tys)
    (hpath : ∀ N, Path impl ids coins (Net.start init) N → NetInv impl ids r₀ out Good timeout now N) :
    ∃ event net time, TimedExecution impl ids coins init event net time ∧ (∀ δ, Swift ids δ event net time) ∧ ∀ T, ∃ n, T < time n := by
  have E := robin_execution impl ids coins init
  have F := robin_fair H fun n => hpath _ (execution_path E n)
  exact prompt_exists E F robin_no_advance (fair_finishes H E (fun n => hpath _ (execution_path E n)) F)

/-- And also when the sessions are created within `δ` of each other. -/
theorem robin_staggered (H : Honest impl ids r₀ coins M out Good tys)
    (hpath : ∀ N, Path impl ids coins (Net.start init) N → NetInv impl ids r₀ out Good timeout now N) {δ σ : Nat} {start : ID → Nat}
    (hσ : ∀ i ∈ ids, start i ≤ σ ∧ σ ≤ start i + δ) :
    ∃ event net time, TimedExecution impl ids coins init event net time ∧ SwiftFrom ids δ start event net time ∧ ∀ T, ∃ n, T < time n := by
  obtain ⟨event, net, time, hT, F, hu⟩ := robin_prompt H hpath
  obtain ⟨event', net', time', h1, h2, h3⟩ := staggered_exists hT F (fun i hi => (hσ i hi).1) (fun i hi => (hσ i hi).2)
    fun n i op ret he => (hT.step n i op ret he).1
  refine ⟨event', net', time', h1, h2, fun T => ?_⟩
  obtain ⟨n, hn⟩ := hu T
  exact ⟨n + 1, by rw [(h3 n).2]; omega⟩

theorem sched_step {sched : Nat → Net G R → Option (ID × Op G)} {n : Nat} {i : ID} {op : Op G} {ret : Ret G}
    (h : schedEvent impl sched init n = some (i, op, ret)) : sched n (schedNet impl sched init n) = some (i, op) ∧
      ∃ s, State.step impl ((schedNet impl sched init n).state i) op = some (s, ret) ∧
        schedNet impl sched init (n + 1) = (schedNet impl sched init n).after i op ret s := by
  unfold schedEvent at h
  cases hr : sched n (schedNet impl sched init n) with
  | none => rw [hr] at h; cases h
  | some x =>
    obtain ⟨j, op'⟩ := x
    rw [hr] at h
    simp only [perform] at h
    cases hs : State.step impl ((schedNet impl sched init n).state j) op' with
    | none => rw [hs] at h; cases h
    | some y =>
      rw [hs] at h
      obtain ⟨s, ret'⟩ := y
      simp only [Option.some.injEq, Prod.mk.injEq] at h
      obtain ⟨rfl, rfl, rfl⟩ := h
      refine ⟨rfl, s, hs, ?_⟩
      show (perform impl _ _).2 = _
      rw [hr]
      simp only [perform, hs]

theorem sched_rest {sched : Nat → Net G R → Option (ID × Op G)} {n : Nat} (h : schedEvent impl sched init n = none) :
    schedNet impl sched init (n + 1) = schedNet impl sched init n := by
  unfold schedEvent at h
  show (perform impl _ _).2 = _
  cases hr : sched n (schedNet impl sched init n) with
  | none => rfl
  | some x =>
    obtain ⟨i, op⟩ := x
    rw [hr] at h
    simp only [perform] at h ⊢
    cases hs : State.step impl ((schedNet impl sched init n).state i) op with
    | none => rfl
    | some y => rw [hs] at h; cases h

theorem sched_next {sched : Nat → Net G R → Option (ID × Op G)} {n : Nat} {i : ID} {op : Op G} {s : State G R} {ret : Ret G}
    (h : sched n (schedNet impl sched init n) = some (i, op)) (hs : State.step impl ((schedNet impl sched init n).state i) op = some (s, ret)) :
    (schedNet impl sched init (n + 1)).state i = s := by
  show (perform impl _ _).2.state i = _
  rw [h]
  simp only [perform, hs, Net.after, Function.update_self]

theorem timed_path (T : TimedExecution impl ids coins init event net time) (n : Nat) : PathT impl ids coins (Net.start init) (net n) := by
  induction n with
  | zero => rw [T.start]; exact .refl _
  | succ n ih =>
    cases he : event n with
    | none => rw [T.rest n he]; exact ih
    | some x =>
      obtain ⟨i, op, ret⟩ := x
      obtain ⟨h1, h2, s, h3, h4⟩ := T.step n i op ret he
      rw [h4]
      exact ih.tail h1 h2 h3

theorem timed_sent (T : TimedExecution impl ids coins init event net time) {j n k : Nat} {m : Message G} (hj : (net n).sent[j]? = some m) (hk : n ≤ k) :
    (net k).sent[j]? = some m := by
  induction k, hk using Nat.le_induction with
  | base => exact hj
  | succ k _ ih =>
    cases he : event k with
    | none => rw [T.rest k he]; exact ih
    | some x =>
      obtain ⟨i', op, ret⟩ := x
      obtain ⟨_, _, s, _, h4⟩ := T.step k i' op ret he
      rw [h4]
      show ((net k).sent ++ returned ret)[j]? = some m
      rw [List.getElem?_append_left (List.getElem?_eq_some_iff.mp ih).1]
      exact ih

end

end Verif.State
