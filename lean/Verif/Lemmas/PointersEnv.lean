import Verif.Model.PointersEnv
import Verif.Lemmas.Pointers
import Verif.Props.Pointers

/-!
Sessions whose message objects are used by others, too.
-/

namespace Verif.Pointers

open State (Ret)

variable {G R : Type} {impl : RoundImpl G R} {after : After G R} {last : R → Prop}

/-- The session does not need the object. -/
def Free (s : PState G R) (p : Ptr) : Prop := s.rest.done = true ∨ p ∉ ptrs s.received ∧ p ∉ s.queue

theorem seen_eq (mem : Mem G) (op : Op) : seen mem op = readOp mem op := by cases op <;> rfl

/-- From now on the messages are what they are now. -/
theorem Sim.now {mem₀ mem : Mem G} {s : PState G R} {t : State G R} (S : Sim mem₀ mem s t) : Sim mem mem s t where
  rest := S.rest
  live h := by
    obtain ⟨rfl, h1, h2⟩ := S.live h
    exact ⟨rfl, h1, h2⟩
  header _ := rfl

theorem Sim.change {mem mem' : Mem G} {s : PState G R} {t : State G R} (S : Sim mem mem s t)
    (hf : s.rest.done = false → ∀ p, p ∈ ptrs s.received ∨ p ∈ s.queue → mem' p = mem p) : Sim mem' mem' s t where
  rest := S.rest
  live h := by
    obtain ⟨_, h1, h2⟩ := S.live h
    have hd : s.rest.done = false := by rw [S.rest]; exact h
    refine ⟨rfl, ?_, ?_⟩
    · rw [viewMap_congr fun q hq => hf hd q (.inl hq)]; exact h1
    · rw [h2]
      exact List.map_congr_left fun q hq => (hf hd q (.inr hq)).symm
  header _ := rfl

theorem Sim.write {mem : Mem G} {s : PState G R} {t : State G R} (S : Sim mem mem s t) {p : Ptr} (m : Message G) (hf : Free s p) :
    Sim (Function.update mem p m) (Function.update mem p m) s t := by
  refine S.change fun hd q hq => ?_
  have hne : q ≠ p := by
    rintro rfl
    rcases hf with hf | ⟨h1, h2⟩
    · rw [hd] at hf; cases hf
    · exact hq.elim h1 h2
  exact Function.update_of_ne hne m mem

theorem envHist_sim (hst : impl.Stable) (L : LastOnly impl after last) {mem₀ mem : Mem G} {r : R} {timeout now : Nat} {h : List (State.Op G × Ret G)} {s : PState G R}
    (hh : EnvHist impl after Free mem₀ (newBaseState impl r timeout now) h mem s) :
    ∃ t, State.Hist impl (State.newBaseState impl r timeout now) h t ∧ Sim mem mem s t := by
  induction hh with
  | nil => exact ⟨_, .nil, start_sim impl r timeout now mem₀⟩
  | step _ hs ih =>
    obtain ⟨t, ht, S⟩ := ih
    have I := State.inv_hist hst ht
    obtain ⟨t', h1, h2⟩ := step_sim L S I.wf (fun k m h => (I.stored k m h).1) hs
    exact ⟨t', .snoc ht (by rw [seen_eq]; exact h1), h2.now⟩
  | write p m _ hf ih =>
    obtain ⟨t, ht, S⟩ := ih
    exact ⟨t, ht, S.write m hf⟩

/-- A message with a share says for whom it is. -/
def Proper (m : Message G) : Prop := m.keyGen2 ≠ none → m.header.toID ≠ 0

/-- Rounds write shares only. -/
structure SharesOnly (after : After G R) : Prop where
  other : ∀ r m, m.keyGen2 = none → after r m = m
  header : ∀ r m, (after r m).header = m.header

theorem SharesOnly.proper (A : SharesOnly after) {r : R} {m : Message G} (h : Proper m) : Proper (after r m) := by
  intro hk
  rw [A.header]
  refine h fun e => hk ?_
  rw [A.other r m e, e]

/-- What the session keeps is for it. -/
theorem kept_relevant (hst : impl.Stable) {r : R} {timeout now : Nat} {h : List (State.Op G × Ret G)} {mem : Mem G} {s : PState G R} {t : State G R}
    (ht : State.Hist impl (State.newBaseState impl r timeout now) h t) (S : Sim mem mem s t) (hd : s.rest.done = false) {p : Ptr} (hp : p ∈ ptrs s.received ∨ p ∈ s.queue) :
    (mem p).header.toID = 0 ∨ (mem p).header.toID = impl.selfID r := by
  have I := State.inv_hist hst ht
  rw [S.rest] at hd
  obtain ⟨_, h1, h2⟩ := S.live hd
  rcases hp with hp | hp
  · obtain ⟨k, hk⟩ := mem_ptrs.mp hp
    have : (k, some (mem p)) ∈ t.received := by
      rw [h1]
      exact List.mem_map.mpr ⟨_, hk, rfl⟩
    exact (I.stored k _ this).2.1.2.1
  · have : mem p ∈ t.queue := by
      rw [h2]
      exact List.mem_map_of_mem hp
    exact (I.queue _ this).1.2.1

/-- What a call changes is for the session. -/
theorem step_changes (hst : impl.Stable) (L : LastOnly impl after last) (hlast : ∀ r, impl.nextRound r = none → last r) {r : R} {timeout now : Nat}
    {h : List (State.Op G × Ret G)} {mem mem' : Mem G} {s s' : PState G R} {t : State G R} {op : Op} {ret : Ret G}
    (ht : State.Hist impl (State.newBaseState impl r timeout now) h t) (S : Sim mem mem s t) (hs : Step impl after mem s op ret mem' s') (p : Ptr) :
    mem' p = mem p ∨ s.rest.done = false ∧ (p ∈ ptrs s.received ∨ p ∈ s.queue) ∧ ∃ r', mem' p = after r' (mem p) := by
  cases hs with
  | processAll hp he hpr =>
    have I := State.inv_hist hst ht
    have hn : s.rest.done = false → (ptrs s.received).Nodup := by
      intro hd
      rw [S.rest] at hd
      obtain ⟨_, h1, _⟩ := S.live hd
      exact ptrs_nodup (h1 ▸ I.wf) fun k m hm => (I.stored k m (h1 ▸ hm)).1
    by_cases hd : s.rest.done = true
    · unfold processAll at hpr
      simp only [hd, if_true, Option.some.injEq, Prod.mk.injEq] at hpr
      obtain ⟨rfl, _⟩ := hpr
      exact .inl rfl
    · rcases (processAll_frame L hlast hn hp hpr).message p with h | ⟨_, h1, r', _, h2⟩
      · exact .inl h
      · exact .inr ⟨Bool.eq_false_iff.mpr hd, .inl h1, r', h2⟩
  | handle => exact .inl rfl
  | advance => exact .inl rfl
  | fire => exact .inl rfl
  | callback => exact .inl rfl

/-- The events of one of the sessions. -/
def only {ι : Type} [DecidableEq ι] (i : ι) (h : List (ι × State.Op G × Ret G)) : List (State.Op G × Ret G) := h.filterMap fun x => if x.1 = i then some x.2 else none

theorem shared_sim {ι : Type} [DecidableEq ι] (hst : impl.Stable) (L : LastOnly impl after last) (hlast : ∀ r, impl.nextRound r = none → last r) (A : SharesOnly after) {r : ι → R}
    (hself : ∀ i j, impl.selfID (r i) = impl.selfID (r j) → i = j) {timeout now : ι → Nat} {mem₀ mem : Mem G} (hprop : ∀ p, Proper (mem₀ p))
    {h : List (ι × State.Op G × Ret G)} {σ : ι → PState G R}
    (hh : Shared impl after (fun σ p m => Proper m ∧ ∀ i, Free (σ i) p) mem₀ (fun i => newBaseState impl (r i) (timeout i) (now i)) h mem σ) :
    (∀ p, Proper (mem p)) ∧ ∀ i, ∃ t, State.Hist impl (State.newBaseState impl (r i) (timeout i) (now i)) (only i h) t ∧ Sim mem mem (σ i) t := by
  induction hh with
  | nil => exact ⟨hprop, fun i => ⟨_, .nil, start_sim impl (r i) (timeout i) (now i) mem₀⟩⟩
  | step i _ hs ih =>
    rename_i h mem σ op ret mem' s' _
    obtain ⟨hprop, ih⟩ := ih
    obtain ⟨t, ht, S⟩ := ih i
    have hc := step_changes hst L hlast ht S hs
    refine ⟨fun p => ?_, fun j => ?_⟩
    · rcases hc p with h | ⟨_, _, r', h⟩
      · rw [h]; exact hprop p
      · rw [h]; exact A.proper (hprop p)
    · by_cases hij : i = j
      · subst hij
        have I := State.inv_hist hst ht
        obtain ⟨t', h1, h2⟩ := step_sim L S I.wf (fun k m h => (I.stored k m h).1) hs
        refine ⟨t', ?_, ?_⟩
        · have : only i (h ++ [(i, seen mem op, ret)]) = only i h ++ [(seen mem op, ret)] := by simp [only]
          rw [this, seen_eq]
          exact .snoc ht h1
        · rw [Function.update_self]; exact h2.now
      · obtain ⟨u, hu, U⟩ := ih j
        refine ⟨u, ?_, ?_⟩
        · have : only j (h ++ [(i, seen mem op, ret)]) = only j h := by simp [only, hij]
          rw [this]; exact hu
        · rw [Function.update_of_ne (Ne.symm hij)]
          refine U.change fun hd p hp => ?_
          rcases hc p with h | ⟨hd', hp', r', h⟩
          · exact h
          · rw [h]
            refine A.other _ _ (by_contra fun hk => ?_)
            have h0 := hprop p hk
            rcases kept_relevant hst hu U hd hp with h1 | h1
            · exact h0 h1
            rcases kept_relevant hst ht S hd' hp' with h2 | h2
            · exact h0 h2
            exact hij (hself i j (h2.symm.trans h1))
  | write p m _ hf ih =>
    refine ⟨fun q => ?_, fun i => ?_⟩
    · by_cases hq : q = p
      · subst hq; rw [Function.update_self]; exact hf.1
      · rw [Function.update_of_ne hq]; exact ih.1 q
    · obtain ⟨t, ht, S⟩ := ih.2 i
      exact ⟨t, ht, S.write m (hf.2 i)⟩

/-- The session keeps no object from `next` on. -/
def Below (next : Ptr) (s : PState G R) : Prop := ∀ p, p ∈ ptrs s.received ∨ p ∈ s.queue → p < next

theorem Below.free {next : Ptr} {s : PState G R} (h : Below next s) : Free s next :=
  .inr ⟨fun hp => Nat.lt_irrefl _ (h _ (.inl hp)), fun hp => Nat.lt_irrefl _ (h _ (.inr hp))⟩

variable [RGroup G]

theorem routineInputs_sim {r : R} {timeout now : Nat} (input : List Bytes) {next : Ptr} {mem : Mem G} {s : PState G R} {t : State G R}
    (ht : ∃ h, State.Hist impl (State.newBaseState impl r timeout now) h t) (S : Sim mem mem s t) (B : Below next s) :
    match routineInputs impl input next mem s with
    | none => Verif.routineInputs impl input t = none
    | some ((next', mem', s'), e) => ∃ t', Verif.routineInputs impl input t = some (t', e) ∧
        (∃ h, State.Hist impl (State.newBaseState impl r timeout now) h t') ∧ Sim mem' mem' s' t' ∧ Below next' s' := by
  induction input generalizing next mem s t with
  | nil => exact ⟨t, rfl, ht, S, B⟩
  | cons b input ih =>
    simp only [routineInputs, Verif.routineInputs]
    cases hu : Message.unmarshalBinary (Message.fresh : Message G) b with
    | panic => rfl
    | err e => exact ⟨t, rfl, ht, S, B⟩
    | ok m =>
      simp only
      have S' := S.write m B.free
      obtain ⟨h1, h2⟩ := handle_sim (impl := impl) S' next
      obtain ⟨k1, k2⟩ := Props.handle_kept (impl := impl) (Function.update mem next m) s next
      rw [Function.update_self] at h1 h2
      have B' : Below (next + 1) (handleMessage impl (Function.update mem next m) s next).1 := by
        intro p hp
        rcases hp with hp | hp
        · rcases k1 p hp with h | ⟨rfl, _⟩
          · exact Nat.lt_succ_of_lt (B p (.inl h))
          · exact Nat.lt_succ_self _
        · rcases k2 p hp with h | ⟨rfl, _⟩
          · exact Nat.lt_succ_of_lt (B p (.inr h))
          · exact Nat.lt_succ_self _
      have ht' : ∃ h, State.Hist impl (State.newBaseState impl r timeout now) h (State.handleMessage impl t m).1 := by
        obtain ⟨h, ht⟩ := ht
        exact ⟨_, .snoc ht (op := .handle m) rfl⟩
      rcases hx : handleMessage impl (Function.update mem next m) s next with ⟨s', e⟩
      rcases hy : State.handleMessage impl t m with ⟨t', e'⟩
      rw [hx] at h1 h2 B'
      rw [hy] at h1 h2 ht'
      simp only at h1 h2 B' ht'
      subst h1
      cases e' with
      | some e => exact ⟨t', rfl, ht', h2, B'⟩
      | none => exact ih ht' h2 B'

omit [RGroup G] in
theorem processAll_below {entries : GoMap (Option Ptr)} (hst : impl.Stable) (L : LastOnly impl after last) (hlast : ∀ r, impl.nextRound r = none → last r) {r : R} {timeout now : Nat}
    {ord : MapOrder} {coins : Coins} {mem mem' : Mem G} {s s' : PState G R} {t : State G R} {out : List (Message G)} {next : Ptr}
    (ht : ∃ h, State.Hist impl (State.newBaseState impl r timeout now) h t) (S : Sim mem mem s t) (B : Below next s)
    (hp : entries.Perm s.received) (h : processAll impl after entries ord coins mem s = some (mem', s', out)) : Below next s' := by
  obtain ⟨hist, ht⟩ := ht
  have I := State.inv_hist hst ht
  have hn : s.rest.done = false → (ptrs s.received).Nodup := by
    intro hd
    rw [S.rest] at hd
    obtain ⟨_, h1, _⟩ := S.live hd
    exact ptrs_nodup (h1 ▸ I.wf) fun k m hm => (I.stored k m (h1 ▸ hm)).1
  have F := processAll_frame L hlast hn hp h
  intro p hp
  rcases hp with hp | hp
  · exact B p (F.received p hp)
  · exact B p (.inr (F.queue p hp))

theorem partyRoutine_sim (hst : impl.Stable) (L : LastOnly impl after last) (hlast : ∀ r, impl.nextRound r = none → last r) {r : R} {timeout now : Nat}
    {pick : Mem G → GoMap (Option Ptr) → GoMap (Option Ptr)} {ord : MapOrder} (hpick : ∀ mem m, (pick mem m).Perm m ∧ viewMap mem (pick mem m) = ord.order _ (viewMap mem m))
    (coins : Coins) (input : List Bytes) {next : Ptr} {mem : Mem G} {s : PState G R} {t : State G R}
    (ht : ∃ h, State.Hist impl (State.newBaseState impl r timeout now) h t) (S : Sim mem mem s t) (B : Below next s) :
    match partyRoutine impl after pick ord coins input next mem s with
    | none => Verif.partyRoutine impl ord coins input t = none
    | some ((next', mem', s'), res) => ∃ t', Verif.partyRoutine impl ord coins input t = some (t', res) ∧
        (∃ h, State.Hist impl (State.newBaseState impl r timeout now) h t') ∧ Sim mem' mem' s' t' ∧ Below next' s' := by
  unfold partyRoutine Verif.partyRoutine
  have h1 := routineInputs_sim (impl := impl) input ht S B
  cases hx : routineInputs impl input next mem s with
  | none => rw [hx] at h1; simp only [h1]
  | some x =>
    obtain ⟨⟨next₁, mem₁, s₁⟩, e⟩ := x
    rw [hx] at h1
    obtain ⟨t₁, h2, ht₁, S₁, B₁⟩ := h1
    rw [h2]
    cases e with
    | some e => exact ⟨t₁, rfl, ht₁, S₁, B₁⟩
    | none =>
      simp only
      obtain ⟨hist, hist₁⟩ := ht₁
      have I := State.inv_hist hst hist₁
      obtain ⟨hp, hv⟩ := hpick mem₁ s₁.received
      have h3 := processAll_sim L S₁ I.wf (fun k m h => (I.stored k m h).1) hp hv (coins := coins)
      cases hy : processAll impl after (pick mem₁ s₁.received) ord coins mem₁ s₁ with
      | none => rw [hy] at h3; simp only [h3]
      | some y =>
        obtain ⟨mem₂, s₂, out⟩ := y
        rw [hy] at h3
        obtain ⟨t₂, h4, S₂⟩ := h3
        rw [h4]
        simp only
        have B₂ := processAll_below hst L hlast ⟨_, hist₁⟩ S₁ B₁ hp hy
        have ht₂ : ∃ h, State.Hist impl (State.newBaseState impl r timeout now) h t₂ :=
          ⟨_, .snoc hist₁ (op := .processAll ord coins) (ret := .messages out) (by simp only [State.step, h4]; rfl)⟩
        have e1 : s₂.rest.isFinished = t₂.isFinished := by rw [S₂.rest]; rfl
        have e2 : s₂.rest.waitForError = t₂.waitForError := by rw [S₂.rest]; rfl
        rw [e1, e2]
        cases routineOutputs out [] with
        | panic => rfl
        | err e => exact ⟨t₂, rfl, ht₂, S₂.now, B₂⟩
        | ok out =>
          simp only
          cases t₂.isFinished with
          | false => exact ⟨t₂, rfl, ht₂, S₂.now, B₂⟩
          | true =>
            simp only [if_true]
            rcases t₂.waitForError with _ | _ | e <;> exact ⟨t₂, rfl, ht₂, S₂.now, B₂⟩

end Verif.Pointers
