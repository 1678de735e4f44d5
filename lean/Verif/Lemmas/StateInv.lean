import Verif.Lemmas.State

/-!
The invariant of the driver over all histories.
-/

namespace Verif

variable {G R : Type}

namespace State

/-- `m` was given to `HandleMessage` in the history and not refused. -/
def Handled (h : List (Op G × Ret G)) (m : Message G) : Prop := (Op.handle m, Ret.handled none) ∈ h

theorem Handled.mono {h h' : List (Op G × Ret G)} {m : Message G} (hm : Handled h m) : Handled (h ++ h') m :=
  List.mem_append_left _ hm

theorem mem_initReceived (self : ID) (l : List ID) (m : GoMap (Option (Message G))) (k : ID) :
    k ∈ (initReceived self l m).keys ↔ k ∈ m.keys ∨ (k ∈ l ∧ k ≠ self) := by
  induction l generalizing m with
  | nil => simp [initReceived]
  | cons a l ih =>
    unfold initReceived
    rw [ih]
    by_cases ha : a ≠ self
    · rw [if_pos ha, GoMap.mem_keys_set]
      constructor
      · rintro ((rfl | h) | h)
        · exact Or.inr ⟨List.mem_cons_self, ha⟩
        · exact Or.inl h
        · exact Or.inr ⟨List.mem_cons_of_mem _ h.1, h.2⟩
      · rintro (h | ⟨h, h'⟩)
        · exact Or.inl (Or.inr h)
        · rcases List.mem_cons.mp h with rfl | h
          · exact Or.inl (Or.inl rfl)
          · exact Or.inr ⟨h, h'⟩
    · rw [if_neg ha]
      rw [ne_eq, not_not] at ha
      subst ha
      constructor
      · rintro (h | h)
        · exact Or.inl h
        · exact Or.inr ⟨List.mem_cons_of_mem _ h.1, h.2⟩
      · rintro (h | ⟨h, h'⟩)
        · exact Or.inl h
        · rcases List.mem_cons.mp h with rfl | h
          · exact absurd rfl h'
          · exact Or.inr ⟨h, h'⟩

theorem wf_initReceived (self : ID) (l : List ID) (m : GoMap (Option (Message G))) (h : m.WF) : (initReceived self l m).WF := by
  induction l generalizing m with
  | nil => exact h
  | cons a l ih =>
    unfold initReceived
    apply ih
    split
    · exact h.set _ _
    · exact h

theorem mem_set_cases {V : Type} {m : GoMap V} {k k' : ID} {v v' : V} (h : (k', v') ∈ m.set k v) :
    (k' = k ∧ v' = v) ∨ (k', v') ∈ m := by
  induction m with
  | nil => simp [GoMap.set] at h; exact Or.inl h
  | cons p m ih =>
    obtain ⟨a, b⟩ := p
    by_cases h1 : a = k
    · rw [GoMap.set, if_pos h1] at h
      rcases List.mem_cons.mp h with h | h
      · exact Or.inl (Prod.mk.inj h)
      · exact Or.inr (List.mem_cons_of_mem _ h)
    · rw [GoMap.set, if_neg h1] at h
      rcases List.mem_cons.mp h with h | h
      · exact Or.inr (h ▸ List.mem_cons_self)
      · rcases ih h with h | h
        · exact Or.inl h
        · exact Or.inr (List.mem_cons_of_mem _ h)

theorem initReceived_none (self : ID) (l : List ID) (m : GoMap (Option (Message G)))
    (hm : ∀ k v, (k, v) ∈ m → v = none) : ∀ k v, (k, v) ∈ initReceived self l m → v = none := by
  induction l generalizing m with
  | nil => exact hm
  | cons a l ih =>
    unfold initReceived
    apply ih
    split
    · intro k v hkv
      rcases mem_set_cases hkv with ⟨_, h⟩ | h
      · exact h
      · exact hm k v h
    · exact hm

/-- The number of accepted types used up. -/
def used (s : State G R) : Nat := s.roundNumber + (if s.done = true ∧ s.err = none then 1 else 0)

/-- What holds in every reachable state, for a protocol started with round `r₀`. -/
structure Inv (impl : RoundImpl G R) (r₀ : R) (h : List (Op G × Ret G)) (s : State G R) : Prop where
  self : impl.selfID s.round = impl.selfID r₀
  ids : impl.partyIDs s.round = impl.partyIDs r₀
  wf : s.received.WF
  types : s.acceptedTypes = (impl.acceptedMessageTypes r₀).drop s.used
  stored : ∀ k m, (k, some m) ∈ s.received → k = m.header.fromID ∧ Relevant (impl.selfID r₀) (impl.partyIDs r₀) m ∧
    s.acceptedTypes.head? = some m.header.type ∧ Handled h m
  storedNone : ∀ k, (k, none) ∈ s.received → s.roundNumber = 0 ∧ k ∈ impl.partyIDs r₀ ∧ k ≠ impl.selfID r₀
  queue : ∀ m ∈ s.queue, Relevant (impl.selfID r₀) (impl.partyIDs r₀) m ∧ m.header.type ∈ s.acceptedTypes.tail ∧
    s.acceptedTypes.head? ≠ some m.header.type ∧ Handled h m
  round0 : s.roundNumber = 0 → s.done = false →
    s.received = initReceived (impl.selfID r₀) (impl.partyIDs r₀) [] ∧ s.queue = []
  closed : s.closed = s.done
  err : s.err ≠ none → s.done = true

theorem mem_foldl_set {l : List (Message G)} {m : GoMap (Option (Message G))} {k : ID} {v : Option (Message G)}
    (h : (k, v) ∈ l.foldl (fun r m => r.set m.header.fromID (some m)) m) :
    (∃ a ∈ l, k = a.header.fromID ∧ v = some a) ∨ (k, v) ∈ m := by
  induction l generalizing m with
  | nil => exact Or.inr h
  | cons a l ih =>
    rcases ih h with ⟨b, hb, h1⟩ | h
    · exact Or.inl ⟨b, List.mem_cons_of_mem _ hb, h1⟩
    · rcases mem_set_cases h with ⟨h1, h2⟩ | h
      · exact Or.inl ⟨a, List.mem_cons_self, h1, h2⟩
      · exact Or.inr h

theorem wf_foldl_set (l : List (Message G)) (m : GoMap (Option (Message G))) (h : m.WF) :
    GoMap.WF (l.foldl (fun r m => r.set m.header.fromID (some m)) m) := by
  induction l generalizing m with
  | nil => exact h
  | cons a l ih => exact ih _ (h.set _ _)

theorem wf_movedReceived (types : List MsgType) (q : List (Message G)) : (movedReceived types q).WF := by
  cases types with
  | nil => exact GoMap.wf_nil
  | cons t _ => exact wf_foldl_set _ _ GoMap.wf_nil

theorem mem_movedReceived {types : List MsgType} {q : List (Message G)} {k : ID} {v : Option (Message G)}
    (h : (k, v) ∈ movedReceived types q) :
    ∃ m ∈ q, types.head? = some m.header.type ∧ k = m.header.fromID ∧ v = some m := by
  cases types with
  | nil => cases h
  | cons t _ =>
    rcases mem_foldl_set h with ⟨m, hm, h1, h2⟩ | h
    · rw [List.mem_filter] at hm
      exact ⟨m, hm.1, by simpa using (of_decide_eq_true hm.2).symm, h1, h2⟩
    · cases h

theorem mem_movedQueue {types : List MsgType} {q : List (Message G)} {m : Message G} (h : m ∈ movedQueue types q) :
    m ∈ q ∧ types.head? ≠ some m.header.type := by
  cases types with
  | nil => exact ⟨h, by simp⟩
  | cons t _ =>
    obtain ⟨h1, h2⟩ := List.mem_filter.mp h
    refine ⟨h1, fun he => ?_⟩
    simp only [List.head?_cons, Option.some.injEq] at he
    simp [he] at h2

variable {impl : RoundImpl G R}

theorem inv_init (r : R) (timeout now : Nat) : Inv impl r [] (newBaseState impl r timeout now) where
  self := rfl
  ids := rfl
  wf := wf_initReceived _ _ _ GoMap.wf_nil
  types := by simp [newBaseState, used]
  stored k m hm := by
    have := initReceived_none (G := G) _ _ _ (by simp) _ _ hm
    simp at this
  storedNone k hk := by
    have : k ∈ (initReceived (G := G) (impl.selfID r) (impl.partyIDs r) []).keys := List.mem_map.mpr ⟨_, hk, rfl⟩
    rw [mem_initReceived] at this
    simp only [GoMap.keys_nil, List.not_mem_nil, false_or] at this
    exact ⟨rfl, this⟩
  queue m hm := by simp [newBaseState] at hm
  round0 _ _ := ⟨rfl, rfl⟩
  closed := rfl
  err h := absurd rfl h

theorem Inv.weaken {r₀ : R} {h h' : List (Op G × Ret G)} {s : State G R} (hi : Inv impl r₀ h s) : Inv impl r₀ (h ++ h') s :=
  { hi with
    stored := fun k m hm => let ⟨a, b, c, d⟩ := hi.stored k m hm; ⟨a, b, c, d.mono⟩
    queue := fun m hm => let ⟨a, b, c, d⟩ := hi.queue m hm; ⟨a, b, c, d.mono⟩ }

theorem Inv.timer {r₀ : R} {h : List (Op G × Ret G)} {s : State G R} (hi : Inv impl r₀ h s) (t : Timer) :
    Inv impl r₀ h { s with timer := t } :=
  { self := hi.self, ids := hi.ids, wf := hi.wf, types := hi.types, stored := hi.stored, storedNone := hi.storedNone,
    queue := hi.queue, round0 := hi.round0, closed := hi.closed, err := hi.err }

/-- A party message is refused before the first `ProcessAll`. -/
theorem Inv.round0_mem {r₀ : R} {h : List (Op G × Ret G)} {s : State G R} (hi : Inv impl r₀ h s)
    (h0 : s.roundNumber = 0) (hd : s.done = false) {m : Message G} (hr : Relevant (impl.selfID r₀) (impl.partyIDs r₀) m) :
    m.header.fromID ∈ s.received.keys := by
  rw [(hi.round0 h0 hd).1, mem_initReceived]
  exact Or.inr ⟨IDSlice.contains_sound hr.2.2, hr.1⟩

/-- An abort keeps the invariant. -/
theorem Inv.abort {r₀ : R} {h : List (Op G × Ret G)} {s : State G R} (hi : Inv impl r₀ h s) (hd : s.done = false)
    {r : R} (hs : impl.selfID r = impl.selfID s.round ∧ impl.partyIDs r = impl.partyIDs s.round) (t : Timer) (e : StateErr)
    (rec : GoMap (Option (Message G))) (hrec : rec = s.received ∨ rec = []) :
    Inv impl r₀ h { s with received := rec, done := true, closed := true, round := r, timer := t, err := some e } where
  self := hs.1.trans hi.self
  ids := hs.2.trans hi.ids
  wf := by rcases hrec with rfl | rfl; exacts [hi.wf, GoMap.wf_nil]
  types := by
    have := hi.types
    simp only [used, hd, Bool.false_eq_true, false_and, if_false] at this
    simpa [used] using this
  stored k m hm := by
    rcases hrec with rfl | rfl
    · exact hi.stored k m hm
    · cases hm
  storedNone k hm := by
    rcases hrec with rfl | rfl
    · exact hi.storedNone k hm
    · cases hm
  queue := hi.queue
  round0 _ h := by simp at h
  closed := rfl
  err _ := rfl

theorem processLoop_stable (hst : impl.Stable) {l : List (ID × Option (Message G))} {r : R} :
    (∀ r', processLoop impl l r = .ok r' → impl.selfID r' = impl.selfID r ∧ impl.partyIDs r' = impl.partyIDs r) ∧
    ∀ e r', processLoop impl l r = .err (e, r') → impl.selfID r' = impl.selfID r ∧ impl.partyIDs r' = impl.partyIDs r := by
  induction l generalizing r with
  | nil =>
    refine ⟨fun r' h => ?_, fun e r' h => ?_⟩
    · cases h; exact ⟨rfl, rfl⟩
    · cases h
  | cons p l ih =>
    obtain ⟨k, m⟩ := p
    unfold processLoop
    cases hp : impl.processMessage r m with
    | ok r₁ =>
      have h1 := hst.process _ _ _ hp
      refine ⟨fun r' h => ?_, fun e r' h => ?_⟩
      · have := ih.1 r' h; exact ⟨this.1.trans h1.1, this.2.trans h1.2⟩
      · have := ih.2 e r' h; exact ⟨this.1.trans h1.1, this.2.trans h1.2⟩
    | err x =>
      obtain ⟨e₁, r₁⟩ := x
      have h1 := hst.processErr _ _ _ _ hp
      refine ⟨fun r' h => ?_, fun e r' h => ?_⟩
      · cases h
      · cases h; exact h1
    | panic =>
      refine ⟨fun r' h => ?_, fun e r' h => ?_⟩
      · cases h
      · cases h

theorem stable_trans {r r₁ r₂ : R} (h : impl.selfID r₁ = impl.selfID r ∧ impl.partyIDs r₁ = impl.partyIDs r)
    (h' : impl.selfID r₂ = impl.selfID r₁ ∧ impl.partyIDs r₂ = impl.partyIDs r₁) :
    impl.selfID r₂ = impl.selfID r ∧ impl.partyIDs r₂ = impl.partyIDs r := ⟨h'.1.trans h.1, h'.2.trans h.2⟩

/-- The invariant survives `HandleMessage`. -/
theorem Inv.handle {r₀ : R} {h : List (Op G × Ret G)} {s s' : State G R} {m : Message G} {e : Option HandleErr}
    (hi : Inv impl r₀ h s) (hh : handleMessage impl s m = (s', e)) : Inv impl r₀ (h ++ [(.handle m, .handled e)]) s' := by
  cases handle_cases impl hh with
  | finished | noMore | fromSelf | notForUs | notAParty | already | badType => exact hi.weaken
  | stored hd hr hn ht =>
    rw [hi.self, hi.ids] at hr
    have hr0 : s.roundNumber ≠ 0 := fun h0 => hn (hi.round0_mem h0 hd hr)
    have hw := hi.weaken (h' := [(.handle m, .handled none)])
    refine { hw with wf := hw.wf.set _ _, stored := ?_, storedNone := ?_, round0 := fun h0 => absurd h0 hr0,
                     types := hw.types }
    · intro k m' hm'
      rcases mem_set_cases hm' with ⟨rfl, h2⟩ | h2
      · cases h2
        exact ⟨rfl, hr, ht, by simp [Handled]⟩
      · exact hw.stored k m' h2
    · intro k hk
      rcases mem_set_cases hk with ⟨_, h2⟩ | h2
      · cases h2
      · exact hw.storedNone k h2
  | queued hd hr hn ht hc =>
    rw [hi.self, hi.ids] at hr
    have hr0 : s.roundNumber ≠ 0 := fun h0 => hn (hi.round0_mem h0 hd hr)
    have hw := hi.weaken (h' := [(.handle m, .handled none)])
    refine { hw with queue := ?_, round0 := fun h0 => absurd h0 hr0, types := hw.types }
    intro m' hm'
    rcases List.mem_append.mp hm' with h2 | h2
    · exact hw.queue m' h2
    · rw [List.mem_singleton] at h2
      subst h2
      refine ⟨hr, ?_, hc, by simp [Handled]⟩
      cases hat : s.acceptedTypes with
      | nil => rw [hat] at ht; cases ht
      | cons t l =>
        rw [hat] at ht hc
        rcases List.mem_cons.mp ht with h3 | h3
        · exact absurd (by simp [h3]) hc
        · exact h3

/-- The invariant survives `ProcessAll`. -/
theorem Inv.processAll (hst : impl.Stable) {r₀ : R} {h : List (Op G × Ret G)} {s s' : State G R} {ord : MapOrder} {coins : Coins}
    {out : List (Message G)} (hi : Inv impl r₀ h s) (hh : ProcessCases impl ord coins s s' out) : Inv impl r₀ h s' := by
  have moved : ∀ (t : MsgType) (types : List MsgType), s.acceptedTypes = t :: types →
      (∀ k v, (k, v) ∈ movedReceived types s.queue → ∃ m, v = some m ∧ k = m.header.fromID ∧
        Relevant (impl.selfID r₀) (impl.partyIDs r₀) m ∧ types.head? = some m.header.type ∧ Handled h m) ∧
      (∀ m ∈ movedQueue types s.queue, Relevant (impl.selfID r₀) (impl.partyIDs r₀) m ∧ m.header.type ∈ types.tail ∧
        types.head? ≠ some m.header.type ∧ Handled h m) := by
    intro t types ht
    constructor
    · intro k v hkv
      obtain ⟨m, hm, h1, h2, h3⟩ := mem_movedReceived hkv
      obtain ⟨q1, _, _, q4⟩ := hi.queue m hm
      exact ⟨m, h3, h2, q1, h1, q4⟩
    · intro m hm
      obtain ⟨h1, h2⟩ := mem_movedQueue hm
      obtain ⟨q1, q2, q3, q4⟩ := hi.queue m h1
      refine ⟨q1, ?_, h2, q4⟩
      rw [ht] at q2
      cases types with
      | nil => simp at q2
      | cons t' l =>
        rcases List.mem_cons.mp q2 with h3 | h3
        · exact absurd (by simp [h3]) h2
        · exact h3
  have htypes : ∀ (t : MsgType) (types : List MsgType), s.done = false → s.acceptedTypes = t :: types →
      types = (impl.acceptedMessageTypes r₀).drop (s.roundNumber + 1) := by
    intro t types hd ht
    have := hi.types
    simp only [used, hd, Bool.false_eq_true, false_and, if_false, Nat.add_zero] at this
    rw [← List.tail_drop, ← this, ht]
    rfl
  cases hh with
  | idle _ => exact hi
  | processErr e r r' hd hf hp hr hc =>
    exact hi.abort hd (stable_trans ((processLoop_stable hst).2 _ _ hp) (hst.reset _ _ hr)) _ _ _ (Or.inl rfl)
  | generateErr e r₁ r r' hd hf hp hg hr hc =>
    exact hi.abort hd (stable_trans ((processLoop_stable hst).1 _ hp)
      (stable_trans (hst.generateErr _ _ _ _ _ hg) (hst.reset _ _ hr))) _ _ _ (Or.inr rfl)
  | last t types r₁ r r' _ hd hf hp hg ht hn hr hc =>
    have hs := stable_trans ((processLoop_stable hst).1 _ hp)
      (stable_trans (hst.generate _ _ _ _ _ hg) (hst.reset _ _ hr))
    have he : s.err = none := by
      by_contra hne
      rw [hi.err hne] at hd; cases hd
    refine { self := hs.1.trans hi.self, ids := hs.2.trans hi.ids, wf := wf_movedReceived _ _, types := ?_, stored := ?_,
             storedNone := ?_, queue := (moved t types ht).2, round0 := fun _ h => by simp at h, closed := rfl, err := fun _ => rfl }
    · simp only [used, he, and_self, if_true]
      exact htypes t types hd ht
    · intro k m hkm
      obtain ⟨m', h1, h2⟩ := (moved t types ht).1 k _ hkm
      cases h1; exact h2
    · intro k hkm
      obtain ⟨m', h1, h2⟩ := (moved t types ht).1 k _ hkm
      cases h1
  | next t types r₁ r r' _ hd hf hp hg ht hn =>
    have hs := stable_trans ((processLoop_stable hst).1 _ hp)
      (stable_trans (hst.generate _ _ _ _ _ hg) (hst.next _ _ hn))
    refine { self := hs.1.trans hi.self, ids := hs.2.trans hi.ids, wf := wf_movedReceived _ _, types := ?_, stored := ?_,
             storedNone := ?_, queue := (moved t types ht).2, round0 := fun h _ => by simp at h, closed := hi.closed, err := hi.err }
    · simp only [used, hd, Bool.false_eq_true, false_and, if_false, Nat.add_zero]
      exact htypes t types hd ht
    · intro k m hkm
      obtain ⟨m', h1, h2⟩ := (moved t types ht).1 k _ hkm
      cases h1; exact h2
    · intro k hkm
      obtain ⟨m', h1, h2⟩ := (moved t types ht).1 k _ hkm
      cases h1

/-- What an event does, spelled out. -/
theorem step_cases {s s' : State G R} {op : Op G} {ret : Ret G} (h : step impl s op = some (s', ret)) :
    (∃ m e, op = .handle m ∧ ret = .handled e ∧ handleMessage impl s m = (s', e)) ∨
    (∃ ord coins out, op = .processAll ord coins ∧ ret = .messages out ∧ ProcessCases impl ord coins s s' out) ∨
    (∃ dt, op = .advance dt ∧ ret = .nothing ∧ s' = { s with timer := { s.timer with now := s.timer.now + dt } }) ∨
    (op = .fire ∧ ret = .nothing ∧ (s' = s ∨ ∃ t, s.timer.deadline = some t ∧ t ≤ s.timer.now ∧
      s' = { s with timer := { s.timer with deadline := none, fired := s.timer.fired + 1 } })) ∨
    (op = .callback ∧ ret = .nothing ∧ ((s.timer.fired = 0 ∧ s' = s) ∨
      (s.timer.fired ≠ 0 ∧ s.done = true ∧ s' = { s with timer := { s.timer with fired := s.timer.fired - 1 } }) ∨
      ∃ r, s.timer.fired ≠ 0 ∧ s.done = false ∧ s.closed = false ∧ impl.reset s.round = some r ∧
        s' = { s with done := true, closed := true, round := r,
                      timer := Timer.stopTimer { s.timer with fired := s.timer.fired - 1 },
                      err := some (s.err.getD ⟨0, s.roundNumber, .timeout⟩) })) := by
  cases op with
  | handle m =>
    simp only [step, Option.some.injEq, Prod.mk.injEq] at h
    obtain ⟨rfl, rfl⟩ := h
    exact Or.inl ⟨m, _, rfl, rfl, rfl⟩
  | processAll ord coins =>
    simp only [step, Option.map_eq_some_iff] at h
    obtain ⟨⟨s₁, out⟩, h1, h2⟩ := h
    obtain ⟨rfl, rfl⟩ := Prod.mk.inj h2
    exact Or.inr (Or.inl ⟨ord, coins, out, rfl, rfl, (processAll_iff impl).mp h1⟩)
  | advance dt =>
    simp only [step, Option.some.injEq, Prod.mk.injEq] at h
    obtain ⟨rfl, rfl⟩ := h
    exact Or.inr (Or.inr (Or.inl ⟨dt, rfl, rfl, rfl⟩))
  | fire =>
    refine Or.inr (Or.inr (Or.inr (Or.inl ?_)))
    simp only [step] at h
    cases ht : s.timer.deadline with
    | none =>
      simp only [ht, Option.some.injEq, Prod.mk.injEq] at h
      exact ⟨rfl, h.2.symm, Or.inl h.1.symm⟩
    | some t =>
      simp only [ht] at h
      by_cases hle : t ≤ s.timer.now
      · rw [if_pos hle] at h
        obtain ⟨h1, h2⟩ := Prod.mk.inj (Option.some.inj h)
        exact ⟨rfl, h2.symm, Or.inr ⟨t, rfl, hle, h1.symm⟩⟩
      · rw [if_neg hle] at h
        obtain ⟨h1, h2⟩ := Prod.mk.inj (Option.some.inj h)
        exact ⟨rfl, h2.symm, Or.inl h1.symm⟩
  | callback =>
    refine Or.inr (Or.inr (Or.inr (Or.inr ?_)))
    simp only [step] at h
    by_cases hf : s.timer.fired = 0
    · rw [if_pos hf] at h
      obtain ⟨h1, h2⟩ := Prod.mk.inj (Option.some.inj h)
      exact ⟨rfl, h2.symm, Or.inl ⟨hf, h1.symm⟩⟩
    · rw [if_neg hf] at h
      simp only [Option.map_eq_some_iff] at h
      obtain ⟨s₁, h1, h2⟩ := h
      obtain ⟨rfl, rfl⟩ := Prod.mk.inj h2
      refine ⟨rfl, rfl, Or.inr ?_⟩
      unfold timeoutCallback at h1
      cases hd : s.done with
      | true =>
        unfold reportError at h1
        simp only [hd, if_true, Option.some.injEq] at h1
        exact Or.inl ⟨hf, rfl, by rw [← h1]⟩
      | false =>
        obtain ⟨r, h3, h4, h5⟩ := reportError_eq impl (s := { s with timer := { s.timer with fired := s.timer.fired - 1 } }) hd h1
        exact Or.inr ⟨r, hf, rfl, h4, h3, h5⟩

theorem Inv.step (hst : impl.Stable) {r₀ : R} {h : List (Op G × Ret G)} {s s' : State G R} {op : Op G} {ret : Ret G}
    (hi : Inv impl r₀ h s) (hs : State.step impl s op = some (s', ret)) : Inv impl r₀ (h ++ [(op, ret)]) s' := by
  rcases step_cases hs with ⟨m, e, rfl, rfl, h1⟩ | ⟨ord, coins, out, rfl, rfl, h1⟩ | ⟨dt, rfl, rfl, rfl⟩ |
    ⟨rfl, rfl, rfl | ⟨t, _, _, rfl⟩⟩ | ⟨rfl, rfl, ⟨_, rfl⟩ | ⟨_, _, rfl⟩ | ⟨r, _, hd, _, hr, rfl⟩⟩
  · exact hi.handle h1
  · exact (hi.processAll hst h1).weaken
  · exact (hi.timer _).weaken
  · exact hi.weaken
  · exact (hi.timer _).weaken
  · exact hi.weaken
  · exact (hi.timer _).weaken
  · exact (hi.abort hd (hst.reset _ _ hr) _ _ _ (Or.inl rfl)).weaken

/-- The invariant holds after every history. -/
theorem inv_hist (hst : impl.Stable) {r₀ : R} {timeout now : Nat} {h : List (Op G × Ret G)} {s : State G R}
    (hh : Hist impl (newBaseState impl r₀ timeout now) h s) : Inv impl r₀ h s := by
  induction hh with
  | nil => exact inv_init r₀ timeout now
  | snoc _ hs ih => exact ih.step hst hs

end State

end Verif
