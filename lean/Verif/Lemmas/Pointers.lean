import Verif.Model.Pointers
import Verif.Lemmas.StateInv

/-!
A session that is handed pointers does what the session does that is handed the messages.
-/

namespace Verif.Pointers

open State (Ret)

variable {G R : Type} {impl : RoundImpl G R} {after : After G R} {last : R → Prop}

/-- Only the last round writes into messages, and it leaves the headers alone. -/
structure LastOnly (impl : RoundImpl G R) (after : After G R) (last : R → Prop) : Prop where
  process : ∀ r m r', impl.processMessage r m = .ok r' → (last r' ↔ last r)
  generate : ∀ ord coins r r' out, impl.generateMessages ord coins r = .ok (r', out) → (last r' ↔ last r)
  ends : ∀ r, last r → impl.nextRound r = none
  idle : ∀ r m, ¬ last r → after r m = m
  header : ∀ r m, (after r m).header = m.header

/-- Without messages. -/
def strip (s : State G R) : State G R := { s with received := [], queue := [] }

/-- The pointers in a map. -/
def ptrs (m : GoMap (Option Ptr)) : List Ptr := m.filterMap Prod.snd

theorem mem_ptrs {m : GoMap (Option Ptr)} {p : Ptr} : p ∈ ptrs m ↔ ∃ k, (k, some p) ∈ m := by
  simp [ptrs]

theorem viewMap_get? (mem : Mem G) (m : GoMap (Option Ptr)) (k : ID) : (viewMap mem m).get? k = (m.get? k).map (Option.map mem) := by
  induction m with
  | nil => rfl
  | cons e m ih =>
    obtain ⟨k', v⟩ := e
    simp only [viewMap, List.map_cons, GoMap.get?] at ih ⊢
    split
    · rfl
    · exact ih

theorem viewMap_has (mem : Mem G) (m : GoMap (Option Ptr)) (k : ID) : (viewMap mem m).has k = m.has k := by
  simp [GoMap.has, viewMap_get?]

theorem viewMap_set (mem : Mem G) (m : GoMap (Option Ptr)) (k : ID) (p : Ptr) :
    viewMap mem (m.set k (some p)) = (viewMap mem m).set k (some (mem p)) := by
  induction m with
  | nil => rfl
  | cons e m ih =>
    obtain ⟨k', v⟩ := e
    simp only [viewMap, List.map_cons, GoMap.set] at ih ⊢
    split
    · rfl
    · rw [List.map_cons, ih]

theorem viewMap_length (mem : Mem G) (m : GoMap (Option Ptr)) : (viewMap mem m).length = m.length := by simp [viewMap]

theorem viewMap_congr {mem mem' : Mem G} {m : GoMap (Option Ptr)} (h : ∀ p ∈ ptrs m, mem' p = mem p) : viewMap mem' m = viewMap mem m := by
  refine List.map_congr_left fun e he => ?_
  obtain ⟨k, v⟩ := e
  cases v with
  | none => rfl
  | some p => simp [h p (mem_ptrs.mpr ⟨k, he⟩)]

/-- In a map where everybody's message is stored under their name no pointer is stored twice. -/
theorem ptrs_nodup {mem : Mem G} {m : GoMap (Option Ptr)} (hw : (viewMap mem m).WF) (hk : ∀ k msg, (k, some msg) ∈ viewMap mem m → k = msg.header.fromID) :
    (ptrs m).Nodup := by
  induction m with
  | nil => exact List.nodup_nil
  | cons e m ih =>
    obtain ⟨k, v⟩ := e
    have hw' : (viewMap mem m).WF := (List.nodup_cons.mp hw).2
    have hk' : ∀ k msg, (k, some msg) ∈ viewMap mem m → k = msg.header.fromID := fun k msg h => hk k msg (List.mem_cons_of_mem _ h)
    cases v with
    | none => exact ih hw' hk'
    | some p =>
      show (p :: ptrs m).Nodup
      refine List.nodup_cons.mpr ⟨fun hp => ?_, ih hw' hk'⟩
      obtain ⟨k', hm⟩ := mem_ptrs.mp hp
      have hm' : (k', some (mem p)) ∈ viewMap mem m := List.mem_map.mpr ⟨_, hm, rfl⟩
      have h1 := hk' k' _ hm'
      have h2 := hk k (mem p) List.mem_cons_self
      refine (List.nodup_cons.mp hw).1 ?_
      show k ∈ (viewMap mem m).keys
      rw [h2, ← h1]
      exact List.mem_map.mpr ⟨_, hm', rfl⟩

theorem processLoop_sim (L : LastOnly impl after last) (entries : GoMap (Option Ptr)) (mem : Mem G) (r : R) (hn : (ptrs entries).Nodup) :
    match processLoop impl after entries mem r with
    | .panic => State.processLoop impl (viewMap mem entries) r = .panic
    | .err (e, mem') => State.processLoop impl (viewMap mem entries) r = .err e ∧
        ∀ p, mem' p = mem p ∨ p ∈ ptrs entries ∧ ∃ r', (last r' ↔ last r) ∧ mem' p = after r' (mem p)
    | .ok (r', mem') => State.processLoop impl (viewMap mem entries) r = .ok r' ∧ (last r' ↔ last r) ∧ (∀ p, p ∉ ptrs entries → mem' p = mem p) ∧
        ∀ p ∈ ptrs entries, ∃ r', (last r' ↔ last r) ∧ mem' p = after r' (mem p) := by
  induction entries generalizing mem r with
  | nil => exact ⟨rfl, Iff.rfl, fun _ _ => rfl, fun p hp => absurd hp (List.not_mem_nil)⟩
  | cons e rest ih =>
    obtain ⟨k, v⟩ := e
    simp only [processLoop]
    have hview : viewMap mem ((k, v) :: rest) = (k, v.map mem) :: viewMap mem rest := rfl
    rw [hview]
    simp only [State.processLoop]
    cases hp : impl.processMessage r (v.map mem) with
    | panic => exact rfl
    | err e => exact ⟨rfl, fun p => .inl rfl⟩
    | ok r₁ =>
      have hl := L.process _ _ _ hp
      cases v with
      | none =>
        have := ih mem r₁ hn
        simp only
        cases h : processLoop impl after rest mem r₁ with
        | panic => rw [h] at this; exact this
        | err x =>
          rw [h] at this
          refine ⟨this.1, fun p => ?_⟩
          rcases this.2 p with h' | ⟨h1, r', h2, h3⟩
          · exact .inl h'
          · exact .inr ⟨h1, r', h2.trans hl, h3⟩
        | ok x =>
          rw [h] at this
          refine ⟨this.1, this.2.1.trans hl, this.2.2.1, fun p hp => ?_⟩
          obtain ⟨r', h2, h3⟩ := this.2.2.2 p hp
          exact ⟨r', h2.trans hl, h3⟩
      | some q =>
        have hn' : q ∉ ptrs rest ∧ (ptrs rest).Nodup := List.nodup_cons.mp hn
        have hq : ∀ p ∈ ptrs rest, Function.update mem q (after r (mem q)) p = mem p := fun p hp =>
          Function.update_of_ne (fun h => hn'.1 (by rw [← h]; exact hp)) _ _
        have := ih (Function.update mem q (after r (mem q))) r₁ hn'.2
        rw [viewMap_congr hq] at this
        have hcons : ptrs ((k, some q) :: rest) = q :: ptrs rest := rfl
        simp only
        cases h : processLoop impl after rest (Function.update mem q (after r (mem q))) r₁ with
        | panic => rw [h] at this; exact this
        | err x =>
          rw [h] at this
          refine ⟨this.1, fun p => ?_⟩
          rw [hcons]
          rcases this.2 p with h' | ⟨h1, r', h2, h3⟩
          · by_cases hpq : p = q
            · subst hpq
              exact .inr ⟨List.mem_cons_self, r, Iff.rfl, by rw [h', Function.update_self]⟩
            · exact .inl (by rw [h', Function.update_of_ne hpq])
          · exact .inr ⟨List.mem_cons_of_mem _ h1, r', h2.trans hl, by rw [h3, hq p h1]⟩
        | ok x =>
          rw [h] at this
          rw [hcons]
          refine ⟨this.1, this.2.1.trans hl, fun p hp => ?_, fun p hp => ?_⟩
          · rw [List.mem_cons, not_or] at hp
            rw [this.2.2.1 p hp.2, Function.update_of_ne hp.1]
          · rcases List.mem_cons.mp hp with rfl | hp
            · exact ⟨r, Iff.rfl, by rw [this.2.2.1 p hn'.1, Function.update_self]⟩
            · obtain ⟨r', h2, h3⟩ := this.2.2.2 p hp
              exact ⟨r', h2.trans hl, by rw [h3, hq p hp]⟩

theorem dequeueLoop_sim (current : MsgType) (mem : Mem G) (q : List Ptr) (received : GoMap (Option Ptr)) (nq : List Ptr) :
    State.dequeueLoop current (q.map mem) (viewMap mem received) (nq.map mem) =
      (viewMap mem (dequeueLoop current mem q received nq).1, (dequeueLoop current mem q received nq).2.map mem) := by
  induction q generalizing received nq with
  | nil => rfl
  | cons p q ih =>
    simp only [List.map_cons, State.dequeueLoop, dequeueLoop]
    split
    · rw [← viewMap_set, ih]
    · rw [← ih, List.map_append, List.map_singleton]

theorem finish_strip (s : State G R) : State.finish impl (strip s) = (State.finish impl s).map strip := by
  obtain ⟨types, received, queue, timer, number, r, closed, done, err⟩ := s
  simp only [strip, State.finish]
  cases done
  · cases hr : impl.reset r <;> cases closed <;> simp [hr, strip]
  · rfl

theorem reportError_strip (s : State G R) (e : StateErr) : State.reportError impl (strip s) e = (State.reportError impl s e).map strip := by
  obtain ⟨types, received, queue, timer, number, r, closed, done, err⟩ := s
  simp only [State.reportError]
  cases done
  · cases err
    · exact finish_strip ⟨types, received, queue, timer, number, r, closed, false, some { e with roundNumber := number }⟩
    · exact finish_strip ⟨types, received, queue, timer, number, r, closed, false, _⟩
  · rfl

theorem finish_done {s s' : State G R} (h : State.finish impl s = some s') : s'.done = true := by
  unfold State.finish at h
  split at h
  · rename_i hd; cases h; exact hd
  · simp only [Option.bind_eq_bind, Option.bind_eq_some_iff] at h
    obtain ⟨r, _, h⟩ := h
    split at h
    · cases h
    · cases h; rfl

theorem reportError_done {s s' : State G R} {e : StateErr} (h : State.reportError impl s e = some s') : s'.done = true := by
  unfold State.reportError at h
  split at h
  · rename_i hd; cases h; exact hd
  · exact finish_done h

/-- What a pointer is replaced by. -/
def readOp (mem : Mem G) : Op → State.Op G
  | .handle p => .handle (mem p)
  | .processAll ord coins => .processAll ord coins
  | .advance dt => .advance dt
  | .fire => .fire
  | .callback => .callback

/-- The two sessions are in the same state; the messages are as they were in the beginning until the session ends. -/
structure Sim (mem₀ mem : Mem G) (s : PState G R) (t : State G R) : Prop where
  rest : s.rest = strip t
  live : t.done = false → mem = mem₀ ∧ t.received = viewMap mem₀ s.received ∧ t.queue = s.queue.map mem₀
  header : ∀ p, (mem p).header = (mem₀ p).header

theorem start_sim (impl : RoundImpl G R) (r : R) (timeout now : Nat) (mem₀ : Mem G) :
    Sim mem₀ mem₀ (newBaseState impl r timeout now) (State.newBaseState impl r timeout now) where
  rest := rfl
  live _ := by
    refine ⟨rfl, ?_, rfl⟩
    have key : ∀ (l : List ID) (m : GoMap (Option (Message G))), (∀ e ∈ m, e.2 = none) → ∀ e ∈ State.initReceived (impl.selfID r) l m, e.2 = none := by
      intro l
      induction l with
      | nil => exact fun m h => h
      | cons k l ih =>
        intro m h
        refine ih _ ?_
        split
        · intro e he
          obtain ⟨k', v⟩ := e
          rcases State.mem_set_cases he with ⟨_, h2⟩ | h'
          · exact h2
          · exact h _ h'
        · exact h
    have hnone := key (impl.partyIDs r) [] (by simp)
    simp only [newBaseState, viewMap, List.map_map]
    refine (List.map_id _).symm.trans (List.map_congr_left fun e he => ?_)
    obtain ⟨k, v⟩ := e
    have : v = none := hnone _ he
    subst this
    rfl
  header _ := rfl

theorem handle_sim {mem₀ mem : Mem G} {s : PState G R} {t : State G R} (S : Sim mem₀ mem s t) (p : Ptr) :
    (State.handleMessage impl t (mem₀ p)).2 = (handleMessage impl mem s p).2 ∧
      Sim mem₀ mem (handleMessage impl mem s p).1 (State.handleMessage impl t (mem₀ p)).1 := by
  obtain ⟨rest, received, queue⟩ := s
  obtain ⟨types, received', queue', timer, number, r, closed, done, err⟩ := t
  obtain rfl : rest = ⟨types, [], [], timer, number, r, closed, done, err⟩ := S.rest
  unfold handleMessage State.handleMessage
  have hh := S.header p
  cases done with
  | true =>
    simp only [hh, if_true]
    exact ⟨rfl, S⟩
  | false =>
    obtain ⟨rfl, h1, h2⟩ := S.live rfl
    simp only at h1 h2
    subst h1 h2
    cases types with
    | nil => exact ⟨rfl, S⟩
    | cons current types =>
      simp only [viewMap_has, Bool.false_eq_true, if_false]
      by_cases c0 : (mem p).header.fromID = impl.selfID r
      · simp only [if_pos c0]; exact ⟨trivial, S⟩
      simp only [if_neg c0]
      by_cases c1 : (mem p).header.isBroadcast = false ∧ (mem p).header.toID ≠ impl.selfID r
      · simp only [if_pos c1]; exact ⟨trivial, S⟩
      simp only [if_neg c1]
      by_cases c2 : IDSlice.contains (impl.partyIDs r) (mem p).header.fromID = false
      · simp only [if_pos c2]; exact ⟨rfl, S⟩
      simp only [if_neg c2]
      by_cases c3 : received.has (mem p).header.fromID = true
      · simp only [if_pos c3]; exact ⟨rfl, S⟩
      simp only [if_neg c3]
      by_cases c4 : State.isAcceptedType (current :: types) (mem p).header.type = false
      · simp only [if_pos c4]; exact ⟨rfl, S⟩
      simp only [if_neg c4]
      by_cases c : (mem p).header.type = current
      · simp only [if_pos c]
        exact ⟨trivial, ⟨rfl, fun _ => ⟨rfl, (viewMap_set _ _ _ _).symm, rfl⟩, fun _ => rfl⟩⟩
      · simp only [if_neg c]
        exact ⟨trivial, ⟨rfl, fun _ => ⟨rfl, rfl, by simp⟩, fun _ => rfl⟩⟩

theorem timer_sim {mem₀ mem : Mem G} {s : PState G R} {t : State G R} (S : Sim mem₀ mem s t) (op : State.Op G)
    (hop : op = .fire ∨ op = .callback ∨ ∃ dt, op = .advance dt) :
    match timerStep impl s op with
    | none => State.step impl t op = none
    | some s' => ∃ t', State.step impl t op = some (t', .nothing) ∧ Sim mem₀ mem s' t' := by
  obtain ⟨rest, received, queue⟩ := s
  have hr := S.rest
  simp only at hr
  subst hr
  unfold timerStep
  rcases hop with rfl | rfl | ⟨dt, rfl⟩
  · obtain ⟨types, received', queue', ⟨d, now, deadline, fired⟩, number, r, closed, done, err⟩ := t
    cases deadline with
    | none => exact ⟨_, rfl, S⟩
    | some u =>
      have h1 : State.step impl (strip (⟨types, received', queue', ⟨d, now, some u, fired⟩, number, r, closed, done, err⟩ : State G R)) .fire =
          if u ≤ now then some (⟨types, [], [], ⟨d, now, none, fired + 1⟩, number, r, closed, done, err⟩, .nothing)
          else some (⟨types, [], [], ⟨d, now, some u, fired⟩, number, r, closed, done, err⟩, .nothing) := rfl
      have h2 : State.step impl (⟨types, received', queue', ⟨d, now, some u, fired⟩, number, r, closed, done, err⟩ : State G R) .fire =
          if u ≤ now then some (⟨types, received', queue', ⟨d, now, none, fired + 1⟩, number, r, closed, done, err⟩, .nothing)
          else some (⟨types, received', queue', ⟨d, now, some u, fired⟩, number, r, closed, done, err⟩, .nothing) := rfl
      by_cases hle : u ≤ now
      · rw [if_pos hle] at h1 h2
        rw [h1, h2]
        exact ⟨_, rfl, ⟨rfl, S.live, S.header⟩⟩
      · rw [if_neg hle] at h1 h2
        rw [h1, h2]
        exact ⟨_, rfl, S⟩
  · simp only [State.step]
    by_cases hf : t.timer.fired = 0
    · rw [if_pos hf, if_pos (show (strip t).timer.fired = 0 from hf)]
      exact ⟨t, rfl, S⟩
    · rw [if_neg hf, if_neg (show ¬ (strip t).timer.fired = 0 from hf)]
      have h := reportError_strip (impl := impl) { t with timer := { t.timer with fired := t.timer.fired - 1 } } (.new 0 .timeout)
      have h1 : State.timeoutCallback impl (strip t) = (State.timeoutCallback impl t).map strip := h
      rw [h1]
      cases h2 : State.timeoutCallback impl t with
      | none => rfl
      | some t' =>
        have := reportError_done h2
        exact ⟨t', rfl, ⟨rfl, fun h => (by rw [this] at h; cases h), S.header⟩⟩
  · exact ⟨_, rfl, ⟨rfl, S.live, S.header⟩⟩

/-- The order of the loop over the messages, as an order of the pointers. -/
theorem exists_entries (ord : MapOrder) (mem : Mem G) (m : GoMap (Option Ptr)) :
    ∃ entries : GoMap (Option Ptr), entries.Perm m ∧ viewMap mem entries = ord.order _ (viewMap mem m) := by
  have key : ∀ (l l' : List (ID × Option (Message G))), l'.Perm l → ∀ m : GoMap (Option Ptr), viewMap mem m = l → ∃ e : GoMap (Option Ptr), e.Perm m ∧ viewMap mem e = l' := by
    intro l l' h
    induction h with
    | nil => intro m hm; exact ⟨m, .refl _, hm⟩
    | cons x _ ih =>
      intro m hm
      cases m with
      | nil => cases hm
      | cons a m =>
        simp only [viewMap, List.map_cons, List.cons.injEq] at hm
        obtain ⟨e, h1, h2⟩ := ih m hm.2
        exact ⟨a :: e, h1.cons _, by rw [← hm.1, ← h2]; rfl⟩
    | swap x y l =>
      intro m hm
      match m, hm with
      | a :: b :: m, hm =>
        simp only [viewMap, List.map_cons, List.cons.injEq] at hm
        exact ⟨b :: a :: m, .swap _ _ _, by rw [← hm.1, ← hm.2.1, ← hm.2.2]; rfl⟩
    | trans _ _ ih1 ih2 =>
      intro m hm
      obtain ⟨e, h1, h2⟩ := ih2 m hm
      obtain ⟨e', h3, h4⟩ := ih1 e h2
      exact ⟨e', h3.trans h1, h4⟩
  exact key _ _ (ord.perm _ _) m rfl

theorem processAll_sim (L : LastOnly impl after last) {mem₀ mem : Mem G} {s : PState G R} {t : State G R} (S : Sim mem₀ mem s t) (hw : t.received.WF)
    (hk : ∀ k msg, (k, some msg) ∈ t.received → k = msg.header.fromID) {entries : GoMap (Option Ptr)} {ord : MapOrder} {coins : Coins}
    (hp : entries.Perm s.received) (he : viewMap mem entries = ord.order _ (viewMap mem s.received)) :
    match processAll impl after entries ord coins mem s with
    | none => State.processAll impl ord coins t = none
    | some (mem', s', out) => ∃ t', State.processAll impl ord coins t = some (t', out) ∧ Sim mem₀ mem' s' t' := by
  obtain ⟨rest, received, queue⟩ := s
  obtain ⟨types, received', queue', timer, number, r, closed, done, err⟩ := t
  obtain rfl : rest = ⟨types, [], [], timer, number, r, closed, done, err⟩ := S.rest
  simp only at hp he hw hk
  unfold processAll State.processAll
  cases done with
  | true => simp only [if_true]; exact ⟨_, rfl, S⟩
  | false =>
    obtain ⟨rfl, h1, h2⟩ := S.live rfl
    simp only at h1 h2
    subst h1 h2
    simp only [Bool.false_eq_true, if_false, viewMap_length]
    by_cases hlen : received.length ≠ (IDSlice.N (impl.partyIDs r) - 1).toNat
    · simp only [if_pos hlen]; exact ⟨_, rfl, S⟩
    simp only [if_neg hlen, ← he]
    have hn : (ptrs entries).Nodup := (ptrs_nodup hw hk).perm (hp.symm.filterMap _)
    have hl := processLoop_sim L entries mem r hn
    cases hpl : processLoop impl after entries mem r with
    | panic => rw [hpl] at hl; simp only [hl]
    | err x =>
      obtain ⟨⟨e, r₁⟩, mem'⟩ := x
      rw [hpl] at hl
      simp only [hl.1]
      have hs := reportError_strip (impl := impl) ⟨types, viewMap mem received, queue.map mem, timer, number, r₁, closed, false, err⟩ e
      simp only [strip] at hs
      rw [hs]
      cases hre : State.reportError impl ⟨types, viewMap mem received, queue.map mem, timer, number, r₁, closed, false, err⟩ e with
      | none => rfl
      | some t' =>
        have hd := reportError_done hre
        refine ⟨t', rfl, ⟨rfl, fun h => (by rw [hd] at h; cases h), fun p => ?_⟩⟩
        rcases hl.2 p with h | ⟨_, r', _, h⟩
        · rw [h]
        · rw [h, L.header]
    | ok x =>
      obtain ⟨r₁, mem'⟩ := x
      rw [hpl] at hl
      obtain ⟨hl1, hl2, hl3, hl4⟩ := hl
      simp only [hl1]
      have hhead : ∀ p, (mem' p).header = (mem p).header := by
        intro p
        by_cases hpp : p ∈ ptrs entries
        · obtain ⟨r', _, h⟩ := hl4 p hpp
          rw [h, L.header]
        · rw [hl3 p hpp]
      cases hg : impl.generateMessages ord coins r₁ with
      | panic => rfl
      | err x =>
        obtain ⟨e, r₂⟩ := x
        simp only
        have hs := reportError_strip (impl := impl) ⟨types, [], queue.map mem, timer, number, r₂, closed, false, err⟩ e
        simp only [strip] at hs
        rw [hs]
        cases hre : State.reportError impl ⟨types, [], queue.map mem, timer, number, r₂, closed, false, err⟩ e with
        | none => rfl
        | some t' =>
          have hd := reportError_done hre
          exact ⟨t', rfl, ⟨rfl, fun h => (by rw [hd] at h; cases h), hhead⟩⟩
      | ok x =>
        obtain ⟨r₂, out⟩ := x
        have hl5 := L.generate _ _ _ _ _ hg
        cases types with
        | nil => rfl
        | cons ty types =>
          simp only
          cases hnx : impl.nextRound r₂ with
          | none =>
            cases types with
            | nil =>
              simp only [hnx]
              have hs := finish_strip (impl := impl) ⟨[], [], queue.map mem, timer, number, r₂, closed, false, err⟩
              simp only [strip] at hs
              rw [hs]
              cases hf : State.finish impl ⟨[], [], queue.map mem, timer, number, r₂, closed, false, err⟩ with
              | none => rfl
              | some t' =>
                have hd := finish_done hf
                exact ⟨t', rfl, ⟨rfl, fun h => (by rw [hd] at h; cases h), hhead⟩⟩
            | cons current types =>
              simp only [hnx]
              have hs := finish_strip (impl := impl) ⟨current :: types, (State.dequeueLoop current (queue.map mem) [] []).1, (State.dequeueLoop current (queue.map mem) [] []).2, timer, number, r₂, closed, false, err⟩
              simp only [strip] at hs
              rw [hs]
              cases hf : State.finish impl ⟨current :: types, (State.dequeueLoop current (queue.map mem) [] []).1, (State.dequeueLoop current (queue.map mem) [] []).2, timer, number, r₂, closed, false, err⟩ with
              | none => rfl
              | some t' =>
                have hd := finish_done hf
                exact ⟨t', rfl, ⟨rfl, fun h => (by rw [hd] at h; cases h), hhead⟩⟩
          | some next =>
            have hnl : ¬ last r := fun h => by
              rw [L.ends r₂ (hl5.mpr (hl2.mpr h))] at hnx
              cases hnx
            have hmem : mem' = mem := by
              funext p
              by_cases hpp : p ∈ ptrs entries
              · obtain ⟨r', h1, h⟩ := hl4 p hpp
                rw [h, L.idle r' _ (fun hh => hnl (h1.mp hh))]
              · exact hl3 p hpp
            subst hmem
            cases types with
            | nil =>
              simp only [hnx]
              exact ⟨_, rfl, ⟨rfl, fun _ => ⟨rfl, rfl, rfl⟩, fun _ => rfl⟩⟩
            | cons current types =>
              simp only [hnx]
              have hdq := dequeueLoop_sim current mem' queue [] []
              simp only [viewMap, List.map_nil] at hdq
              exact ⟨_, rfl, ⟨rfl, fun _ => ⟨rfl, by simp only [hdq]; rfl, by simp only [hdq]⟩, fun _ => rfl⟩⟩

theorem finish_err {s s' : State G R} (h : State.finish impl s = some s') : s'.err = s.err := by
  unfold State.finish at h
  split at h
  · cases h; rfl
  · simp only [Option.bind_eq_bind, Option.bind_eq_some_iff] at h
    obtain ⟨r, _, h⟩ := h
    split at h
    · cases h
    · cases h; rfl

theorem finish_reset {s s' : State G R} (hd : s.done = false) (h : State.finish impl s = some s') : impl.reset s.round = some s'.round := by
  unfold State.finish at h
  rw [hd] at h
  simp only [Bool.false_eq_true, if_false, Option.bind_eq_bind, Option.bind_eq_some_iff] at h
  obtain ⟨r, hr, h⟩ := h
  split at h
  · cases h
  · cases h; exact hr

theorem reportError_err {s s' : State G R} {e : StateErr} (hd : s.done = false) (h : State.reportError impl s e = some s') : s'.err ≠ none := by
  obtain ⟨types, received, queue, timer, number, r, closed, done, err⟩ := s
  cases hd
  cases err with
  | none =>
    have h' : State.finish impl ⟨types, received, queue, timer, number, r, closed, false, some { e with roundNumber := number }⟩ = some s' := h
    rw [finish_err h']
    exact Option.some_ne_none _
  | some e₀ =>
    have h' : State.finish impl ⟨types, received, queue, timer, number, r, closed, false, some e₀⟩ = some s' := h
    rw [finish_err h']
    exact Option.some_ne_none _

theorem dequeueLoop_mem (current : MsgType) (mem : Mem G) (q : List Ptr) (received : GoMap (Option Ptr)) (nq : List Ptr) :
    (∀ p ∈ ptrs (dequeueLoop current mem q received nq).1, p ∈ ptrs received ∨ p ∈ q) ∧
      ∀ p ∈ (dequeueLoop current mem q received nq).2, p ∈ nq ∨ p ∈ q := by
  induction q generalizing received nq with
  | nil => exact ⟨fun p h => .inl h, fun p h => .inl h⟩
  | cons a q ih =>
    simp only [dequeueLoop]
    split
    · obtain ⟨h1, h2⟩ := ih (received.set (mem a).header.fromID (some a)) nq
      refine ⟨fun p hp => ?_, fun p hp => (h2 p hp).imp_right (List.mem_cons_of_mem _)⟩
      rcases h1 p hp with h | h
      · obtain ⟨k, hk⟩ := mem_ptrs.mp h
        rcases State.mem_set_cases hk with h | h
        · cases h.2; exact .inr List.mem_cons_self
        · exact .inl (mem_ptrs.mpr ⟨k, h⟩)
      · exact .inr (List.mem_cons_of_mem _ h)
    · obtain ⟨h1, h2⟩ := ih received (nq ++ [a])
      refine ⟨fun p hp => (h1 p hp).imp_right (List.mem_cons_of_mem _), fun p hp => ?_⟩
      rcases h2 p hp with h | h
      · rcases List.mem_append.mp h with h | h
        · exact .inl h
        · rw [List.mem_singleton.mp h]; exact .inr List.mem_cons_self
      · exact .inr (List.mem_cons_of_mem _ h)

/-- What `ProcessAll` does to the messages and to the pointers. -/
structure Frame (impl : RoundImpl G R) (after : After G R) (last : R → Prop) (entries : GoMap (Option Ptr)) (ord : MapOrder) (coins : Coins) (mem mem' : Mem G)
    (s s' : PState G R) : Prop where
  message : ∀ p, mem' p = mem p ∨ s'.rest.done = true ∧ p ∈ ptrs s.received ∧ ∃ r', last r' ∧ mem' p = after r' (mem p)
  received : ∀ p ∈ ptrs s'.received, p ∈ ptrs s.received ∨ p ∈ s.queue
  queue : ∀ p ∈ s'.queue, p ∈ s.queue
  success : s.rest.done = false → s'.rest.done = true → s'.rest.err = none →
    last s.rest.round ∧ s.received.length = (IDSlice.N (impl.partyIDs s.rest.round) - 1).toNat ∧
    (∀ p ∈ ptrs s.received, ∃ r', last r' ∧ mem' p = after r' (mem p)) ∧
    ∃ r₁ r₂ out, State.processLoop impl (viewMap mem entries) s.rest.round = .ok r₁ ∧ impl.generateMessages ord coins r₁ = .ok (r₂, out) ∧
      impl.reset r₂ = some s'.rest.round

theorem processAll_frame (L : LastOnly impl after last) (hlast : ∀ r, impl.nextRound r = none → last r) {mem mem' : Mem G} {s s' : PState G R}
    {entries : GoMap (Option Ptr)} {ord : MapOrder} {coins : Coins} {out : List (Message G)} (hn : s.rest.done = false → (ptrs s.received).Nodup)
    (hp : entries.Perm s.received) (h : processAll impl after entries ord coins mem s = some (mem', s', out)) : Frame impl after last entries ord coins mem mem' s s' := by
  obtain ⟨⟨types, received', queue', timer, number, r, closed, done, err⟩, received, queue⟩ := s
  unfold processAll at h
  cases done with
  | true =>
    cases h
    exact ⟨fun p => .inl rfl, fun p h => .inl h, fun p h => h, fun h => nomatch h⟩
  | false =>
    simp only [Bool.false_eq_true, if_false] at h hn
    split at h
    · cases h
      exact ⟨fun p => .inl rfl, fun p h => .inl h, fun p h => h, fun _ h => nomatch h⟩
    rename_i hlen
    have hlen := not_not.mp hlen
    have hptr : ∀ p, p ∈ ptrs entries ↔ p ∈ ptrs received := fun p => (hp.filterMap _).mem_iff
    have hl := processLoop_sim L entries mem r ((hn trivial).perm (hp.symm.filterMap _))
    have lift : ∀ (mem' : Mem G) (s' : PState G R), (last r → s'.rest.done = true) →
        (∀ p, mem' p = mem p ∨ p ∈ ptrs entries ∧ ∃ r', (last r' ↔ last r) ∧ mem' p = after r' (mem p)) →
        ∀ p, mem' p = mem p ∨ s'.rest.done = true ∧ p ∈ ptrs received ∧ ∃ r', last r' ∧ mem' p = after r' (mem p) := by
      intro mem' s' hd hm p
      rcases hm p with h | ⟨h1, r', h2, h3⟩
      · exact .inl h
      · by_cases hr : last r
        · exact .inr ⟨hd hr, (hptr p).mp h1, r', h2.mpr hr, h3⟩
        · exact .inl (by rw [h3, L.idle r' _ fun h => hr (h2.mp h)])
    cases hpl : processLoop impl after entries mem r with
    | panic => simp only [hpl] at h; cases h
    | err x =>
      obtain ⟨⟨e, r₁⟩, mem₁⟩ := x
      rw [hpl] at hl
      simp only [hpl, Option.bind_eq_bind, Option.bind_eq_some_iff] at h
      obtain ⟨rest, hre, h⟩ := h
      cases h
      exact ⟨lift _ _ (fun _ => reportError_done hre) hl.2, fun p h => .inl h, fun p h => h, fun _ _ h => absurd h (reportError_err rfl hre)⟩
    | ok x =>
      obtain ⟨r₁, mem₁⟩ := x
      rw [hpl] at hl
      obtain ⟨hl1, hl2, hl3, hl4⟩ := hl
      have hm : ∀ p, mem₁ p = mem p ∨ p ∈ ptrs entries ∧ ∃ r', (last r' ↔ last r) ∧ mem₁ p = after r' (mem p) := fun p =>
        (em (p ∈ ptrs entries)).elim (fun h => .inr ⟨h, hl4 p h⟩) fun h => .inl (hl3 p h)
      simp only [hpl] at h
      cases hg : impl.generateMessages ord coins r₁ with
      | panic => simp only [hg] at h; cases h
      | err x =>
        obtain ⟨e, r₂⟩ := x
        simp only [hg, Option.bind_eq_bind, Option.bind_eq_some_iff] at h
        obtain ⟨rest, hre, h⟩ := h
        cases h
        exact ⟨lift _ _ (fun _ => reportError_done hre) hm, fun p h => absurd h List.not_mem_nil, fun p h => h,
          fun _ _ h => absurd h (reportError_err rfl hre)⟩
      | ok x =>
        obtain ⟨r₂, out₂⟩ := x
        have hl5 := L.generate _ _ _ _ _ hg
        simp only [hg] at h
        cases types with
        | nil => cases h
        | cons ty types =>
          simp only at h
          cases hnx : impl.nextRound r₂ with
          | none =>
            have hr : last r := hl2.mp (hl5.mp (hlast _ hnx))
            have hs : ∀ p ∈ ptrs received, ∃ r', last r' ∧ mem₁ p = after r' (mem p) := fun p hp' =>
              (hl4 p ((hptr p).mpr hp')).imp fun r' h => ⟨h.1.mpr hr, h.2⟩
            cases types with
            | nil =>
              simp only [hnx, Option.bind_eq_bind, Option.bind_eq_some_iff] at h
              obtain ⟨rest, hf, h⟩ := h
              cases h
              exact ⟨lift _ _ (fun _ => finish_done hf) hm, fun p h => absurd h List.not_mem_nil, fun p h => h, fun _ _ _ => ⟨hr, hlen, hs, r₁, r₂, _, hl1, hg, finish_reset rfl hf⟩⟩
            | cons current types =>
              simp only [hnx, Option.bind_eq_bind, Option.bind_eq_some_iff] at h
              obtain ⟨rest, hf, h⟩ := h
              cases h
              obtain ⟨d1, d2⟩ := dequeueLoop_mem current _ queue [] []
              exact ⟨lift _ _ (fun _ => finish_done hf) hm, fun p h => .inr ((d1 p h).resolve_left List.not_mem_nil),
                fun p h => (d2 p h).resolve_left List.not_mem_nil, fun _ _ _ => ⟨hr, hlen, hs, r₁, r₂, _, hl1, hg, finish_reset rfl hf⟩⟩
          | some next =>
            have hnl : ¬ last r := fun h => by
              rw [L.ends r₂ (hl5.mpr (hl2.mpr h))] at hnx
              cases hnx
            cases types with
            | nil =>
              simp only [hnx] at h
              cases h
              exact ⟨lift _ _ (fun h => absurd h hnl) hm, fun p h => absurd h List.not_mem_nil, fun p h => h, fun _ h => nomatch h⟩
            | cons current types =>
              simp only [hnx] at h
              cases h
              obtain ⟨d1, d2⟩ := dequeueLoop_mem current _ queue [] []
              exact ⟨lift _ _ (fun h => absurd h hnl) hm, fun p h => .inr ((d1 p h).resolve_left List.not_mem_nil),
                fun p h => (d2 p h).resolve_left List.not_mem_nil, fun _ h => nomatch h⟩

/-- One event of both sessions. -/
theorem step_sim (L : LastOnly impl after last) {mem₀ mem mem' : Mem G} {s s' : PState G R} {t : State G R} {op : Op} {ret : Ret G}
    (S : Sim mem₀ mem s t) (hw : t.received.WF) (hk : ∀ k msg, (k, some msg) ∈ t.received → k = msg.header.fromID) (h : Step impl after mem s op ret mem' s') :
    ∃ t', State.step impl t (readOp mem₀ op) = some (t', ret) ∧ Sim mem₀ mem' s' t' := by
  cases h with
  | handle p =>
    obtain ⟨h1, h2⟩ := handle_sim (impl := impl) S p
    exact ⟨_, by simp only [readOp, State.step, h1], h2⟩
  | processAll hp he h =>
    rename_i ord coins out
    have := processAll_sim L S hw hk hp he (coins := coins)
    rw [h] at this
    obtain ⟨t', h1, h2⟩ := this
    exact ⟨t', by simp only [readOp, State.step, h1]; rfl, h2⟩
  | advance h => rename_i dt; have := timer_sim (impl := impl) S (.advance dt) (.inr (.inr ⟨dt, rfl⟩)); rw [h] at this; exact this
  | fire h => have := timer_sim (impl := impl) S .fire (.inl rfl); rw [h] at this; exact this
  | callback h => have := timer_sim (impl := impl) S .callback (.inr (.inl rfl)); rw [h] at this; exact this

/-- What the session does that is handed messages, the session does that is handed pointers. -/
theorem step_complete (L : LastOnly impl after last) {mem₀ mem : Mem G} {s : PState G R} {t t' : State G R} {op : Op} {ret : Ret G}
    (S : Sim mem₀ mem s t) (hw : t.received.WF) (hk : ∀ k msg, (k, some msg) ∈ t.received → k = msg.header.fromID)
    (h : State.step impl t (readOp mem₀ op) = some (t', ret)) : ∃ mem' s', Step impl after mem s op ret mem' s' ∧ Sim mem₀ mem' s' t' := by
  have timer : ∀ o : State.Op G, (o = .fire ∨ o = .callback ∨ ∃ dt, o = .advance dt) → State.step impl t o = some (t', ret) →
      ∃ s', timerStep impl s o = some s' ∧ ret = .nothing ∧ Sim mem₀ mem s' t' := by
    intro o ho h
    have := timer_sim (impl := impl) S o ho
    cases hs : timerStep impl s o with
    | none => rw [hs] at this; simp only [this] at h; cases h
    | some s' =>
      rw [hs] at this
      obtain ⟨t₁, h1, h2⟩ := this
      rw [h] at h1
      cases h1
      exact ⟨s', rfl, rfl, h2⟩
  cases op with
  | handle p =>
    obtain ⟨h1, h2⟩ := handle_sim (impl := impl) S p
    simp only [readOp, State.step, Option.some.injEq, Prod.mk.injEq] at h
    obtain ⟨rfl, rfl⟩ := h
    rw [h1]
    exact ⟨mem, _, .handle p, h2⟩
  | processAll ord coins =>
    obtain ⟨entries, hp, he⟩ := exists_entries ord mem s.received
    have := processAll_sim L S hw hk hp he (coins := coins)
    cases hs : processAll impl after entries ord coins mem s with
    | none => rw [hs] at this; simp only [readOp, State.step, this] at h; cases h
    | some x =>
      obtain ⟨mem', s', out⟩ := x
      rw [hs] at this
      obtain ⟨t₁, h1, h2⟩ := this
      simp only [readOp, State.step, h1, Option.map_some] at h
      cases h
      exact ⟨mem', s', .processAll hp he hs, h2⟩
  | advance dt => obtain ⟨s', h1, rfl, h2⟩ := timer (.advance dt) (.inr (.inr ⟨dt, rfl⟩)) h; exact ⟨mem, s', .advance h1, h2⟩
  | fire => obtain ⟨s', h1, rfl, h2⟩ := timer .fire (.inl rfl) h; exact ⟨mem, s', .fire h1, h2⟩
  | callback => obtain ⟨s', h1, rfl, h2⟩ := timer .callback (.inr (.inl rfl)) h; exact ⟨mem, s', .callback h1, h2⟩

/-- The history of the session that is handed the messages. -/
def readHist (mem : Mem G) (h : List (Op × Ret G)) : List (State.Op G × Ret G) := h.map fun x => (readOp mem x.1, x.2)

theorem hist_sim (hst : impl.Stable) (L : LastOnly impl after last) {mem₀ mem : Mem G} {r : R} {timeout now : Nat} {h : List (Op × Ret G)} {s : PState G R}
    (hh : Hist impl after mem₀ (newBaseState impl r timeout now) h mem s) :
    ∃ t, State.Hist impl (State.newBaseState impl r timeout now) (readHist mem₀ h) t ∧ Sim mem₀ mem s t := by
  induction hh with
  | nil => exact ⟨_, .nil, start_sim impl r timeout now mem₀⟩
  | snoc _ hs ih =>
    obtain ⟨t, ht, S⟩ := ih
    have I := State.inv_hist hst ht
    obtain ⟨t', h1, h2⟩ := step_sim L S I.wf (fun k m h => (I.stored k m h).1) hs
    refine ⟨t', ?_, h2⟩
    rw [readHist, List.map_append]
    exact .snoc ht h1

theorem hist_complete (hst : impl.Stable) (L : LastOnly impl after last) {mem₀ : Mem G} {r : R} {timeout now : Nat} {h : List (Op × Ret G)} {t : State G R}
    (hh : State.Hist impl (State.newBaseState impl r timeout now) (readHist mem₀ h) t) :
    ∃ mem s, Hist impl after mem₀ (newBaseState impl r timeout now) h mem s ∧ Sim mem₀ mem s t := by
  induction h using List.reverseRecOn generalizing t with
  | nil =>
    generalize hl : readHist mem₀ ([] : List (Op × Ret G)) = l at hh
    cases hh with
    | nil => exact ⟨_, _, .nil, start_sim impl r timeout now mem₀⟩
    | snoc _ _ => simp [readHist] at hl
  | append_singleton h x ih =>
    generalize hl : readHist mem₀ (h ++ [x]) = l at hh
    cases hh with
    | nil => simp [readHist] at hl
    | snoc ht hs =>
      rw [readHist, List.map_append, List.map_singleton] at hl
      obtain ⟨h1, h2⟩ := List.append_inj' hl rfl
      cases h2
      subst h1
      obtain ⟨mem, s, hh, S⟩ := ih ht
      have I := State.inv_hist hst ht
      obtain ⟨mem', s', h1, h2⟩ := step_complete L S I.wf (fun k m h => (I.stored k m h).1) hs
      exact ⟨mem', s', .snoc hh h1, h2⟩

end Verif.Pointers
