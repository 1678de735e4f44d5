import Verif.Model.Recover
import Verif.Lemmas.StateInv
import Verif.Lemmas.Crashes

/-!
Sessions whose caller recovers from panics: nothing comes of a session in which a call has panicked, and as long as no message was changed it is as if the calls that
panicked had not been made.
-/

namespace Verif.Recover

open State (Ret Full ProcessCases processLoop)

variable {G R O : Type} {impl : RoundImpl G R} {after : Pointers.After G R} {out : R → O} {E : R → R → Prop}

/-- `E` relates rounds that judge messages in the same way. -/
structure Verdicts (impl : RoundImpl G R) (after : Pointers.After G R) (out : R → O) (E : R → R → Prop) : Prop where
  equiv : Equivalence E
  ok : ∀ {r m r'}, impl.processMessage r m = .ok r' → E r r'
  err : ∀ {r m e r'}, impl.processMessage r m = .err (e, r') → E r r'
  sameErr : ∀ {r₁ r₂ m e x}, E r₁ r₂ → impl.processMessage r₁ m = .err (e, x) → ∃ y, impl.processMessage r₂ m = .err (e, y)
  samePanic : ∀ {r₁ r₂ m}, E r₁ r₂ → impl.processMessage r₁ m = .panic → impl.processMessage r₂ m = .panic
  ids : ∀ {r₁ r₂}, E r₁ r₂ → impl.selfID r₁ = impl.selfID r₂ ∧ impl.partyIDs r₁ = impl.partyIDs r₂ ∧ out r₁ = out r₂
  reset : ∀ {r₁ r₂ x}, E r₁ r₂ → impl.reset r₁ = some x → ∃ y, impl.reset r₂ = some y
  resetIDs : ∀ {r x}, impl.reset r = some x → impl.selfID x = impl.selfID r ∧ impl.partyIDs x = impl.partyIDs r ∧ out x = out r
  erased : ∀ {r r' m}, impl.processMessage r m = .panic → impl.processMessage r (m.map (after r')) = .panic

/-- Some stored message makes the session panic. -/
def Bad (impl : RoundImpl G R) (r : R) (received : GoMap (Option (Message G))) : Prop :=
  ∃ k v, (k, v) ∈ received ∧ impl.processMessage r v = .panic

namespace Verdicts

variable (V : Verdicts impl after out E)

include V

theorem loop_err {l : List (ID × Option (Message G))} {r₁ r₂ x : R} {e : StateErr} (he : E r₁ r₂) (h : processLoop impl l r₁ = .err (e, x)) :
    ∃ y, processLoop impl l r₂ = .err (e, y) ∧ E r₁ x ∧ E r₂ y := by
  induction l generalizing r₁ r₂ with
  | nil => cases h
  | cons a l ih =>
    obtain ⟨k, v⟩ := a
    unfold processLoop at h
    cases hp : impl.processMessage r₁ v with
    | ok r' =>
      rw [hp] at h
      cases hp₂ : impl.processMessage r₂ v with
      | ok r'' =>
        obtain ⟨y, h1, h2, h3⟩ := ih (V.equiv.trans (V.equiv.symm (V.ok hp)) (V.equiv.trans he (V.ok hp₂))) h
        exact ⟨y, by unfold processLoop; rw [hp₂]; exact h1, V.equiv.trans (V.ok hp) h2, V.equiv.trans (V.ok hp₂) h3⟩
      | err z => obtain ⟨_, hz⟩ := V.sameErr (V.equiv.symm he) hp₂; rw [hp] at hz; cases hz
      | panic => have hz := V.samePanic (V.equiv.symm he) hp₂; rw [hp] at hz; cases hz
    | err z =>
      rw [hp] at h
      cases h
      obtain ⟨y, hy⟩ := V.sameErr he hp
      exact ⟨y, by unfold processLoop; rw [hy], V.err hp, V.err hy⟩
    | panic => rw [hp] at h; cases h

theorem loop_ne_ok {l : List (ID × Option (Message G))} {r r' : R} (hb : Bad impl r l) : processLoop impl l r ≠ .ok r' := by
  induction l generalizing r with
  | nil => obtain ⟨_, _, h, _⟩ := hb; cases h
  | cons a l ih =>
    obtain ⟨k, v⟩ := a
    obtain ⟨k', v', hm, hp⟩ := hb
    intro h
    unfold processLoop at h
    cases hv : impl.processMessage r v with
    | panic => rw [hv] at h; cases h
    | err z => rw [hv] at h; cases h
    | ok r₁ =>
      rw [hv] at h
      rcases List.mem_cons.mp hm with hm | hm
      · cases hm
        rw [hp] at hv
        cases hv
      · exact ih ⟨k', v', hm, V.samePanic (V.ok hv) hp⟩ h

theorem panicLoop_some {l : List (ID × Option (Message G))} {r r' : R} {ids : List ID} (h : panicLoop impl l r = some (r', ids)) :
    E r r' ∧ Bad impl r' l := by
  induction l generalizing r ids with
  | nil => cases h
  | cons a l ih =>
    obtain ⟨k, v⟩ := a
    unfold panicLoop at h
    cases hv : impl.processMessage r v with
    | panic =>
      rw [hv] at h
      cases h
      exact ⟨V.equiv.refl _, k, v, List.mem_cons_self, hv⟩
    | err z => rw [hv] at h; cases h
    | ok r₁ =>
      rw [hv] at h
      obtain ⟨⟨r₂, ids₂⟩, h1, h2⟩ := Option.map_eq_some_iff.mp h
      cases h2
      obtain ⟨h3, k', v', h4, h5⟩ := ih h1
      exact ⟨V.equiv.trans (V.ok hv) h3, k', v', List.mem_cons_of_mem _ h4, h5⟩

omit V in
theorem panicLoop_of_panic {l : List (ID × Option (Message G))} {r : R} (h : processLoop impl l r = .panic) : ∃ x, panicLoop impl l r = some x := by
  induction l generalizing r with
  | nil => cases h
  | cons a l ih =>
    obtain ⟨k, v⟩ := a
    unfold processLoop at h
    unfold panicLoop
    cases hv : impl.processMessage r v with
    | panic => exact ⟨_, rfl⟩
    | err z => rw [hv] at h; cases h
    | ok r₁ =>
      rw [hv] at h
      obtain ⟨x, hx⟩ := ih h
      exact ⟨_, by simp only [hx]; rfl⟩

omit V in
theorem recovered_some {ord : MapOrder} {s s' : State G R} (h : recovered impl after ord s = some s') :
    ∃ r ids, s.done = false ∧ Full impl s ∧ panicLoop impl (ord.order _ s.received) s.round = some (r, ids) ∧
      s' = { s with round := r, received := leave after s.round ids s.received } := by
  unfold recovered at h
  by_cases hd : s.done = true
  · rw [if_pos hd] at h; cases h
  rw [if_neg hd] at h
  split at h
  · cases h
  · rename_i hf
    obtain ⟨⟨r, ids⟩, h1, h2⟩ := Option.map_eq_some_iff.mp h
    exact ⟨r, ids, by simpa using hd, not_not.mp hf, h1, h2.symm⟩

/-- What a call that panicked leaves behind. -/
theorem recovered_bad {ord : MapOrder} {s s' : State G R} (h : recovered impl after ord s = some s') :
    s.done = false ∧ E s.round s'.round ∧ Bad impl s.round s.received ∧ Bad impl s'.round s'.received ∧
      ∃ r ids, s' = { s with round := r, received := leave after s.round ids s.received } := by
  obtain ⟨r, ids, hd, hf, hp, rfl⟩ := recovered_some h
  obtain ⟨h1, k, v, h2, h3⟩ := V.panicLoop_some hp
  have h2 := (ord.perm _ _).mem_iff.mp h2
  refine ⟨hd, h1, ⟨k, v, h2, V.samePanic (V.equiv.symm h1) h3⟩, ⟨k, if k ∈ ids then v.map (after s.round) else v, List.mem_map.mpr ⟨_, h2, rfl⟩, ?_⟩, r, ids, rfl⟩
  show impl.processMessage r _ = .panic
  split
  · exact V.erased h3
  · exact h3

/-- A session in which a call has panicked. -/
structure Stuck (impl : RoundImpl G R) (out : R → O) (n : Nat) (o : O) (s : State G R) : Prop where
  number : s.roundNumber = n
  output : out s.round = o
  failed : s.done = true → s.err ≠ none
  bad : s.done = false → Bad impl s.round s.received
  resets : s.done = false → s.closed = false ∧ ∃ x, impl.reset s.round = some x

theorem stuck_step {n : Nat} {o : O} {s s' : State G R} {op : State.Op G} {ret : Ret G} (hS : Stuck impl out n o s) (h : State.step impl s op = some (s', ret)) :
    Stuck impl out n o s' ∧ ∀ ms, ret = .messages ms → ms = [] := by
  rcases State.step_cases h with ⟨m, e, rfl, rfl, h1⟩ | ⟨ord, coins, ms, rfl, rfl, h1⟩ | ⟨dt, rfl, rfl, rfl⟩ |
    ⟨rfl, rfl, rfl | ⟨t, _, _, rfl⟩⟩ | ⟨rfl, rfl, ⟨_, rfl⟩ | ⟨_, _, rfl⟩ | ⟨r, _, hd, _, hr, rfl⟩⟩
  · refine ⟨?_, (nomatch ·, ·)⟩
    cases State.handle_cases impl h1 with
    | stored hd _ hk _ =>
      refine ⟨hS.number, hS.output, hS.failed, fun hd => ?_, hS.resets⟩
      obtain ⟨k, v, h2, h3⟩ := hS.bad hd
      exact ⟨k, v, by simp only [GoMap.set_of_not_mem _ hk]; exact List.mem_append_left _ h2, h3⟩
    | queued => exact ⟨hS.number, hS.output, hS.failed, hS.bad, hS.resets⟩
    | _ => exact hS
  · clear h
    cases h1 with
    | idle => exact ⟨hS, fun ms h => by cases h; rfl⟩
    | processErr e r r' hd hf hl hr hc =>
      refine ⟨⟨hS.number, ?_, fun _ => by simp, (nomatch ·), (nomatch ·)⟩, fun ms h => by cases h; rfl⟩
      obtain ⟨_, _, h2, _⟩ := V.loop_err (V.equiv.refl _) hl
      exact (V.resetIDs hr).2.2.trans ((V.ids h2).2.2.symm.trans hS.output)
    | generateErr e r₁ r r' hd hf hl | last t types r₁ r r' out hd hf hl | next t types r₁ r r' out hd hf hl =>
      obtain ⟨k, v, h2, h3⟩ := hS.bad hd
      exact absurd hl (V.loop_ne_ok ⟨k, v, (ord.perm _ _).mem_iff.mpr h2, h3⟩)
  · exact ⟨⟨hS.number, hS.output, hS.failed, hS.bad, hS.resets⟩, (nomatch ·, ·)⟩
  · exact ⟨hS, (nomatch ·, ·)⟩
  · exact ⟨⟨hS.number, hS.output, hS.failed, hS.bad, hS.resets⟩, (nomatch ·, ·)⟩
  · exact ⟨hS, (nomatch ·, ·)⟩
  · exact ⟨⟨hS.number, hS.output, hS.failed, hS.bad, hS.resets⟩, (nomatch ·, ·)⟩
  · exact ⟨⟨hS.number, (V.resetIDs hr).2.2.trans hS.output, fun _ => by simp, (nomatch ·), (nomatch ·)⟩, (nomatch ·, ·)⟩

theorem stuck_recovered {n : Nat} {o : O} {s s' : State G R} {ord : MapOrder} (hn : s.roundNumber = n) (ho : out s.round = o)
    (hr : s.closed = false ∧ ∃ x, impl.reset s.round = some x) (h : recovered impl after ord s = some s') : Stuck impl out n o s' := by
  obtain ⟨hd, h1, _, h2, r, ids, rfl⟩ := V.recovered_bad h
  refine ⟨hn, (V.ids h1).2.2.symm.trans ho, fun hd' => ?_, fun _ => h2, fun _ => ⟨hr.1, ?_⟩⟩
  · rw [show s.done = true from hd'] at hd; cases hd
  · obtain ⟨_, x, hx⟩ := hr
    exact V.reset h1 hx

/-- With a message stored that makes it panic, `ProcessAll` returns or panics in the loop. -/
theorem complete {s : State G R} (hb : Bad impl s.round s.received) (hr : s.closed = false ∧ ∃ x, impl.reset s.round = some x) (ord : MapOrder) (coins : Coins)
    (h : State.step impl s (.processAll ord coins) = none) : ∃ s', recovered impl after ord s = some s' := by
  have h : State.processAll impl ord coins s = none := by simpa [State.step] using h
  by_cases hd : s.done = true
  · unfold State.processAll at h; rw [if_pos hd] at h; cases h
  by_cases hf : Full impl s
  · unfold recovered
    rw [if_neg hd, if_neg (not_not_intro (show s.received.length = _ from hf))]
    have hd : s.done = false := by simpa using hd
    cases hl : processLoop impl (ord.order _ s.received) s.round with
    | panic =>
      obtain ⟨x, hx⟩ := panicLoop_of_panic hl
      exact ⟨_, by rw [hx]; rfl⟩
    | err x =>
      obtain ⟨e, r⟩ := x
      obtain ⟨_, _, h2, _⟩ := V.loop_err (V.equiv.refl _) hl
      obtain ⟨y, hy⟩ := V.reset h2 hr.2.choose_spec
      have := (State.processAll_iff impl (coins := coins)).mpr (.processErr e r y hd hf hl hy hr.1)
      rw [h] at this
      cases this
    | ok r =>
      obtain ⟨k, v, h2, h3⟩ := hb
      exact absurd hl (V.loop_ne_ok ⟨k, v, (ord.perm _ _).mem_iff.mpr h2, h3⟩)
  · have := (State.processAll_iff impl (ord := ord) (coins := coins)).mpr (.idle (.inr hf))
    rw [h] at this
    cases this

end Verdicts

/-- The calls that returned. -/
def calls (h : List (Event G)) : List (State.Op G × Ret G) := h.filterMap fun
  | .returned op ret => some (op, ret)
  | .panicked _ => none

theorem calls_append (h₁ h₂ : List (Event G)) : calls (h₁ ++ h₂) = calls h₁ ++ calls h₂ := List.filterMap_append

/-- How the round of a session whose caller recovers and that of the session without the calls that panicked are related. -/
structure Rel (impl : RoundImpl G R) (out : R → O) (E : R → R → Prop) (r : R) (t : State G R) : Prop where
  self : impl.selfID r = impl.selfID t.round
  ids : impl.partyIDs r = impl.partyIDs t.round
  output : out r = out t.round
  live : t.done = false → r = t.round ∨ E r t.round ∧ Bad impl r t.received

theorem handle_rel {t : State G R} {r : R} (h1 : impl.selfID r = impl.selfID t.round) (h2 : impl.partyIDs r = impl.partyIDs t.round) (m : Message G) :
    State.handleMessage impl { t with round := r } m = ({ (State.handleMessage impl t m).1 with round := r }, (State.handleMessage impl t m).2) := by
  obtain ⟨types, received, queue, timer, number, round, closed, done, err⟩ := t
  simp only at h1 h2
  unfold State.handleMessage State.wrapError
  simp only [h1, h2]
  cases types <;> simp only <;> split_ifs <;> rfl

theorem rel_step (V : Verdicts impl after out E) {t s' : State G R} {r : R} {op : State.Op G} {ret : Ret G} (hr : Rel impl out E r t)
    (h : State.step impl { t with round := r } op = some (s', ret)) :
    ∃ t' r', State.step impl t op = some (t', ret) ∧ s' = { t' with round := r' } ∧ Rel impl out E r' t' := by
  by_cases he : r = t.round
  · subst he
    exact ⟨s', s'.round, h, rfl, ⟨rfl, rfl, rfl, fun _ => .inl rfl⟩⟩
  have live : t.done = false → E r t.round ∧ Bad impl r t.received := fun hd => (hr.live hd).resolve_left he
  rcases State.step_cases h with ⟨m, e, rfl, rfl, h1⟩ | ⟨ord, coins, ms, rfl, rfl, h1⟩ | ⟨dt, rfl, rfl, rfl⟩ |
    ⟨rfl, rfl, rfl | ⟨u, h1, h2, rfl⟩⟩ | ⟨rfl, rfl, ⟨h1, rfl⟩ | ⟨h1, h2, rfl⟩ | ⟨x, h1, hd, hc, hx, rfl⟩⟩
  · rw [handle_rel hr.self hr.ids] at h1
    cases h1
    refine ⟨(State.handleMessage impl t m).1, r, rfl, rfl, ?_⟩
    generalize hx : State.handleMessage impl t m = x
    obtain ⟨t', e⟩ := x
    cases State.handle_cases impl hx with
    | stored hd _ hk _ =>
      refine ⟨hr.self, hr.ids, hr.output, fun hd => .inr ⟨(live hd).1, ?_⟩⟩
      obtain ⟨k, v, h2, h3⟩ := (live hd).2
      exact ⟨k, v, by simp only [GoMap.set_of_not_mem _ hk]; exact List.mem_append_left _ h2, h3⟩
    | queued => exact ⟨hr.self, hr.ids, hr.output, hr.live⟩
    | _ => exact hr
  · clear h
    generalize hs : ({ t with round := r } : State G R) = s at h1
    cases h1 with
    | idle hi =>
      subst hs
      refine ⟨t, r, ?_, rfl, hr⟩
      have : State.processAll impl ord coins t = some (t, []) := (State.processAll_iff impl).mpr (.idle (hi.imp_right fun h h' => h (by
        unfold Full at h' ⊢; simp only [hr.ids]; exact h')))
      simp [State.step, this]
    | processErr e x x' hd hf hl hx hc =>
      subst hs
      obtain ⟨y, h2, h3, h4⟩ := V.loop_err (live hd).1 hl
      obtain ⟨y', hy⟩ := V.reset (V.equiv.trans (V.equiv.symm h3) (V.equiv.trans (live hd).1 h4)) hx
      have hf' : Full impl t := by unfold Full at hf ⊢; simp only [hr.ids] at hf; exact hf
      have := (State.processAll_iff impl (coins := coins) (s := t)).mpr (.processErr e y y' hd hf' h2 hy hc)
      refine ⟨_, x', by simp only [State.step, this]; rfl, rfl, ?_, ?_, ?_, fun h => (by cases h)⟩
      · exact (V.resetIDs hx).1.trans ((V.ids h3).1.symm.trans (hr.self.trans ((V.ids h4).1.trans (V.resetIDs hy).1.symm)))
      · exact (V.resetIDs hx).2.1.trans ((V.ids h3).2.1.symm.trans (hr.ids.trans ((V.ids h4).2.1.trans (V.resetIDs hy).2.1.symm)))
      · exact (V.resetIDs hx).2.2.trans ((V.ids h3).2.2.symm.trans (hr.output.trans ((V.ids h4).2.2.trans (V.resetIDs hy).2.2.symm)))
    | generateErr e r₁ _ _ hd hf hl | last _ types r₁ _ _ out hd hf hl | next _ types r₁ _ _ out hd hf hl =>
      subst hs
      obtain ⟨k, v, h2, h3⟩ := (live hd).2
      exact absurd hl (V.loop_ne_ok ⟨k, v, (ord.perm _ _).mem_iff.mpr h2, h3⟩)
  · exact ⟨{ t with timer := { t.timer with now := t.timer.now + dt } }, r, rfl, rfl, hr.self, hr.ids, hr.output, hr.live⟩
  · refine ⟨t, r, ?_, rfl, hr⟩
    simp only [State.step] at h ⊢
    cases hdl : t.timer.deadline with
    | none => rfl
    | some u =>
      rw [hdl] at h
      simp only at h ⊢
      split at h
      · have := congrArg (fun x => x.1.timer.deadline) (Option.some.inj h)
        simp [hdl] at this
      · rename_i hle; rw [if_neg hle]
  · refine ⟨{ t with timer := { t.timer with deadline := none, fired := t.timer.fired + 1 } }, r, ?_, rfl, hr.self, hr.ids, hr.output, hr.live⟩
    simp only at h1 h2
    simp only [State.step, h1, if_pos h2]
  · exact ⟨t, r, by simp only at h1; simp [State.step, h1], rfl, hr⟩
  · simp only at h1 h2
    refine ⟨{ t with timer := { t.timer with fired := t.timer.fired - 1 } }, r, ?_, rfl, hr.self, hr.ids, hr.output, hr.live⟩
    simp [State.step, h1, State.timeoutCallback, State.reportError, h2]
  · simp only at h1 hd hc hx
    obtain ⟨y, hy⟩ := V.reset (live hd).1 hx
    have := State.reportError_ok impl (s := { t with timer := { t.timer with fired := t.timer.fired - 1 } }) (e := .new 0 .timeout) hd hy hc
    refine ⟨_, x, by simp only [State.step, if_neg h1, State.timeoutCallback, this]; rfl, rfl, ?_, ?_, ?_, fun h => (by cases h)⟩
    · exact (V.resetIDs hx).1.trans (hr.self.trans (V.resetIDs hy).1.symm)
    · exact (V.resetIDs hx).2.1.trans (hr.ids.trans (V.resetIDs hy).2.1.symm)
    · exact (V.resetIDs hx).2.2.trans (hr.output.trans (V.resetIDs hy).2.2.symm)

theorem leave_idle {r : R} {ids : List ID} {received : GoMap (Option (Message G))} (h : ∀ m, after r m = m) : leave after r ids received = received := by
  unfold leave
  conv_rhs => rw [← List.map_id received]
  refine List.map_congr_left fun e _ => ?_
  have : after r = id := funext h
  split
  · rw [this]; simp
  · rfl

/-- As long as no message was changed, it is as if the calls that panicked had not been made. -/
theorem hist_rel (V : Verdicts impl after out E) {s₀ s : State G R} {last : State G R → Prop}
    (hidle : ∀ {h s}, Hist impl after s₀ h s → s.done = false → ¬ last s → ∀ m, after s.round m = m)
    (hstep : ∀ {s op s' ret}, State.step impl s op = some (s', ret) → last s → last s')
    (hrec : ∀ {ord s s'}, recovered impl after ord s = some s' → last s → last s')
    {h : List (Event G)} (hh : Hist impl after s₀ h s) (hl : ¬ last s) :
    ∃ t r, s = { t with round := r } ∧ State.Hist impl s₀ (calls h) t ∧ Rel impl out E r t := by
  induction hh with
  | nil => exact ⟨s₀, s₀.round, rfl, .nil, rfl, rfl, rfl, fun _ => .inl rfl⟩
  | returned hh hs ih =>
    obtain ⟨t, r, rfl, ht, hr⟩ := ih fun h => hl (hstep hs h)
    obtain ⟨t', r', h1, h2, h3⟩ := rel_step V hr hs
    exact ⟨t', r', h2, by rw [calls_append]; exact ht.snoc h1, h3⟩
  | panicked hh hs ih =>
    have hl' : ¬ last _ := fun h => hl (hrec hs h)
    obtain ⟨t, r, rfl, ht, hr⟩ := ih hl'
    obtain ⟨hd, h1, _, h2, r', ids, rfl⟩ := V.recovered_bad hs
    have hsame := hidle hh hd hl'
    simp only at hd h1 h2 hsame
    rw [leave_idle hsame] at h2 ⊢
    refine ⟨t, r', rfl, by rw [calls_append]; simpa [calls] using ht, (V.ids h1).1.symm.trans hr.self, (V.ids h1).2.1.symm.trans hr.ids, (V.ids h1).2.2.symm.trans hr.output, fun _ => .inr ⟨?_, h2⟩⟩
    rcases hr.live hd with rfl | ⟨h3, _⟩
    · exact V.equiv.symm h1
    · exact V.equiv.trans (V.equiv.symm h1) h3

/-- After a call has panicked the session is stuck, in the round in which that happened for the first time. -/
theorem hist_stuck (V : Verdicts impl after out E) {s₀ s : State G R}
    (hfine : ∀ {h s}, State.Hist impl s₀ h s → s.done = false → Bad impl s.round s.received → s.closed = false ∧ ∃ x, impl.reset s.round = some x)
    {h : List (Event G)} (hh : Hist impl after s₀ h s) :
    ((∀ ord, .panicked ord ∉ h) → State.Hist impl s₀ (calls h) s) ∧ ∀ h₁ ord h₂, h = h₁ ++ .panicked ord :: h₂ →
      (∃ s₁ h' s₂, Hist impl after s₀ h₁ s₁ ∧ State.Hist impl s₀ h' s₂ ∧ s₂.done = false ∧ Bad impl s₂.round s₂.received ∧ s₂.roundNumber = s₁.roundNumber ∧
        Verdicts.Stuck impl out s₂.roundNumber (out s₂.round) s) ∧ ∀ op ms, .returned op (.messages ms) ∈ h₂ → ms = [] := by
  induction hh with
  | nil => exact ⟨fun _ => .nil, fun h₁ ord h₂ h => by simp at h⟩
  | @returned h s op ret s' hh hs ih =>
    refine ⟨fun hn => ?_, fun h₁ ord h₂ he => ?_⟩
    · rw [calls_append]
      exact (ih.1 fun ord hm => hn ord (List.mem_append_left _ hm)).snoc hs
    · rcases List.eq_nil_or_concat h₂ with rfl | ⟨h₂, x, rfl⟩
      · have := (List.append_inj' he rfl).2
        cases this
      · rw [List.concat_eq_append, ← List.cons_append, ← List.append_assoc] at he
        obtain ⟨he', hx⟩ := List.append_inj' he rfl
        cases hx
        obtain ⟨⟨s₁, h', s₂, g1, g2, g3, g4, g5, g6⟩, g7⟩ := ih.2 h₁ ord h₂ he'
        obtain ⟨k1, k2⟩ := V.stuck_step g6 hs
        refine ⟨⟨s₁, h', s₂, g1, g2, g3, g4, g5, k1⟩, fun op ms hm => ?_⟩
        rcases List.mem_append.mp (List.concat_eq_append ▸ hm) with hm | hm
        · exact g7 op ms hm
        · simp only [List.mem_singleton, Event.returned.injEq] at hm
          exact k2 ms hm.2.symm
  | @panicked h s ord s' hh hs ih =>
    refine ⟨fun hn => absurd (List.mem_append_right _ (List.mem_singleton.mpr rfl)) (hn ord), fun h₁ ord' h₂ he => ?_⟩
    rcases List.eq_nil_or_concat h₂ with rfl | ⟨h₂, x, rfl⟩
    · obtain ⟨rfl, _⟩ := List.append_inj' he rfl
      refine ⟨?_, fun _ _ h => by cases h⟩
      by_cases hp : ∀ ord, .panicked ord ∉ h
      · have ht := ih.1 hp
        obtain ⟨hd, _, hb, _⟩ := V.recovered_bad hs
        exact ⟨s, _, s, hh, ht, hd, hb, rfl, V.stuck_recovered rfl rfl (hfine ht hd hb) hs⟩
      · simp only [not_forall, not_not] at hp
        obtain ⟨o, hp⟩ := hp
        obtain ⟨a, b, rfl⟩ := List.append_of_mem hp
        obtain ⟨⟨s₁, h', s₂, g1, g2, g3, g4, g5, g6⟩, _⟩ := ih.2 a o b rfl
        exact ⟨s, h', s₂, hh, g2, g3, g4, g6.number.symm, V.stuck_recovered g6.number g6.output (g6.resets (V.recovered_bad hs).1) hs⟩
    · rw [List.concat_eq_append, ← List.cons_append, ← List.append_assoc] at he
      obtain ⟨he', hx⟩ := List.append_inj' he rfl
      cases hx
      obtain ⟨⟨s₁, h', s₂, g1, g2, g3, g4, g5, g6⟩, g7⟩ := ih.2 h₁ ord' h₂ he'
      refine ⟨⟨s₁, h', s₂, g1, g2, g3, g4, g5, V.stuck_recovered g6.number g6.output (g6.resets (V.recovered_bad hs).1) hs⟩, fun op ms hm => ?_⟩
      rcases List.mem_append.mp (List.concat_eq_append ▸ hm) with hm | hm
      · exact g7 op ms hm
      · simp at hm

/-- A call that panics in the loop does not return. -/
theorem loop_panic {l : List (ID × Option (Message G))} {r : R} {x : R × List ID} (h : panicLoop impl l r = some x) : processLoop impl l r = .panic := by
  induction l generalizing r x with
  | nil => cases h
  | cons a l ih =>
    obtain ⟨k, v⟩ := a
    unfold panicLoop at h
    unfold processLoop
    cases hv : impl.processMessage r v with
    | panic => rfl
    | err z => rw [hv] at h; cases h
    | ok r₁ =>
      rw [hv] at h
      obtain ⟨y, h1, _⟩ := Option.map_eq_some_iff.mp h
      exact ih h1

theorem step_of_panicLoop {s : State G R} {ord : MapOrder} {x : R × List ID} (hd : s.done = false) (hf : Full impl s)
    (h : panicLoop impl (ord.order _ s.received) s.round = some x) (coins : Coins) : State.step impl s (.processAll ord coins) = none := by
  have hl := loop_panic h
  cases hx : State.processAll impl ord coins s with
  | none => simp [State.step, hx]
  | some y =>
    obtain ⟨s', out⟩ := y
    exfalso
    cases (State.processAll_iff impl).mp hx with
    | idle hi =>
      rcases hi with hi | hi
      · rw [hd] at hi; cases hi
      · exact hi hf
    | processErr e r r' _ _ hl' => rw [hl] at hl'; cases hl'
    | generateErr e r₁ r r' _ _ hl' => rw [hl] at hl'; cases hl'
    | last t types r₁ r r' out _ _ hl' => rw [hl] at hl'; cases hl'
    | next t types r₁ r r' out _ _ hl' => rw [hl] at hl'; cases hl'

/-- No call goes back to an earlier round. -/
theorem step_roundNumber {s s' : State G R} {op : State.Op G} {ret : Ret G} (h : State.step impl s op = some (s', ret)) : s.roundNumber ≤ s'.roundNumber := by
  rcases State.step_cases h with ⟨m, e, rfl, rfl, h1⟩ | ⟨ord, coins, ms, rfl, rfl, h1⟩ | ⟨dt, rfl, rfl, rfl⟩ |
    ⟨rfl, rfl, rfl | ⟨t, _, _, rfl⟩⟩ | ⟨rfl, rfl, ⟨_, rfl⟩ | ⟨_, _, rfl⟩ | ⟨r, _, hd, _, hr, rfl⟩⟩
  · cases State.handle_cases impl h1 <;> exact le_rfl
  · clear h
    cases h1 <;> first | exact le_rfl | exact Nat.le_succ _
  all_goals exact le_rfl

end Verif.Recover
