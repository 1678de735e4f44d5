import Verif.Model.State

/-!
Two sessions that run in parallel: one with the code of the protocol, one with code that imitates it.
-/

namespace Verif

open State

/-- Two results of the same kind with related contents. -/
inductive Outcome.Rel {ε ε' α α' : Type} (E : ε → ε' → Prop) (A : α → α' → Prop) : Outcome ε α → Outcome ε' α' → Prop
  | ok {a a'} : A a a' → Rel E A (.ok a) (.ok a')
  | err {e e'} : E e e' → Rel E A (.err e) (.err e')
  | panic : Rel E A .panic .panic

theorem Outcome.Rel.imp {ε ε' α α' : Type} {E E' : ε → ε' → Prop} {A A' : α → α' → Prop} {x : Outcome ε α} {y : Outcome ε' α'}
    (h : Outcome.Rel E A x y) (hE : ∀ e e', E e e' → E' e e') (hA : ∀ a a', A a a' → A' a a') : Outcome.Rel E' A' x y := by
  cases h with
  | ok h => exact .ok (hA _ _ h)
  | err h => exact .err (hE _ _ h)
  | panic => exact .panic

namespace State

variable {G R : Type} {impl impl' : RoundImpl G R}

/-- What is asked of two implementations of the rounds: `Rel` before, `Gen` after the messages of a round are made, `End` at the end;
the messages of the second are those of the first that satisfy `vis`. -/
structure Imitates (impl impl' : RoundImpl G R) (Rel Gen End : R → R → Prop) (coins : Coins) (vis : Message G → Bool) : Prop where
  self : ∀ {r r'}, Rel r r' → impl'.selfID r' = impl.selfID r
  ids : ∀ {r r'}, Rel r r' → impl'.partyIDs r' = impl.partyIDs r
  selfE : ∀ {r r'}, End r r' → impl'.selfID r' = impl.selfID r
  process : ∀ {r r'} m, Rel r r' → Outcome.Rel (fun p p' => p'.1 = p.1 ∧ Rel p.2 p'.2) Rel (impl.processMessage r m) (impl'.processMessage r' m)
  generate : ∀ {r r'} ord, Rel r r' → Outcome.Rel (fun p p' => p'.1 = p.1 ∧ Rel p.2 p'.2) (fun p p' => Gen p.1 p'.1 ∧ p'.2 = p.2.filter vis)
    (impl.generateMessages ord coins r) (impl'.generateMessages ord coins r')
  next : ∀ {r r'}, Gen r r' → Option.Rel Rel (impl.nextRound r) (impl'.nextRound r')
  reset : ∀ {r r'}, Rel r r' → Option.Rel End (impl.reset r) (impl'.reset r')
  resetG : ∀ {r r'}, Gen r r' → Option.Rel End (impl.reset r) (impl'.reset r')

/-- What is seen of the return value of a call. -/
def seen (vis : Message G → Bool) : Ret G → Ret G
  | .messages out => .messages (out.filter vis)
  | r => r

/-- The two sessions differ in the round objects only. -/
structure Mirror (Rel End : R → R → Prop) (s s' : State G R) : Prop where
  eq : s' = { s with round := s'.round }
  running : s.done = false → Rel s.round s'.round
  ended : s.done = true → End s.round s'.round

variable {Rel Gen End : R → R → Prop} {coins : Coins} {vis : Message G → Bool}

theorem finish_mirror {Q : R → R → Prop} (hr : ∀ {r r'}, Q r r' → Option.Rel End (impl.reset r) (impl'.reset r')) {s : State G R} {r' : R}
    (hd : s.done = false) (h : Q s.round r') :
    Option.Rel (Mirror Rel End) (finish impl s) (finish impl' { s with round := r' }) := by
  simp only [finish, hd]
  have := hr h
  revert this
  generalize impl.reset s.round = a
  generalize impl'.reset r' = b
  intro hab
  cases hab with
  | none => exact .none
  | @some a b hab =>
    simp only [Option.bind_eq_bind, Option.bind_some]
    cases s.closed with
    | true => exact .none
    | false => exact .some ⟨rfl, by simp, fun _ => hab⟩

theorem reportError_mirror {Q : R → R → Prop} (hr : ∀ {r r'}, Q r r' → Option.Rel End (impl.reset r) (impl'.reset r')) {s : State G R} {r' : R}
    (e : StateErr) (hd : s.done = false) (h : Q s.round r') :
    Option.Rel (Mirror Rel End) (reportError impl s e) (reportError impl' { s with round := r' } e) := by
  have hd' : ¬ s.done = true := by simp [hd]
  unfold reportError
  rw [if_neg hd', if_neg hd']
  obtain ⟨_, _, _, _, _, _, _, _, err⟩ := s
  cases err with
  | none => exact finish_mirror (s := ⟨_, _, _, _, _, _, _, _, _⟩) hr hd h
  | some e' => exact finish_mirror (s := ⟨_, _, _, _, _, _, _, _, _⟩) hr hd h

theorem processLoop_mirror (H : Imitates impl impl' Rel Gen End coins vis) {l : List (ID × Option (Message G))} {r r' : R} (h : Rel r r') :
    Outcome.Rel (fun p p' => p'.1 = p.1 ∧ Rel p.2 p'.2) Rel (processLoop impl l r) (processLoop impl' l r') := by
  induction l generalizing r r' with
  | nil => exact .ok h
  | cons a l ih =>
    obtain ⟨k, m⟩ := a
    simp only [processLoop]
    have := H.process m h
    revert this
    generalize impl.processMessage r m = x
    generalize impl'.processMessage r' m = y
    intro hxy
    cases hxy with
    | ok h => exact ih h
    | err h => exact .err h
    | panic => exact .panic

theorem processAll_mirror (H : Imitates impl impl' Rel Gen End coins vis) {s s' : State G R} (h : Mirror Rel End s s') (ord : MapOrder) :
    Option.Rel (fun p p' => Mirror Rel End p.1 p'.1 ∧ p'.2 = p.2.filter vis) (processAll impl ord coins s) (processAll impl' ord coins s') := by
  obtain ⟨r', rfl⟩ : ∃ r', s' = { s with round := r' } := ⟨_, h.eq⟩
  have hrun := h.running
  have hend := h.ended
  clear h
  by_cases hd : s.done = true
  · unfold processAll
    rw [if_pos hd, if_pos (show ({ s with round := r' } : State G R).done = true from hd)]
    exact .some ⟨⟨rfl, by simp [hd], fun _ => hend hd⟩, rfl⟩
  · have hR := hrun (by simpa using hd)
    have hdf : s.done = false := by simpa using hd
    unfold processAll
    rw [if_neg hd, if_neg (show ¬ ({ s with round := r' } : State G R).done = true from hd)]
    rw [show impl'.partyIDs ({ s with round := r' } : State G R).round = impl.partyIDs s.round from H.ids hR]
    by_cases hl : s.received.length ≠ (IDSlice.N (impl.partyIDs s.round) - 1).toNat
    · rw [if_pos hl, if_pos (show ({ s with round := r' } : State G R).received.length ≠ _ from hl)]
      exact .some ⟨⟨rfl, fun _ => hR, fun h => absurd h hd⟩, rfl⟩
    rw [if_neg hl, if_neg (show ¬ ({ s with round := r' } : State G R).received.length ≠ _ from hl)]
    clear hd hl
    · have hd := hdf
      have := processLoop_mirror H (l := ord.order _ s.received) hR
      revert this
      generalize processLoop impl (ord.order _ s.received) s.round = x
      generalize processLoop impl' (ord.order _ s.received) r' = y
      intro hxy
      cases hxy with
      | panic => exact .none
      | @err p p' h =>
        obtain ⟨e, r⟩ := p
        obtain ⟨e', q⟩ := p'
        obtain ⟨h1, h2⟩ := h
        cases h1
        have := reportError_mirror (Rel := Rel) H.reset (s := { s with round := r }) e hd h2
        revert this
        dsimp only
        generalize reportError impl { s with round := r } e = a
        generalize reportError impl' { s with round := q } e = b
        intro hab
        cases hab with
        | none => exact .none
        | some hab => exact .some ⟨hab, rfl⟩
      | @ok r q h =>
        dsimp only
        have := H.generate ord h
        revert this
        generalize impl.generateMessages ord coins r = x
        generalize impl'.generateMessages ord coins q = y
        intro hxy
        cases hxy with
        | panic => exact .none
        | @err p p' h =>
          obtain ⟨e, r⟩ := p
          obtain ⟨e', q⟩ := p'
          obtain ⟨h1, h2⟩ := h
          cases h1
          have := reportError_mirror (Rel := Rel) H.reset (s := { s with received := [], round := r }) e hd h2
          revert this
          dsimp only
          generalize reportError impl { s with received := [], round := r } e = a
          generalize reportError impl' { s with received := [], round := q } e = b
          intro hab
          cases hab with
          | none => exact .none
          | some hab => exact .some ⟨hab, rfl⟩
        | @ok p p' h =>
          obtain ⟨r, out⟩ := p
          obtain ⟨q, out'⟩ := p'
          obtain ⟨h1, h2⟩ := h
          dsimp only at h2
          subst h2
          cases hty : s.acceptedTypes with
          | nil => exact .none
          | cons ty types =>
            have key : ∀ t : State G R, t.done = false → t.round = r →
                Option.Rel (fun p p' => Mirror Rel End p.1 p'.1 ∧ p'.2 = p.2.filter vis)
                  (match impl.nextRound t.round with
                    | none => do let t ← finish impl t; some (t, out)
                    | some next => some ({ t with roundNumber := t.roundNumber + 1, round := next }, out))
                  (match impl'.nextRound q with
                    | none => do let t ← finish impl' { t with round := q }; some (t, out.filter vis)
                    | some next => some ({ t with roundNumber := t.roundNumber + 1, round := next }, out.filter vis)) := by
              rintro t ht rfl
              have hn := H.next h1
              have hf := finish_mirror (Rel := Rel) H.resetG ht h1
              revert hn hf
              generalize impl.nextRound t.round = a
              generalize impl'.nextRound q = b
              generalize finish impl t = c
              generalize finish impl' { t with round := q } = d
              intro hab hcd
              cases hab with
              | none =>
                cases hcd with
                | none => exact .none
                | some hcd => exact .some ⟨hcd, rfl⟩
              | some hab => exact .some ⟨⟨rfl, fun _ => hab, by simp [ht]⟩, rfl⟩
            cases types with
            | nil => exact key { s with received := [], round := r, acceptedTypes := [] } hd rfl
            | cons c types =>
              exact key { s with received := (dequeueLoop c s.queue [] []).1, queue := (dequeueLoop c s.queue [] []).2, round := r, acceptedTypes := c :: types } hd rfl

theorem handle_mirror (H : Imitates impl impl' Rel Gen End coins vis) {s s' : State G R} (h : Mirror Rel End s s') (m : Message G) :
    Mirror Rel End (handleMessage impl s m).1 (handleMessage impl' s' m).1 ∧ (handleMessage impl' s' m).2 = (handleMessage impl s m).2 := by
  obtain ⟨r', rfl⟩ : ∃ r', s' = { s with round := r' } := ⟨_, h.eq⟩
  obtain ⟨hrun, hend⟩ := And.intro h.running h.ended
  clear h
  obtain ⟨ty, rec, q, tm, rn, r, cl, dn, er⟩ := s
  have hal : ∀ rec q tm, Mirror Rel End (⟨ty, rec, q, tm, rn, r, cl, dn, er⟩ : State G R) ⟨ty, rec, q, tm, rn, r', cl, dn, er⟩ :=
    fun _ _ _ => ⟨rfl, hrun, hend⟩
  cases dn with
  | true => exact ⟨hal _ _ _, by simp only [handleMessage, if_true, wrapError, H.selfE (hend rfl)]⟩
  | false =>
    simp only [handleMessage, Bool.false_eq_true, if_false, H.self (hrun rfl), H.ids (hrun rfl), wrapError]
    cases ty with
    | nil => exact ⟨hal _ _ _, rfl⟩
    | cons ty types =>
      dsimp only
      split
      · exact ⟨hal _ _ _, rfl⟩
      split
      · exact ⟨hal _ _ _, rfl⟩
      split
      · exact ⟨hal _ _ _, rfl⟩
      split
      · exact ⟨hal _ _ _, rfl⟩
      split
      · exact ⟨hal _ _ _, rfl⟩
      split
      · exact ⟨hal _ _ _, rfl⟩
      · exact ⟨hal _ _ _, rfl⟩

theorem step_mirror (H : Imitates impl impl' Rel Gen End coins vis) {s s' : State G R} (h : Mirror Rel End s s') (op : Op G)
    (hop : ∀ ord c, op = .processAll ord c → c = coins) :
    Option.Rel (fun p p' => Mirror Rel End p.1 p'.1 ∧ p'.2 = seen vis p.2) (step impl s op) (step impl' s' op) := by
  have hal : ∀ tm, Mirror Rel End { s with timer := tm } { s' with timer := tm } := by
    intro tm
    refine ⟨?_, h.running, h.ended⟩
    have := h.eq
    generalize s'.round = r' at this ⊢
    subst this
    rfl
  have htm : s'.timer = s.timer := by rw [h.eq]
  cases op with
  | handle m =>
    obtain ⟨h1, h2⟩ := handle_mirror H h m
    have hs : ∀ (im : RoundImpl G R) (t : State G R), step im t (.handle m) = some ((handleMessage im t m).1, .handled (handleMessage im t m).2) :=
      fun _ _ => rfl
    rw [hs, hs, h2]
    exact .some ⟨h1, rfl⟩
  | processAll ord c =>
    obtain rfl := hop ord c rfl
    have := processAll_mirror H h ord
    simp only [step]
    revert this
    generalize processAll impl ord c s = a
    generalize processAll impl' ord c s' = b
    intro hab
    cases hab with
    | none => exact .none
    | @some p p' hab => exact .some ⟨hab.1, by simp [seen, hab.2]⟩
  | advance dt =>
    simp only [step, htm]
    exact .some ⟨hal _, rfl⟩
  | fire =>
    simp only [step, htm]
    cases s.timer.deadline with
    | none => exact .some ⟨h, rfl⟩
    | some t =>
      dsimp only
      split
      · exact .some ⟨hal _, rfl⟩
      · exact .some ⟨h, rfl⟩
  | callback =>
    simp only [step, htm]
    split
    · exact .some ⟨h, rfl⟩
    · simp only [timeoutCallback, htm]
      have h' := hal { s.timer with fired := s.timer.fired - 1 }
      have hs' : ({ s' with timer := { s.timer with fired := s.timer.fired - 1 } } : State G R) =
          { ({ s with timer := { s.timer with fired := s.timer.fired - 1 } } : State G R) with round := s'.round } := h'.eq
      rw [hs']
      by_cases hd : s.done = true
      · simp only [reportError]
        rw [if_pos hd, if_pos hd]
        exact .some ⟨⟨rfl, h.running, h.ended⟩, rfl⟩
      · have := reportError_mirror (Rel := Rel) H.reset (s := { s with timer := { s.timer with fired := s.timer.fired - 1 } }) (.new 0 .timeout)
          (by simpa using hd) (h.running (by simpa using hd))
        revert this
        generalize reportError impl _ _ = a
        generalize reportError impl' _ _ = b
        intro hab
        cases hab with
        | none => exact .none
        | some hab => exact .some ⟨hab, rfl⟩

/-- Every history of the one session is, with the invisible messages left out, one of the other. -/
theorem hist_mirror (H : Imitates impl impl' Rel Gen End coins vis) {s₀ s₀' : State G R} (h₀ : Mirror Rel End s₀ s₀') {h : List (Op G × Ret G)}
    {s : State G R} (hh : Hist impl s₀ h s) (hc : ∀ ord c r, (Op.processAll ord c, r) ∈ h → c = coins) :
    ∃ s', Hist impl' s₀' (h.map fun p => (p.1, seen vis p.2)) s' ∧ Mirror Rel End s s' := by
  induction hh with
  | nil => exact ⟨s₀', .nil, h₀⟩
  | @snoc h s₁ s₂ op ret hh hst ih =>
    obtain ⟨s', h1, h2⟩ := ih fun ord c r hm => hc ord c r (List.mem_append_left _ hm)
    have := step_mirror H h2 op (fun ord c he => hc ord c ret (he ▸ List.mem_append_right _ List.mem_cons_self))
    rw [hst] at this
    revert this
    generalize hb : step impl' s' op = b
    intro hab
    cases hab with
    | @some _ p' hab =>
      obtain ⟨h3, h4⟩ := hab
      refine ⟨p'.1, ?_, h3⟩
      rw [List.map_append]
      exact .snoc h1 (by rw [hb]; simp only [Option.some.injEq]; exact Prod.ext rfl h4)

/-- And conversely. -/
theorem hist_mirror_back (H : Imitates impl impl' Rel Gen End coins vis) {s₀ s₀' : State G R} (h₀ : Mirror Rel End s₀ s₀')
    {h' : List (Op G × Ret G)} {s' : State G R} (hh : Hist impl' s₀' h' s') (hc : ∀ ord c r, (Op.processAll ord c, r) ∈ h' → c = coins) :
    ∃ h s, Hist impl s₀ h s ∧ h' = h.map (fun p => (p.1, seen vis p.2)) ∧ Mirror Rel End s s' := by
  induction hh with
  | nil => exact ⟨[], s₀, .nil, rfl, h₀⟩
  | @snoc h' s₁ s₂ op ret hh hst ih =>
    obtain ⟨h, s, h1, rfl, h2⟩ := ih fun ord c r hm => hc ord c r (List.mem_append_left _ hm)
    have := step_mirror H h2 op (fun ord c he => hc ord c ret (he ▸ List.mem_append_right _ List.mem_cons_self))
    rw [hst] at this
    revert this
    generalize hb : step impl s op = b
    intro hab
    cases hab with
    | @some p _ hab =>
      obtain ⟨h3, h4⟩ := hab
      dsimp only at h4
      refine ⟨_, p.1, .snoc h1 hb, ?_, h3⟩
      rw [List.map_append, h4]
      rfl

end State

end Verif
