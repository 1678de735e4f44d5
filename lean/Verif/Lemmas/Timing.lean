import Verif.Model.Timing
import Verif.Lemmas.StateHist

/-!
Sessions with a log of calls: forgetting the log gives the session without it, and every entry was made by a method of the round in a state of that session.
-/

namespace Verif.Timed

open State

variable {G : Type} [RGroup G] {ε α β : Type}

theorem bind_result (x : Timed G ε α) (f : α → Timed G ε β) : (x >>= f).result = x.result >>= fun a => (f a).result := by
  show (andThen x f).result = _
  unfold andThen
  cases x.result <;> rfl

theorem pure_result (a : α) : (pure a : Timed G ε α).result = .ok a := rfl

theorem of_result (x : Outcome ε α) : (of x : Timed G ε α).result = x := rfl

theorem of_log (x : Outcome ε α) : (of x : Timed G ε α).log = [] := rfl

theorem pure_log (a : α) : (pure a : Timed G ε α).log = [] := rfl

/-- An entry of the log was made by the first statement, or by the second if that was reached. -/
theorem mem_bind_log {x : Timed G ε α} {f : α → Timed G ε β} {c : VarTime G} :
    c ∈ (x >>= f).log ↔ c ∈ x.log ∨ ∃ a, x.result = .ok a ∧ c ∈ (f a).log := by
  show c ∈ (andThen x f).log ↔ _
  unfold andThen
  cases x.result with
  | ok a => simp
  | err e => simp
  | panic => simp

theorem multi_result (s : List Scalar) (p : List G) : (multi s p).result = Exponent.multiScalarMult s p := by
  unfold multi Exponent.multiScalarMult
  split <;> rfl

theorem mem_multi_log {s : List Scalar} {p : List G} {c : VarTime G} (h : c ∈ (multi s p).log) : c = .multi s p := by
  unfold multi at h
  split at h
  · cases h
  · exact List.mem_singleton.mp h

theorem lift_log {R : Type} (r : R) (x : Timed G GoErr α) : (lift r x).log = x.log := by
  unfold lift
  cases x.result <;> rfl

theorem mem_double_log {a : Scalar} {A : G} {b : Scalar} {c : VarTime G} : c ∈ (double a A b : Timed G ε G).log ↔ c = .double a A b := List.mem_singleton

section Session

variable {R : Type} {pl : RoundImpl G R} {p : R → Option (Message G) → Timed G (StateErr × R) R}
  {g : MapOrder → Coins → R → Timed G (StateErr × R) (R × List (Message G))}

/-- The session without the log. -/
def erase (s : State G (R × List (VarTime G))) : State G R :=
  ⟨s.acceptedTypes, s.received, s.queue, s.timer, s.roundNumber, s.round.1, s.closed, s.done, s.err⟩

theorem erase_new (r : R) (l : List (VarTime G)) (timeout now : Nat) :
    erase (newBaseState (Timed.impl pl p g) (r, l) timeout now) = newBaseState pl r timeout now := rfl

theorem processLoop_erase (hp : ∀ r m, (p r m).result = pl.processMessage r m) (l : List (ID × Option (Message G))) (r : R × List (VarTime G)) :
    processLoop pl l r.1 = match processLoop (Timed.impl pl p g) l r with
      | .ok r' => .ok r'.1
      | .err (e, r') => .err (e, r'.1)
      | .panic => .panic := by
  induction l generalizing r with
  | nil => rfl
  | cons a l ih =>
    obtain ⟨k, m⟩ := a
    unfold processLoop
    have hx : (Timed.impl pl p g).processMessage r m = keep r.2 (p r.1 m) := rfl
    rw [← hp, hx]
    unfold keep
    cases hr : (p r.1 m).result with
    | ok r' => exact ih (r', _)
    | err x => rfl
    | panic => rfl

theorem finish_erase (s : State G (R × List (VarTime G))) : State.finish pl (erase s) = (State.finish (Timed.impl pl p g) s).map erase := by
  unfold State.finish
  have hx : (Timed.impl pl p g).reset s.round = (pl.reset s.round.1).map fun r' => (r', s.round.2) := rfl
  rw [hx]
  by_cases hd : s.done = true
  · rw [if_pos hd, if_pos (show (erase s).done = true from hd)]
    rfl
  · rw [if_neg hd, if_neg (show ¬ (erase s).done = true from hd)]
    show (pl.reset s.round.1).bind _ = _
    cases pl.reset s.round.1 with
    | none => rfl
    | some r =>
      show (if s.closed = true then none else _) = Option.map erase (if s.closed = true then none else _)
      by_cases hc : s.closed = true
      · rw [if_pos hc, if_pos hc]; rfl
      · rw [if_neg hc, if_neg hc]; rfl

theorem reportError_erase (s : State G (R × List (VarTime G))) (e : StateErr) :
    State.reportError pl (erase s) e = (State.reportError (Timed.impl pl p g) s e).map erase := by
  unfold State.reportError
  by_cases hd : s.done = true
  · rw [if_pos hd, if_pos (show (erase s).done = true from hd)]
    rfl
  · rw [if_neg hd, if_neg (show ¬ (erase s).done = true from hd)]
    simp only []
    cases he : s.err with
    | none =>
      have : (erase s).err = none := he
      rw [this]
      exact finish_erase { s with err := some { e with roundNumber := s.roundNumber } }
    | some x =>
      have : (erase s).err = some x := he
      rw [this]
      exact finish_erase s

theorem handle_erase (s : State G (R × List (VarTime G))) (m : Message G) :
    handleMessage pl (erase s) m = (erase (handleMessage (Timed.impl pl p g) s m).1, (handleMessage (Timed.impl pl p g) s m).2) := by
  have e1 : ∀ r : R × List (VarTime G), (Timed.impl pl p g).selfID r = pl.selfID r.1 := fun _ => rfl
  have e2 : ∀ r : R × List (VarTime G), (Timed.impl pl p g).partyIDs r = pl.partyIDs r.1 := fun _ => rfl
  obtain ⟨acc, rec, q, tm, n, ⟨r, l⟩, cl, done, err⟩ := s
  simp only [erase]
  cases done with
  | true => rfl
  | false =>
    cases acc with
    | nil => rfl
    | cons t ts =>
      unfold handleMessage wrapError
      simp only [e1, e2, Bool.false_eq_true, if_false]
      by_cases h1 : m.header.fromID = pl.selfID r
      · simp only [if_pos h1]
      simp only [if_neg h1]
      by_cases h2 : m.header.isBroadcast = false ∧ m.header.toID ≠ pl.selfID r
      · simp only [if_pos h2]
      simp only [if_neg h2]
      by_cases h3 : IDSlice.contains (pl.partyIDs r) m.header.fromID = false
      · simp only [if_pos h3]
      simp only [if_neg h3]
      by_cases h4 : GoMap.has rec m.header.fromID = true
      · simp only [if_pos h4]
      simp only [if_neg h4]
      by_cases h5 : isAcceptedType (t :: ts) m.header.type = false
      · simp only [if_pos h5]
      simp only [if_neg h5]
      by_cases h6 : m.header.type = t
      · simp only [if_pos h6]
      · simp only [if_neg h6]

theorem processAll_erase (hp : ∀ r m, (p r m).result = pl.processMessage r m) (hg : ∀ ord coins r, (g ord coins r).result = pl.generateMessages ord coins r)
    (ord : MapOrder) (coins : Coins) (s : State G (R × List (VarTime G))) :
    State.processAll pl ord coins (erase s) = (State.processAll (Timed.impl pl p g) ord coins s).map fun x => (erase x.1, x.2) := by
  unfold State.processAll
  have e2 : (Timed.impl pl p g).partyIDs s.round = pl.partyIDs s.round.1 := rfl
  rw [e2]
  by_cases hd : s.done = true
  · rw [if_pos hd, if_pos (show (erase s).done = true from hd)]
    rfl
  rw [if_neg hd, if_neg (show ¬ (erase s).done = true from hd)]
  by_cases hf : s.received.length ≠ (IDSlice.N (pl.partyIDs s.round.1) - 1).toNat
  · rw [if_pos hf, if_pos (show (erase s).received.length ≠ (IDSlice.N (pl.partyIDs (erase s).round) - 1).toNat from hf)]
    rfl
  rw [if_neg hf, if_neg (show ¬ (erase s).received.length ≠ (IDSlice.N (pl.partyIDs (erase s).round) - 1).toNat from hf)]
  have hl := processLoop_erase (g := g) hp (ord.order _ s.received) s.round
  have hl' : processLoop pl (ord.order _ (erase s).received) (erase s).round = _ := hl
  rw [hl']
  cases hpl : processLoop (Timed.impl pl p g) (ord.order _ s.received) s.round with
  | panic => rfl
  | err x =>
    obtain ⟨e, r⟩ := x
    simp only []
    have h1 := reportError_erase (pl := pl) (p := p) (g := g) { s with round := r } e
    have h1' : State.reportError pl { (erase s) with round := r.1 } e = _ := h1
    rw [h1']
    cases State.reportError (Timed.impl pl p g) { s with round := r } e <;> rfl
  | ok r =>
    simp only []
    have hx : (Timed.impl pl p g).generateMessages ord coins r = keepOut r.2 (g ord coins r.1) := rfl
    rw [← hg, hx]
    unfold keepOut
    cases hr : (g ord coins r.1).result with
    | panic => rfl
    | err x =>
      obtain ⟨e, r'⟩ := x
      simp only []
      have h1 := reportError_erase (pl := pl) (p := p) (g := g) { s with received := [], round := (r', r.2 ++ (g ord coins r.1).log) } e
      have h1' : State.reportError pl { (erase s) with received := [], round := r' } e = _ := h1
      rw [h1']
      cases State.reportError (Timed.impl pl p g) { s with received := [], round := (r', r.2 ++ (g ord coins r.1).log) } e <;> rfl
    | ok x =>
      obtain ⟨r', out⟩ := x
      simp only []
      have ht : (erase s).acceptedTypes = s.acceptedTypes := rfl
      rw [ht]
      cases s.acceptedTypes with
      | nil => rfl
      | cons t types =>
        simp only []
        cases types with
        | nil =>
          simp only []
          have hn : (Timed.impl pl p g).nextRound (r', r.2 ++ (g ord coins r.1).log) = (pl.nextRound r').map fun r'' => (r'', r.2 ++ (g ord coins r.1).log) := rfl
          rw [hn]
          cases pl.nextRound r' with
          | none =>
            have h1 := finish_erase (pl := pl) (p := p) (g := g) { s with received := [], acceptedTypes := [], round := (r', r.2 ++ (g ord coins r.1).log) }
            have h1' : State.finish pl { (erase s) with received := [], acceptedTypes := [], round := r' } = _ := h1
            simp only [Option.map_none]
            rw [h1']
            cases State.finish (Timed.impl pl p g) { s with received := [], acceptedTypes := [], round := (r', r.2 ++ (g ord coins r.1).log) } <;> rfl
          | some n => rfl
        | cons t' ts =>
          simp only []
          have hq : (erase s).queue = s.queue := rfl
          rw [hq]
          generalize dequeueLoop t' s.queue [] [] = dq
          obtain ⟨rec, qu⟩ := dq
          simp only []
          have hn : (Timed.impl pl p g).nextRound (r', r.2 ++ (g ord coins r.1).log) = (pl.nextRound r').map fun r'' => (r'', r.2 ++ (g ord coins r.1).log) := rfl
          rw [hn]
          cases pl.nextRound r' with
          | none =>
            have h1 := finish_erase (pl := pl) (p := p) (g := g) { s with received := rec, queue := qu, acceptedTypes := t' :: ts, round := (r', r.2 ++ (g ord coins r.1).log) }
            have h1' : State.finish pl { (erase s) with received := rec, queue := qu, acceptedTypes := t' :: ts, round := r' } = _ := h1
            simp only [Option.map_none]
            rw [h1']
            cases State.finish (Timed.impl pl p g) { s with received := rec, queue := qu, acceptedTypes := t' :: ts, round := (r', r.2 ++ (g ord coins r.1).log) } <;> rfl
          | some n => rfl

/-- Forgetting the log, a step is a step of the session without it, and the other way round. -/
theorem step_erase (hp : ∀ r m, (p r m).result = pl.processMessage r m) (hg : ∀ ord coins r, (g ord coins r).result = pl.generateMessages ord coins r)
    (s : State G (R × List (VarTime G))) (op : Op G) :
    State.step pl (erase s) op = (State.step (Timed.impl pl p g) s op).map fun x => (erase x.1, x.2) := by
  cases op with
  | handle m =>
    simp only [State.step]
    rw [handle_erase (p := p) (g := g)]
    rfl
  | processAll ord coins =>
    show Option.map _ _ = Option.map _ (Option.map _ _)
    rw [processAll_erase hp hg]
    cases State.processAll (Timed.impl pl p g) ord coins s <;> rfl
  | advance dt => rfl
  | fire =>
    unfold State.step
    have : (erase s).timer = s.timer := rfl
    rw [this]
    cases s.timer.deadline with
    | none => rfl
    | some t =>
      simp only []
      by_cases h : t ≤ s.timer.now
      · rw [if_pos h, if_pos h]; rfl
      · rw [if_neg h, if_neg h]; rfl
  | callback =>
    unfold State.step
    have : (erase s).timer = s.timer := rfl
    rw [this]
    simp only []
    by_cases h : s.timer.fired = 0
    · rw [if_pos h, if_pos h]; rfl
    · rw [if_neg h, if_neg h]
      have h1 := reportError_erase (pl := pl) (p := p) (g := g) { s with timer := { s.timer with fired := s.timer.fired - 1 } } (.new 0 .timeout)
      have h1' : timeoutCallback pl (erase s) = _ := h1
      rw [h1']
      show _ = Option.map _ (Option.map _ (timeoutCallback (Timed.impl pl p g) s))
      show Option.map _ (Option.map erase (timeoutCallback (Timed.impl pl p g) s)) = _
      cases timeoutCallback (Timed.impl pl p g) s <;> rfl

theorem hist_erase (hp : ∀ r m, (p r m).result = pl.processMessage r m) (hg : ∀ ord coins r, (g ord coins r).result = pl.generateMessages ord coins r)
    {s₀ s : State G (R × List (VarTime G))} {h : List (Op G × Ret G)} (hh : Hist (Timed.impl pl p g) s₀ h s) : Hist pl (erase s₀) h (erase s) := by
  induction hh with
  | nil => exact .nil
  | snoc _ hs ih =>
    refine .snoc ih ?_
    rw [step_erase hp hg, hs]
    rfl

/-- Every history of the session without the log is one of the session with it. -/
theorem hist_log (hp : ∀ r m, (p r m).result = pl.processMessage r m) (hg : ∀ ord coins r, (g ord coins r).result = pl.generateMessages ord coins r)
    {s₀ : State G (R × List (VarTime G))} {s : State G R} {h : List (Op G × Ret G)} (hh : Hist pl (erase s₀) h s) :
    ∃ s', Hist (Timed.impl pl p g) s₀ h s' ∧ erase s' = s := by
  induction hh with
  | nil => exact ⟨s₀, .nil, rfl⟩
  | @snoc h s₁ s₂ op ret _ hs ih =>
    obtain ⟨s', h1, h2⟩ := ih
    rw [← h2, step_erase (p := p) (g := g) hp hg] at hs
    obtain ⟨⟨s'', ret'⟩, h3, h4⟩ := Option.map_eq_some_iff.mp hs
    cases h4
    exact ⟨s'', .snoc h1 h3, rfl⟩

theorem processLoop_log (hp : ∀ r m, (p r m).result = pl.processMessage r m) {l : List (ID × Option (Message G))} {r : R × List (VarTime G)} {c : VarTime G} :
    (∀ r', processLoop (Timed.impl pl p g) l r = .ok r' → c ∈ r'.2 → c ∈ r.2 ∨
      ∃ l₁ l₂ k m r₁, l = l₁ ++ (k, m) :: l₂ ∧ Spec.Fed pl.processMessage r.1 (l₁.map Prod.snd) r₁ ∧ c ∈ (p r₁ m).log) ∧
    (∀ e r', processLoop (Timed.impl pl p g) l r = .err (e, r') → c ∈ r'.2 → c ∈ r.2 ∨
      ∃ l₁ l₂ k m r₁, l = l₁ ++ (k, m) :: l₂ ∧ Spec.Fed pl.processMessage r.1 (l₁.map Prod.snd) r₁ ∧ c ∈ (p r₁ m).log) := by
  induction l generalizing r with
  | nil => exact ⟨fun r' h hc => by cases h; exact Or.inl hc, fun e r' h => by cases h⟩
  | cons a l ih =>
    obtain ⟨k, m⟩ := a
    have hx : (Timed.impl pl p g).processMessage r m = keep r.2 (p r.1 m) := rfl
    unfold processLoop
    rw [hx]
    unfold keep
    cases hr : (p r.1 m).result with
    | panic => exact ⟨fun r' h => (by cases h), fun e r' h => (by cases h)⟩
    | err x =>
      obtain ⟨e, r₁⟩ := x
      refine ⟨fun r' h => (by cases h), fun e r' h hc => ?_⟩
      cases h
      rcases List.mem_append.mp hc with hc | hc
      · exact Or.inl hc
      · exact Or.inr ⟨[], l, k, m, r.1, rfl, .nil _, hc⟩
    | ok r₁ =>
      simp only []
      have hok : pl.processMessage r.1 m = .ok r₁ := by rw [← hp, hr]
      have later : (c ∈ r.2 ++ (p r.1 m).log ∨ ∃ l₁ l₂ k m r₂, l = l₁ ++ (k, m) :: l₂ ∧ Spec.Fed pl.processMessage r₁ (l₁.map Prod.snd) r₂ ∧ c ∈ (p r₂ m).log) →
          c ∈ r.2 ∨ ∃ l₁ l₂ k' m' r₂, (k, m) :: l = l₁ ++ (k', m') :: l₂ ∧ Spec.Fed pl.processMessage r.1 (l₁.map Prod.snd) r₂ ∧ c ∈ (p r₂ m').log := by
        rintro (hc | ⟨l₁, l₂, k', m', r₂, h1, h2, h3⟩)
        · rcases List.mem_append.mp hc with hc | hc
          · exact Or.inl hc
          · exact Or.inr ⟨[], l, k, m, r.1, rfl, .nil _, hc⟩
        · exact Or.inr ⟨(k, m) :: l₁, l₂, k', m', r₂, by rw [h1]; rfl, .cons hok h2, h3⟩
      obtain ⟨ih1, ih2⟩ := ih (r := (r₁, r.2 ++ (p r.1 m).log))
      exact ⟨fun r' h hc => later (ih1 r' h hc), fun e r' h hc => later (ih2 e r' h hc)⟩

/-- Where an entry of the log comes from: a call of `ProcessAll` in some earlier state `s₁`, in which messages were processed up to the one for which the
call was made, or all of them and the new messages generated. -/
inductive Origin (pl : RoundImpl G R) (p : R → Option (Message G) → Timed G (StateErr × R) R)
    (g : MapOrder → Coins → R → Timed G (StateErr × R) (R × List (Message G))) (s₁ : State G R) (ord : MapOrder) (c : VarTime G) : Prop
  | process (l₁ l₂ : List (ID × Option (Message G))) (k : ID) (m : Option (Message G)) (r : R) (hl : ord.order _ s₁.received = l₁ ++ (k, m) :: l₂)
      (hfed : Spec.Fed pl.processMessage s₁.round (l₁.map Prod.snd) r) (hc : c ∈ (p r m).log) : Origin pl p g s₁ ord c
  | generate (coins : Coins) (r : R) (hl : processLoop pl (ord.order _ s₁.received) s₁.round = .ok r) (hc : c ∈ (g ord coins r).log) : Origin pl p g s₁ ord c

theorem origin (hp : ∀ r m, (p r m).result = pl.processMessage r m) (hg : ∀ ord coins r, (g ord coins r).result = pl.generateMessages ord coins r)
    {s₀ s : State G (R × List (VarTime G))} {h : List (Op G × Ret G)} (hh : Hist (Timed.impl pl p g) s₀ h s) (h0 : s₀.round.2 = []) (c : VarTime G)
    (hc : c ∈ s.round.2) :
    ∃ h₁ h₂ s₁ ord, h = h₁ ++ h₂ ∧ Hist pl (erase s₀) h₁ s₁ ∧ s₁.done = false ∧ Full pl s₁ ∧ Origin pl p g s₁ ord c := by
  induction hh with
  | nil => rw [h0] at hc; cases hc
  | @snoc h s₁ s₂ op ret h1 hs ih =>
    have old : c ∈ s₁.round.2 → ∃ h₁ h₂ s₁ ord, h ++ [(op, ret)] = h₁ ++ h₂ ∧ Hist pl (erase s₀) h₁ s₁ ∧ s₁.done = false ∧ Full pl s₁ ∧ Origin pl p g s₁ ord c := by
      intro hc
      obtain ⟨h₁, h₂, s', ord, e1, e2⟩ := ih hc
      exact ⟨h₁, h₂ ++ [(op, ret)], s', ord, by rw [e1, List.append_assoc], e2⟩
    have reset_log : ∀ {r r' : R × List (VarTime G)}, (Timed.impl pl p g).reset r = some r' → r'.2 = r.2 := by
      intro r r' h
      obtain ⟨x, _, rfl⟩ := Option.map_eq_some_iff.mp h
      rfl
    rcases step_cases hs with ⟨m, e', rfl, rfl, h2⟩ | ⟨ord, coins, out, rfl, rfl, h2⟩ | ⟨dt, rfl, rfl, rfl⟩ |
      ⟨rfl, rfl, rfl | ⟨t, _, _, rfl⟩⟩ | ⟨rfl, rfl, ⟨_, rfl⟩ | ⟨_, _, rfl⟩ | ⟨r, hf, hd, _, hr, rfl⟩⟩
    · refine old ?_
      cases handle_cases _ h2 <;> exact hc
    · have made : s₁.done = false → Full (Timed.impl pl p g) s₁ → Origin pl p g (erase s₁) ord c → ∃ h₁ h₂ s₁ ord', h ++ [(Op.processAll ord coins, Ret.messages out)] = h₁ ++ h₂ ∧
          Hist pl (erase s₀) h₁ s₁ ∧ s₁.done = false ∧ Full pl s₁ ∧ Origin pl p g s₁ ord' c := fun hd hf ho =>
        ⟨h, [_], erase s₁, ord, rfl, hist_erase hp hg h1, hd, hf, ho⟩
      have loop : s₁.done = false → Full (Timed.impl pl p g) s₁ → (c ∈ s₁.round.2 ∨ ∃ l₁ l₂ k m r₁, ord.order _ s₁.received = l₁ ++ (k, m) :: l₂ ∧
          Spec.Fed pl.processMessage s₁.round.1 (l₁.map Prod.snd) r₁ ∧ c ∈ (p r₁ m).log) → ∃ h₁ h₂ s₁ ord', h ++ [(Op.processAll ord coins, Ret.messages out)] = h₁ ++ h₂ ∧
          Hist pl (erase s₀) h₁ s₁ ∧ s₁.done = false ∧ Full pl s₁ ∧ Origin pl p g s₁ ord' c := by
        intro hd hf hx
        rcases hx with hx | ⟨l₁, l₂, k, m, r₁, a1, a2, a3⟩
        · exact old hx
        · exact made hd hf (.process l₁ l₂ k m r₁ a1 a2 a3)
      have gen : s₁.done = false → Full (Timed.impl pl p g) s₁ → ∀ r₁, processLoop (Timed.impl pl p g) (ord.order _ s₁.received) s₁.round = .ok r₁ →
          c ∈ r₁.2 ++ (g ord coins r₁.1).log → ∃ h₁ h₂ s₁ ord', h ++ [(Op.processAll ord coins, Ret.messages out)] = h₁ ++ h₂ ∧
          Hist pl (erase s₀) h₁ s₁ ∧ s₁.done = false ∧ Full pl s₁ ∧ Origin pl p g s₁ ord' c := by
        intro hd hf r₁ hpl hc
        rcases List.mem_append.mp hc with hc | hc
        · exact loop hd hf ((processLoop_log hp).1 r₁ hpl hc)
        · refine made hd hf (.generate coins r₁.1 ?_ hc)
          have := processLoop_erase (g := g) hp (ord.order _ s₁.received) s₁.round
          rw [hpl] at this
          exact this
      have genOk : ∀ {r₁ r : R × List (VarTime G)} {o}, (Timed.impl pl p g).generateMessages ord coins r₁ = .ok (r, o) → r.2 = r₁.2 ++ (g ord coins r₁.1).log := by
        intro r₁ r o hgen
        have hgen : keepOut r₁.2 (g ord coins r₁.1) = .ok (r, o) := hgen
        unfold keepOut at hgen
        split at hgen
        · cases hgen; rfl
        · cases hgen
        · cases hgen
      have genErr : ∀ {r₁ r : R × List (VarTime G)} {e}, (Timed.impl pl p g).generateMessages ord coins r₁ = .err (e, r) → r.2 = r₁.2 ++ (g ord coins r₁.1).log := by
        intro r₁ r o hgen
        have hgen : keepOut r₁.2 (g ord coins r₁.1) = .err (o, r) := hgen
        unfold keepOut at hgen
        split at hgen
        · cases hgen
        · cases hgen; rfl
        · cases hgen
      cases h2 with
      | idle => exact old hc
      | processErr e' r r' hd hf hpl hr hcl =>
        have hc : c ∈ r'.2 := hc
        rw [reset_log hr] at hc
        exact loop hd hf ((processLoop_log hp).2 _ _ hpl hc)
      | generateErr e' r₁ r r' hd hf hpl hgen hr hcl =>
        have hc : c ∈ r'.2 := hc
        rw [reset_log hr, genErr hgen] at hc
        exact gen hd hf r₁ hpl hc
      | last t types r₁ r r' _ hd hf hpl hgen ht hn hr =>
        have hc : c ∈ r'.2 := hc
        rw [reset_log hr, genOk hgen] at hc
        exact gen hd hf r₁ hpl hc
      | next t types r₁ r r' _ hd hf hpl hgen ht hn =>
        have hc : c ∈ r'.2 := hc
        obtain ⟨x, _, rfl⟩ := Option.map_eq_some_iff.mp (show Option.map _ (pl.nextRound r.1) = some r' from hn)
        have hc : c ∈ r.2 := hc
        rw [genOk hgen] at hc
        exact gen hd hf r₁ hpl hc
    · exact old hc
    · exact old hc
    · exact old hc
    · exact old hc
    · exact old hc
    · refine old ?_
      have hc : c ∈ r.2 := hc
      rwa [reset_log hr] at hc

end Session

end Verif.Timed
