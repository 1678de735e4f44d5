import Verif.Model.Example
import Verif.Props.Demo

/-!
C73: a session driven as `example/main.go` does it never starts.
-/

namespace Verif.Props

open State Example

variable {G R : Type} {impl : RoundImpl G R}

/-- Nothing happened to the session but time. -/
def Waiting (s₀ s : State G R) : Prop := s = { s₀ with timer := s.timer }

theorem waiting_event {r₀ : R} {timeout now : Nat} {r r' : Routine G R} {e : Event G} (hw : Waiting (newBaseState impl r₀ timeout now) r.state)
    (hm : ∀ ord coins msg, e = .message ord coins msg → msg.header.fromID ≠ impl.selfID r₀ ∧ (msg.header.toID = 0 ∨ msg.header.toID = impl.selfID r₀))
    (h : event impl r e = some r') :
    r'.out = r.out ∧ (Waiting (newBaseState impl r₀ timeout now) r'.state ∨
      (∃ rr, impl.reset r₀ = some rr) ∧ r'.state.done = true ∧ r'.state.err = some ⟨0, 0, .timeout⟩) := by
  cases e with
  | message ord coins msg =>
    obtain ⟨h1, h2⟩ := hm ord coins msg rfl
    have key : ∃ err, handleMessage impl r.state msg = (r.state, some err) := by
      have e1 : r.state.round = r₀ := by rw [hw]; rfl
      have e2 : r.state.received = initReceived (impl.selfID r₀) (impl.partyIDs r₀) [] := by rw [hw]; rfl
      rcases hx : handleMessage impl r.state msg with ⟨s', e⟩
      cases handle_cases impl hx with
      | finished | noMore | notAParty | already | badType => exact ⟨_, rfl⟩
      | fromSelf _ h => exact absurd (e1 ▸ h) h1
      | notForUs _ _ h4 h5 => exact absurd h2 (not_or.mpr ⟨h4, e1 ▸ h5⟩)
      | stored hd hr hn | queued hd hr hn =>
        refine absurd ?_ hn
        rw [e2, mem_initReceived]
        rw [e1] at hr
        exact Or.inr ⟨IDSlice.contains_sound hr.2.2, hr.1⟩
    obtain ⟨err, key⟩ := key
    simp only [event, onMessage, key, Option.some.injEq] at h
    subst h
    exact ⟨rfl, Or.inl hw⟩
  | advance dt =>
    simp only [event, State.step, Option.map_some, Option.some.injEq] at h
    subst h
    refine ⟨rfl, Or.inl ?_⟩
    show _ = _
    rw [hw]
  | fire =>
    simp only [event, State.step] at h
    split at h
    · split at h
      · simp only [Option.map_some, Option.some.injEq] at h
        subst h
        refine ⟨rfl, Or.inl ?_⟩
        show _ = _
        rw [hw]
      · simp only [Option.map_some, Option.some.injEq] at h
        subst h
        exact ⟨rfl, Or.inl hw⟩
    · simp only [Option.map_some, Option.some.injEq] at h
      subst h
      exact ⟨rfl, Or.inl hw⟩
  | callback =>
    simp only [event, State.step] at h
    split at h
    · simp only [Option.map_some, Option.some.injEq] at h
      subst h
      exact ⟨rfl, Or.inl hw⟩
    · rw [hw] at h
      cases hr : impl.reset r₀ with
      | none => simp [timeoutCallback, reportError, finish, newBaseState, hr] at h
      | some rr =>
        simp [timeoutCallback, reportError, finish, newBaseState, hr, StateErr.new] at h
        subst h
        exact ⟨rfl, Or.inr ⟨⟨rr, rfl⟩, rfl, rfl⟩⟩

/-- Nothing happens to a session that has ended. -/
theorem over_event {r r' : Routine G R} {e : Event G} (hd : r.state.done = true) (h : event impl r e = some r') :
    r'.out = r.out ∧ r'.state.done = true ∧ r'.state.err = r.state.err := by
  cases e with
  | message ord coins msg =>
    simp only [event, onMessage, handleMessage, hd, if_true, Option.some.injEq] at h
    subst h
    exact ⟨rfl, hd, rfl⟩
  | advance dt =>
    simp only [event, State.step, Option.map_some, Option.some.injEq] at h
    subst h
    exact ⟨rfl, hd, rfl⟩
  | fire =>
    simp only [event, State.step] at h
    split at h
    · split at h
      all_goals
        simp only [Option.map_some, Option.some.injEq] at h
        subst h
        exact ⟨rfl, hd, rfl⟩
    · simp only [Option.map_some, Option.some.injEq] at h
      subst h
      exact ⟨rfl, hd, rfl⟩
  | callback =>
    simp only [event, State.step] at h
    split at h
    · simp only [Option.map_some, Option.some.injEq] at h
      subst h
      exact ⟨rfl, hd, rfl⟩
    · simp [timeoutCallback, reportError, hd] at h
      subst h
      exact ⟨rfl, rfl, rfl⟩

/-- What a session driven by `MessageRoutine` is like. -/
def Idle (impl : RoundImpl G R) (r₀ : R) (timeout now : Nat) (r : Routine G R) : Prop :=
  r.out = [] ∧ (Waiting (newBaseState impl r₀ timeout now) r.state ∨
    (∃ rr, impl.reset r₀ = some rr) ∧ r.state.done = true ∧ r.state.err = some ⟨0, 0, .timeout⟩)

theorem idle_event {r₀ : R} {timeout now : Nat} {r r' : Routine G R} {e : Event G} (hi : Idle impl r₀ timeout now r)
    (hm : ∀ ord coins msg, e = .message ord coins msg → msg.header.fromID ≠ impl.selfID r₀ ∧ (msg.header.toID = 0 ∨ msg.header.toID = impl.selfID r₀))
    (h : event impl r e = some r') : Idle impl r₀ timeout now r' := by
  obtain ⟨h1, hw | ⟨h2, h3, h4⟩⟩ := hi
  · obtain ⟨h5, h6⟩ := waiting_event hw hm h
    exact ⟨h5.trans h1, h6⟩
  · obtain ⟨h5, h6, h7⟩ := over_event h3 h
    exact ⟨h5.trans h1, Or.inr ⟨h2, h6, h7.trans h4⟩⟩

theorem idle_events {r₀ : R} {timeout now : Nat} (es : List (Event G))
    (hm : ∀ ord coins msg, Event.message ord coins msg ∈ es → msg.header.fromID ≠ impl.selfID r₀ ∧ (msg.header.toID = 0 ∨ msg.header.toID = impl.selfID r₀))
    {r r' : Routine G R} (hi : Idle impl r₀ timeout now r) (h : events impl r es = some r') : Idle impl r₀ timeout now r' := by
  induction es generalizing r with
  | nil => cases h; exact hi
  | cons e es ih =>
    rw [events] at h
    cases he : event impl r e with
    | none => rw [he] at h; cases h
    | some r₁ =>
      rw [he] at h
      exact ih (fun ord coins msg hmem => hm ord coins msg (List.mem_cons_of_mem _ hmem))
        (idle_event hi (fun ord coins msg e' => hm ord coins msg (e' ▸ List.mem_cons_self)) he) h

theorem idle_net {ids : List ID} {init : ID → State G R} {r₀ : ID → R} {timeout now : ID → Nat} {N : ID → Routine G R}
    (hinit : ∀ i ∈ ids, init i = newBaseState impl (r₀ i) (timeout i) (now i)) (hN : Example.Net impl ids init N) :
    ∀ i ∈ ids, Idle impl (r₀ i) (timeout i) (now i) (N i) := by
  induction hN with
  | start => intro i hi; exact ⟨rfl, Or.inl (by show Waiting _ (init i); rw [hinit i hi]; rfl)⟩
  | @step N k e r _ hk hsent h ih =>
    intro i hi
    by_cases hik : i = k
    · subst hik
      rw [Function.update_self]
      refine idle_event (ih i hi) (fun ord coins msg he => ?_) h
      obtain ⟨j, hj, hm⟩ := hsent ord coins msg he
      rw [(ih j hj).1] at hm
      cases hm
    · rw [Function.update_of_ne hik]
      exact ih i hi

section

variable {G : Type} [RGroup G] {sha : Sha512}

/-- C73: a key generation driven as in the example never sends anything and never ends, whatever messages the others send to it: it
waits until the process is ended, or crashed by its own time-out. -/
theorem C73_keygen_never_starts (self : ID) (ids : IDSlice) (t : UInt16) (timeout now : Nat) (s₀ : State G (Keygen.Round G))
    (h₀ : Keygen.newKeygenState sha self ids t timeout now = .ok s₀) (es : List (Event G))
    (hm : ∀ ord coins msg, Event.message ord coins msg ∈ es → msg.header.fromID ≠ self ∧ (msg.header.toID = 0 ∨ msg.header.toID = self))
    (r : Routine G (Keygen.Round G)) (h : events (Keygen.impl sha) ⟨s₀, []⟩ es = some r) :
    r.out = [] ∧ r.state.done = false ∧ r.state.roundNumber = 0 ∧ r.state.round = s₀.round := by
  obtain ⟨r₀, h1, rfl⟩ := newKeygenState_ok.mp h₀
  have hr : r₀.selfID = self ∧ r₀.polynomial = none := by
    unfold Keygen.newRound Keygen.newBaseRound at h1
    simp only [Outcome.bind_eq_ok, Outcome.failIf_eq_ok, Outcome.pure_def, Outcome.ok.injEq] at h1
    obtain ⟨_, _, _, _, _, _, h4⟩ := h1
    rw [← h4]
    exact ⟨rfl, rfl⟩
  have hi : Idle (Keygen.impl sha) r₀ timeout now ⟨newBaseState (Keygen.impl sha) r₀ timeout now, []⟩ := ⟨rfl, Or.inl rfl⟩
  obtain ⟨h2, h3 | ⟨⟨rr, h3⟩, _⟩⟩ := idle_events es (by rw [show (Keygen.impl sha).selfID r₀ = self from hr.1]; exact hm) hi h
  · rw [h3]
    exact ⟨h2, rfl, rfl, rfl⟩
  · simp [Keygen.impl, Keygen.reset, hr.2] at h3

/-- C73: a signing session driven as in the example never sends anything, and can only end with a time-out. -/
theorem C73_sign_never_starts (ids : IDSlice) (secret : SecretShare G) (pub : Public G) (message : Bytes) (timeout now : Nat) (s₀ : State G (Sign.Round G))
    (h₀ : Sign.newSignState sha ids secret pub message timeout now = .ok s₀) (es : List (Event G))
    (hm : ∀ ord coins msg, Event.message ord coins msg ∈ es → msg.header.fromID ≠ secret.id ∧ (msg.header.toID = 0 ∨ msg.header.toID = secret.id))
    (r : Routine G (Sign.Round G)) (h : events (Sign.impl sha) ⟨s₀, []⟩ es = some r) :
    r.out = [] ∧ (r.state.done = true → r.state.err = some ⟨0, 0, .timeout⟩) := by
  obtain ⟨r₀, h1, rfl⟩ := newSignState_ok.mp h₀
  have hr : r₀.selfID = secret.id := by
    obtain ⟨_, _, _, _, h2⟩ := Sign.newRound_ok.mp h1
    rw [h2]
  have hi : Idle (Sign.impl sha) r₀ timeout now ⟨newBaseState (Sign.impl sha) r₀ timeout now, []⟩ := ⟨rfl, Or.inl rfl⟩
  obtain ⟨h2, h3 | ⟨_, _, h3⟩⟩ := idle_events es (by rw [show (Sign.impl sha).selfID r₀ = secret.id from hr]; exact hm) hi h
  · refine ⟨h2, fun hd => ?_⟩
    rw [h3] at hd
    cases hd
  · exact ⟨h2, fun _ => h3⟩

/-- C73: if all parties of a key generation are driven as in the example then nobody ever sends anything and nobody ever finishes. -/
theorem C73_keygen_network {ids : IDSlice} {t : UInt16} {timeout now : ID → Nat} {init : ID → State G (Keygen.Round G)}
    (hs : ∀ i ∈ ids, Keygen.newKeygenState sha i ids t (timeout i) (now i) = .ok (init i)) (N : ID → Routine G (Keygen.Round G))
    (hN : Example.Net (Keygen.impl sha) ids init N) (i : ID) (hi : i ∈ ids) : (N i).out = [] ∧ (N i).state.done = false := by
  have hex : ∀ i, ∃ r₀ : Keygen.Round G, i ∈ ids → r₀.polynomial = none ∧ init i = newBaseState (Keygen.impl sha) r₀ (timeout i) (now i) := by
    intro i
    by_cases hi : i ∈ ids
    · obtain ⟨r₀, h1, h2⟩ := newKeygenState_ok.mp (hs i hi)
      refine ⟨r₀, fun _ => ⟨?_, h2⟩⟩
      unfold Keygen.newRound Keygen.newBaseRound at h1
      simp only [Outcome.bind_eq_ok, Outcome.failIf_eq_ok, Outcome.pure_def, Outcome.ok.injEq] at h1
      obtain ⟨_, _, _, _, _, _, h4⟩ := h1
      rw [← h4]
    · exact ⟨(init i).round, fun h => absurd h hi⟩
  choose r₀ hr₀ using hex
  obtain ⟨h2, h3 | ⟨⟨rr, h3⟩, _⟩⟩ := idle_net (fun i hi => (hr₀ i hi).2) hN i hi
  · rw [h3]
    exact ⟨h2, rfl⟩
  · simp [Keygen.impl, Keygen.reset, (hr₀ i hi).1] at h3

/-- C73: with the time-out that the example sets, the time-out crashes the key generation. -/
theorem C73_keygen_crashes (self : ID) (ids : IDSlice) (t : UInt16) (d now : Nat) (hd : 0 < d) (s₀ : State G (Keygen.Round G))
    (h₀ : Keygen.newKeygenState sha self ids t d now = .ok s₀) :
    events (Keygen.impl sha) ⟨s₀, []⟩ [.advance d, .fire, .callback] = none := by
  obtain ⟨r₀, h1, rfl⟩ := newKeygenState_ok.mp h₀
  have hp : r₀.polynomial = none := by
    unfold Keygen.newRound Keygen.newBaseRound at h1
    simp only [Outcome.bind_eq_ok, Outcome.failIf_eq_ok, Outcome.pure_def, Outcome.ok.injEq] at h1
    obtain ⟨_, _, _, _, _, _, h4⟩ := h1
    rw [← h4]
  simp [events, event, State.step, newBaseState, Timer.new, hd, timeoutCallback, reportError, finish, Keygen.impl, Keygen.reset, hp]

end

namespace Demo

/-- A session that gets a message of another party, twice, and whose time passes. -/
example : ∃ s₀ : State Toy (Keygen.Round Toy), Keygen.newKeygenState toySha 1 ids 1 10 0 = .ok s₀ ∧
    (events (Keygen.impl toySha) ⟨s₀, []⟩
      [.message .insertion (fun _ => 1) (Message.newKeyGen1 2 ⟨0, 0⟩ []), .advance 5, .message .insertion (fun _ => 1) (Message.newKeyGen1 2 ⟨0, 0⟩ [])]).isSome = true :=
  ⟨session ids 1 1, keygen_setup.start 1 (by decide), by decide +kernel⟩

end Demo

end Verif.Props
