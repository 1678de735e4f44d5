import Verif.Model.State
import Verif.Lemmas.Party
import Verif.Lemmas.Eddsa

/-!
Lemmas about the driver: the possible effects of each event, and invariants of histories.
-/

namespace Verif

variable {G R : Type}

/-- The methods of a round never change whose round it is. -/
structure RoundImpl.Stable (impl : RoundImpl G R) : Prop where
  process : ∀ r m r', impl.processMessage r m = .ok r' → impl.selfID r' = impl.selfID r ∧ impl.partyIDs r' = impl.partyIDs r
  processErr : ∀ r m e r', impl.processMessage r m = .err (e, r') →
    impl.selfID r' = impl.selfID r ∧ impl.partyIDs r' = impl.partyIDs r
  generate : ∀ ord coins r r' out, impl.generateMessages ord coins r = .ok (r', out) →
    impl.selfID r' = impl.selfID r ∧ impl.partyIDs r' = impl.partyIDs r
  generateErr : ∀ ord coins r e r', impl.generateMessages ord coins r = .err (e, r') →
    impl.selfID r' = impl.selfID r ∧ impl.partyIDs r' = impl.partyIDs r
  next : ∀ r r', impl.nextRound r = some r' → impl.selfID r' = impl.selfID r ∧ impl.partyIDs r' = impl.partyIDs r
  reset : ∀ r r', impl.reset r = some r' → impl.selfID r' = impl.selfID r ∧ impl.partyIDs r' = impl.partyIDs r

namespace State

variable (impl : RoundImpl G R)

/-- The message is for us: a broadcast or addressed to `self`, from somebody else who is in the list. -/
def Relevant (self : ID) (ids : IDSlice) (m : Message G) : Prop :=
  m.header.fromID ≠ self ∧ (m.header.toID = 0 ∨ m.header.toID = self) ∧ IDSlice.contains ids m.header.fromID = true

theorem isAcceptedType_iff {types : List MsgType} {t : MsgType} : isAcceptedType types t = true ↔ t ∈ types := by
  unfold isAcceptedType; simp

theorem isAcceptedType_false {types : List MsgType} {t : MsgType} : isAcceptedType types t = false ↔ t ∉ types := by
  rw [← isAcceptedType_iff]; simp

/-- The possible effects of `HandleMessage`. -/
inductive HandleCases (s : State G R) (m : Message G) : State G R → Option HandleErr → Prop
  | finished : s.done = true → HandleCases s m s (some (wrapError impl s .finished m.header.fromID))
  | noMore : s.done = false → s.acceptedTypes = [] →
      HandleCases s m s (some (wrapError impl s .noMoreMessages m.header.fromID))
  | fromSelf : s.done = false → m.header.fromID = impl.selfID s.round → HandleCases s m s none
  | notForUs : s.done = false → m.header.fromID ≠ impl.selfID s.round → m.header.toID ≠ 0 → m.header.toID ≠ impl.selfID s.round →
      HandleCases s m s none
  | notAParty : s.done = false → m.header.fromID ≠ impl.selfID s.round →
      IDSlice.contains (impl.partyIDs s.round) m.header.fromID = false →
      HandleCases s m s (some (wrapError impl s .notAParty m.header.fromID))
  | already : s.done = false → Relevant (impl.selfID s.round) (impl.partyIDs s.round) m →
      m.header.fromID ∈ s.received.keys → HandleCases s m s (some (wrapError impl s .alreadyReceived m.header.fromID))
  | badType : s.done = false → Relevant (impl.selfID s.round) (impl.partyIDs s.round) m → m.header.type ∉ s.acceptedTypes →
      HandleCases s m s (some (wrapError impl s .typeNotAccepted m.header.fromID))
  | stored : s.done = false → Relevant (impl.selfID s.round) (impl.partyIDs s.round) m → m.header.fromID ∉ s.received.keys →
      s.acceptedTypes.head? = some m.header.type →
      HandleCases s m { s with timer := s.timer.ackMessage, received := s.received.set m.header.fromID (some m) } none
  | queued : s.done = false → Relevant (impl.selfID s.round) (impl.partyIDs s.round) m → m.header.fromID ∉ s.received.keys →
      m.header.type ∈ s.acceptedTypes → s.acceptedTypes.head? ≠ some m.header.type →
      HandleCases s m { s with timer := s.timer.ackMessage, queue := s.queue ++ [m] } none

theorem handle_cases {s s' : State G R} {m : Message G} {e : Option HandleErr} (h : handleMessage impl s m = (s', e)) :
    HandleCases impl s m s' e := by
  unfold handleMessage at h
  simp only [] at h
  cases hd : s.done with
  | true =>
    rw [if_pos hd] at h
    obtain ⟨rfl, rfl⟩ := Prod.mk.inj h
    exact .finished hd
  | false =>
    rw [if_neg (by simp [hd])] at h
    cases ht : s.acceptedTypes with
    | nil =>
      rw [ht] at h
      obtain ⟨rfl, rfl⟩ := Prod.mk.inj h
      exact .noMore hd ht
    | cons t types =>
      rw [ht] at h
      simp only [] at h
      by_cases h1 : m.header.fromID = impl.selfID s.round
      · rw [if_pos h1] at h
        obtain ⟨rfl, rfl⟩ := Prod.mk.inj h
        exact .fromSelf hd h1
      rw [if_neg h1] at h
      by_cases h2 : m.header.isBroadcast = false ∧ m.header.toID ≠ impl.selfID s.round
      · rw [if_pos h2] at h
        obtain ⟨rfl, rfl⟩ := Prod.mk.inj h
        exact .notForUs hd h1 (by simpa [Header.isBroadcast] using h2.1) h2.2
      rw [if_neg h2] at h
      by_cases h3 : IDSlice.contains (impl.partyIDs s.round) m.header.fromID = false
      · rw [if_pos h3] at h
        obtain ⟨rfl, rfl⟩ := Prod.mk.inj h
        exact .notAParty hd h1 h3
      rw [if_neg h3] at h
      have hrel : Relevant (impl.selfID s.round) (impl.partyIDs s.round) m := by
        refine ⟨h1, ?_, by simpa using h3⟩
        by_contra hc
        rw [not_or] at hc
        exact h2 ⟨by simp [Header.isBroadcast, hc.1], hc.2⟩
      by_cases h4 : s.received.has m.header.fromID = true
      · rw [if_pos h4] at h
        obtain ⟨rfl, rfl⟩ := Prod.mk.inj h
        exact .already hd hrel (GoMap.has_iff.mp h4)
      rw [if_neg h4] at h
      have h4' : m.header.fromID ∉ s.received.keys := fun hk => h4 (GoMap.has_iff.mpr hk)
      by_cases h5 : isAcceptedType (t :: types) m.header.type = false
      · rw [if_pos h5] at h
        obtain ⟨rfl, rfl⟩ := Prod.mk.inj h
        exact .badType hd hrel (by rw [ht]; exact isAcceptedType_false.mp h5)
      rw [if_neg h5] at h
      by_cases h6 : m.header.type = t
      · rw [if_pos h6] at h
        obtain ⟨rfl, rfl⟩ := Prod.mk.inj h
        have := HandleCases.stored (impl := impl) hd hrel h4' (by rw [ht, h6]; rfl)
        rw [← ht]
        exact this
      · rw [if_neg h6] at h
        obtain ⟨rfl, rfl⟩ := Prod.mk.inj h
        have := HandleCases.queued (impl := impl) hd hrel h4'
          (by rw [ht]; exact isAcceptedType_iff.mp (by simpa using h5)) (by rw [ht]; simpa using fun hh => h6 hh.symm)
        rw [← ht]
        exact this

theorem reportError_eq {s s' : State G R} {e : StateErr} (hd : s.done = false) (h : reportError impl s e = some s') :
    ∃ r, impl.reset s.round = some r ∧ s.closed = false ∧
      s' = { s with done := true, closed := true, round := r, timer := s.timer.stopTimer, err := some (s.err.getD { e with roundNumber := s.roundNumber }) } := by
  unfold reportError at h
  rw [if_neg (by simp [hd])] at h
  unfold finish at h
  cases he : s.err with
  | none =>
    rw [he] at h
    simp only [hd, Bool.false_eq_true, if_false] at h
    cases hr : impl.reset s.round with
    | none => simp [hr] at h
    | some r =>
      cases hc : s.closed with
      | true => simp [hr, hc] at h
      | false =>
        simp only [hr, hc, Option.bind_eq_bind, Option.bind_some, Bool.false_eq_true, if_false, Option.some.injEq] at h
        exact ⟨r, rfl, rfl, by rw [← h]; simp⟩
  | some e' =>
    rw [he] at h
    simp only [hd, Bool.false_eq_true, if_false] at h
    cases hr : impl.reset s.round with
    | none => simp [hr] at h
    | some r =>
      cases hc : s.closed with
      | true => simp [hr, hc] at h
      | false =>
        simp only [hr, hc, Option.bind_eq_bind, Option.bind_some, Bool.false_eq_true, if_false, Option.some.injEq] at h
        exact ⟨r, rfl, rfl, by rw [← h]; simp [he]⟩

theorem reportError_ok {s : State G R} {e : StateErr} {r : R} (hd : s.done = false) (hr : impl.reset s.round = some r)
    (hc : s.closed = false) :
    reportError impl s e = some { s with done := true, closed := true, round := r, timer := s.timer.stopTimer, err := some (s.err.getD { e with roundNumber := s.roundNumber }) } := by
  unfold reportError finish
  rw [if_neg (by simp [hd])]
  cases he : s.err <;> simp [hd, hr, hc, he]

theorem finish_eq {s s' : State G R} (hd : s.done = false) (h : finish impl s = some s') :
    ∃ r, impl.reset s.round = some r ∧ s.closed = false ∧
      s' = { s with done := true, closed := true, round := r, timer := s.timer.stopTimer } := by
  unfold finish at h
  simp only [hd, Bool.false_eq_true, if_false] at h
  cases hr : impl.reset s.round with
  | none => simp [hr] at h
  | some r =>
    cases hc : s.closed with
    | true => simp [hr, hc] at h
    | false =>
      simp only [hr, hc, Option.bind_eq_bind, Option.bind_some, Bool.false_eq_true, if_false, Option.some.injEq] at h
      exact ⟨r, rfl, rfl, h.symm⟩

theorem finish_ok {s : State G R} {r : R} (hd : s.done = false) (hr : impl.reset s.round = some r) (hc : s.closed = false) :
    finish impl s = some { s with done := true, closed := true, round := r, timer := s.timer.stopTimer } := by
  unfold finish; simp [hd, hr, hc]

/-- The stored messages after moving queued messages of the new current type. -/
def movedReceived (types : List MsgType) (queue : List (Message G)) : GoMap (Option (Message G)) :=
  match types with
  | [] => []
  | t :: _ => (queue.filter fun m => m.header.type = t).foldl (fun r m => r.set m.header.fromID (some m)) []

/-- The queue that remains. -/
def movedQueue (types : List MsgType) (queue : List (Message G)) : List (Message G) :=
  match types with
  | [] => queue
  | t :: _ => queue.filter fun m => m.header.type ≠ t

theorem dequeueLoop_eq (t : MsgType) (l : List (Message G)) (rec : GoMap (Option (Message G))) (q : List (Message G)) :
    dequeueLoop t l rec q = ((l.filter fun m => m.header.type = t).foldl (fun r m => r.set m.header.fromID (some m)) rec,
      q ++ l.filter fun m => m.header.type ≠ t) := by
  induction l generalizing rec q with
  | nil => simp [dequeueLoop]
  | cons m l ih =>
    unfold dequeueLoop
    by_cases h : m.header.type = t
    · rw [if_pos h, ih]; simp [h]
    · rw [if_neg h, ih]; simp [h]

/-- Enough messages for `ProcessAll` to proceed. -/
def Full (s : State G R) : Prop := s.received.length = (IDSlice.N (impl.partyIDs s.round) - 1).toNat

/-- The possible effects of `ProcessAll`. -/
inductive ProcessCases (ord : MapOrder) (coins : Coins) (s : State G R) : State G R → List (Message G) → Prop
  | idle : s.done = true ∨ ¬ Full impl s → ProcessCases ord coins s s []
  | processErr (e : StateErr) (r r' : R) : s.done = false → Full impl s →
      processLoop impl (ord.order _ s.received) s.round = .err (e, r) → impl.reset r = some r' → s.closed = false →
      ProcessCases ord coins s { s with done := true, closed := true, round := r', timer := s.timer.stopTimer, err := some (s.err.getD { e with roundNumber := s.roundNumber }) } []
  | generateErr (e : StateErr) (r₁ r r' : R) : s.done = false → Full impl s →
      processLoop impl (ord.order _ s.received) s.round = .ok r₁ → impl.generateMessages ord coins r₁ = .err (e, r) →
      impl.reset r = some r' → s.closed = false →
      ProcessCases ord coins s { s with received := [], done := true, closed := true, round := r', timer := s.timer.stopTimer, err := some (s.err.getD { e with roundNumber := s.roundNumber }) } []
  | last (t : MsgType) (types : List MsgType) (r₁ r r' : R) (out : List (Message G)) : s.done = false → Full impl s →
      processLoop impl (ord.order _ s.received) s.round = .ok r₁ → impl.generateMessages ord coins r₁ = .ok (r, out) →
      s.acceptedTypes = t :: types → impl.nextRound r = none → impl.reset r = some r' → s.closed = false →
      ProcessCases ord coins s { s with received := movedReceived types s.queue, queue := movedQueue types s.queue, acceptedTypes := types, done := true, closed := true, round := r', timer := s.timer.stopTimer } out
  | next (t : MsgType) (types : List MsgType) (r₁ r r' : R) (out : List (Message G)) : s.done = false → Full impl s →
      processLoop impl (ord.order _ s.received) s.round = .ok r₁ → impl.generateMessages ord coins r₁ = .ok (r, out) →
      s.acceptedTypes = t :: types → impl.nextRound r = some r' →
      ProcessCases ord coins s { s with received := movedReceived types s.queue, queue := movedQueue types s.queue, acceptedTypes := types, roundNumber := s.roundNumber + 1, round := r' } out

theorem processAll_iff {ord : MapOrder} {coins : Coins} {s s' : State G R} {out : List (Message G)} :
    processAll impl ord coins s = some (s', out) ↔ ProcessCases impl ord coins s s' out := by
  constructor
  · intro h
    unfold processAll at h
    cases hd : s.done with
    | true =>
      rw [if_pos hd] at h
      obtain ⟨rfl, rfl⟩ := Prod.mk.inj (Option.some.inj h)
      exact .idle (Or.inl hd)
    | false =>
    rw [if_neg (by simp [hd])] at h
    by_cases hf : Full impl s
    swap
    · rw [if_pos (show s.received.length ≠ _ from hf)] at h
      obtain ⟨rfl, rfl⟩ := Prod.mk.inj (Option.some.inj h)
      exact .idle (Or.inr hf)
    rw [if_neg (not_not_intro (show s.received.length = _ from hf))] at h
    cases hp : processLoop impl (ord.order _ s.received) s.round with
    | panic => rw [hp] at h; cases h
    | err x =>
      obtain ⟨e, r⟩ := x
      rw [hp] at h
      simp only [] at h
      cases hre : reportError impl { s with round := r } e with
      | none => rw [hre] at h; cases h
      | some s₁ =>
        rw [hre] at h
        obtain ⟨rfl, rfl⟩ := Prod.mk.inj (Option.some.inj h)
        obtain ⟨r', h1, h2, rfl⟩ := reportError_eq impl (s := { s with round := r }) hd hre
        exact .processErr e r r' hd hf hp h1 h2
    | ok r₁ =>
      rw [hp] at h
      simp only [] at h
      cases hg : impl.generateMessages ord coins r₁ with
      | panic => rw [hg] at h; cases h
      | err x =>
        obtain ⟨e, r⟩ := x
        rw [hg] at h
        simp only [] at h
        cases hre : reportError impl { s with received := [], round := r } e with
        | none => rw [hre] at h; cases h
        | some s₁ =>
          rw [hre] at h
          obtain ⟨rfl, rfl⟩ := Prod.mk.inj (Option.some.inj h)
          obtain ⟨r', h1, h2, rfl⟩ := reportError_eq impl (s := { s with received := [], round := r }) hd hre
          exact .generateErr e r₁ r r' hd hf hp hg h1 h2
      | ok x =>
        obtain ⟨r, out'⟩ := x
        rw [hg] at h
        simp only [] at h
        cases ht : s.acceptedTypes with
        | nil => rw [ht] at h; cases h
        | cons t types =>
          rw [ht] at h
          simp only [] at h
          have hmove : (match types with
              | [] => ({ s with received := [], round := r, acceptedTypes := types } : State G R)
              | current :: _ => { s with received := (dequeueLoop current s.queue [] []).1, round := r, acceptedTypes := types, queue := (dequeueLoop current s.queue [] []).2 }) =
              { s with received := movedReceived types s.queue, queue := movedQueue types s.queue, round := r, acceptedTypes := types } := by
            cases types with
            | nil => rfl
            | cons t' types => simp only [dequeueLoop_eq]; rfl
          have hmr : (match types with
              | [] => ({ s with received := [], round := r, acceptedTypes := types } : State G R)
              | current :: _ => { s with received := (dequeueLoop current s.queue [] []).1, round := r, acceptedTypes := types, queue := (dequeueLoop current s.queue [] []).2 }).round = r := by
            rw [hmove]
          cases hn : impl.nextRound r with
          | none =>
            cases hfi : finish impl { s with received := movedReceived types s.queue, queue := movedQueue types s.queue, round := r, acceptedTypes := types } with
            | none =>
              exfalso
              cases types <;> simp only [dequeueLoop_eq] at h <;> rw [hn] at h <;> simp only [] at h <;>
                erw [hfi] at h <;> cases h
            | some s₁ =>
              have h' : s₁ = s' ∧ out' = out := by
                cases types <;> simp only [dequeueLoop_eq] at h <;> rw [hn] at h <;> simp only [] at h <;>
                  erw [hfi] at h <;> exact Prod.mk.inj (Option.some.inj h)
              obtain ⟨rfl, rfl⟩ := h'
              obtain ⟨r', h1, h2, rfl⟩ := finish_eq impl (s := { s with received := movedReceived types s.queue, queue := movedQueue types s.queue, round := r, acceptedTypes := types }) hd hfi
              exact .last t types r₁ r r' _ hd hf hp hg ht hn h1 h2
          | some next =>
            have h' : ({ s with received := movedReceived types s.queue, queue := movedQueue types s.queue, acceptedTypes := types, roundNumber := s.roundNumber + 1, round := next } : State G R) = s' ∧ out' = out := by
              cases types <;> simp only [dequeueLoop_eq] at h <;> rw [hn] at h <;> exact Prod.mk.inj (Option.some.inj h)
            obtain ⟨rfl, rfl⟩ := h'
            exact .next t types r₁ r next _ hd hf hp hg ht hn
  · intro h
    unfold processAll
    cases h with
    | idle h =>
      rcases h with h | h
      · rw [if_pos h]
      · cases hd : s.done with
        | true => simp
        | false => rw [if_neg (by simp), if_pos (show s.received.length ≠ _ from h)]
    | processErr e r r' hd hf hp hr hc =>
      rw [if_neg (by simp [hd]), if_neg (not_not_intro (show s.received.length = _ from hf)), hp]
      simp only []
      rw [reportError_ok impl (s := { s with round := r }) hd hr hc]
      rfl
    | generateErr e r₁ r r' hd hf hp hg hr hc =>
      rw [if_neg (by simp [hd]), if_neg (not_not_intro (show s.received.length = _ from hf)), hp]
      simp only []
      rw [hg]
      simp only []
      rw [reportError_ok impl (s := { s with received := [], round := r }) hd hr hc]
      rfl
    | last t types r₁ r r' _ hd hf hp hg ht hn hr hc =>
      rw [if_neg (by simp [hd]), if_neg (not_not_intro (show s.received.length = _ from hf)), hp]
      simp only []
      rw [hg]
      simp only [ht]
      have := finish_ok impl (s := { s with received := movedReceived types s.queue, queue := movedQueue types s.queue, round := r, acceptedTypes := types }) hd hr hc
      cases types <;> simp only [dequeueLoop_eq] <;> rw [hn] <;> simp only [] <;> erw [this] <;> rfl
    | next t types r₁ r next _ hd hf hp hg ht hn =>
      rw [if_neg (by simp [hd]), if_neg (not_not_intro (show s.received.length = _ from hf)), hp]
      simp only []
      rw [hg]
      simp only [ht]
      cases types <;> simp only [dequeueLoop_eq] <;> rw [hn] <;> rfl

end State

end Verif
