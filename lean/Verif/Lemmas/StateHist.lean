import Verif.Props.State

/-!
Induction over the rounds of a session, and the causes of an abort, for any protocol.
-/

namespace Verif.State

variable {G R : Type} {impl : RoundImpl G R}

/-- The other parties. -/
def others (self : ID) (ids : List ID) : List ID := ids.filter (· ≠ self)

theorem mem_others {self : ID} {ids : List ID} {k : ID} : k ∈ others self ids ↔ k ∈ ids ∧ k ≠ self := by
  simp [others]

/-- `msgs` are the messages processed in round `n`: one of each other party, handed over before. -/
structure Ready (impl : RoundImpl G R) (r₀ : R) (h : List (Op G × Ret G)) (n : Nat) (l : List (ID × Option (Message G))) : Prop where
  keys : (l.map Prod.fst).Perm (others (impl.selfID r₀) (impl.partyIDs r₀))
  first : n = 0 → ∀ k v, (k, v) ∈ l → v = none
  later : n ≠ 0 → ∀ k v, (k, v) ∈ l → ∃ m, v = some m ∧ m.header.fromID = k ∧
    (impl.acceptedMessageTypes r₀)[n]? = some m.header.type ∧ Handled h m ∧ Spec.ForUs (impl.selfID r₀) (impl.partyIDs r₀) m

theorem ready (hst : impl.Stable) {r₀ : R} {timeout now : Nat} {h : List (Op G × Ret G)} {s : State G R}
    (hh : Hist impl (newBaseState impl r₀ timeout now) h s) (hnd : (impl.partyIDs r₀).Nodup)
    (hself : impl.selfID r₀ ∈ impl.partyIDs r₀) (hd : s.done = false) (hf : Full impl s) (ord : MapOrder) :
    Ready impl r₀ h s.roundNumber (ord.order _ s.received) := by
  have hi := inv_hist hst hh
  have hperm := ord.perm _ s.received
  refine ⟨(hperm.map _).trans (Props.full_perm hi hnd hself hf), ?_, ?_⟩
  · intro h0 k v hk
    have hk := hperm.mem_iff.mp hk
    rw [(hi.round0 h0 hd).1] at hk
    exact initReceived_none _ _ _ (by simp) k v hk
  · intro h0 k v hk
    have hk := hperm.mem_iff.mp hk
    cases v with
    | none => exact absurd (hi.storedNone k hk).1 h0
    | some m =>
      obtain ⟨h1, ⟨h2, h3, h4⟩, h5, h6⟩ := hi.stored k m hk
      refine ⟨m, rfl, h1.symm, ?_, h6, h2, IDSlice.contains_sound h4, h3⟩
      rw [hi.types] at h5
      simpa [used, hd] using h5

/-- Induction over rounds: `P n` holds of the round object while round `n` is running, `E` after success. -/
theorem hist_rounds (hst : impl.Stable) {r₀ : R} {timeout now : Nat} (hnd : (impl.partyIDs r₀).Nodup)
    (hself : impl.selfID r₀ ∈ impl.partyIDs r₀)
    (P : Nat → List (Op G × Ret G) → R → Prop) (E : List (Op G × Ret G) → R → Prop)
    (h0 : P 0 [] r₀) (hP : ∀ n h x r, P n h r → P n (h ++ [x]) r) (hE : ∀ h x r, E h r → E (h ++ [x]) r)
    (hnext : ∀ h n l ord coins r r₁ r₂ r₃ out, P n h r → Ready impl r₀ h n l → processLoop impl l r = .ok r₁ →
      impl.generateMessages ord coins r₁ = .ok (r₂, out) → impl.nextRound r₂ = some r₃ →
      P (n + 1) (h ++ [(.processAll ord coins, .messages out)]) r₃)
    (hlast : ∀ h n l ord coins r r₁ r₂ r₃ out, P n h r → Ready impl r₀ h n l → processLoop impl l r = .ok r₁ →
      impl.generateMessages ord coins r₁ = .ok (r₂, out) → impl.nextRound r₂ = none → impl.reset r₂ = some r₃ →
      E (h ++ [(.processAll ord coins, .messages out)]) r₃)
    {h : List (Op G × Ret G)} {s : State G R} (hh : Hist impl (newBaseState impl r₀ timeout now) h s) :
    (s.done = false → P s.roundNumber h s.round) ∧ (s.done = true → s.err = none → E h s.round) := by
  induction hh with
  | nil => exact ⟨fun _ => h0, fun h => by cases h⟩
  | @snoc h s₁ s₂ op ret h1 hs ih =>
    rcases step_cases hs with ⟨m, e, rfl, rfl, h2⟩ | ⟨ord, coins, out, rfl, rfl, h2⟩ | ⟨dt, rfl, rfl, rfl⟩ |
      ⟨rfl, rfl, rfl | ⟨t, _, _, rfl⟩⟩ | ⟨rfl, rfl, ⟨_, rfl⟩ | ⟨_, _, rfl⟩ | ⟨r, _, _, _, _, rfl⟩⟩
    · cases handle_cases impl h2 <;> exact ⟨fun hd => hP _ _ _ _ (ih.1 hd), fun hd he => hE _ _ _ (ih.2 hd he)⟩
    · cases h2 with
      | idle => exact ⟨fun hd => hP _ _ _ _ (ih.1 hd), fun hd he => hE _ _ _ (ih.2 hd he)⟩
      | processErr | generateErr => exact ⟨fun hd => (nomatch hd), fun _ he => (nomatch he)⟩
      | last t types r₁ r r' _ hd hf hpl hg ht hn hr =>
        exact ⟨fun hd => (nomatch hd), fun _ _ => hlast h s₁.roundNumber _ ord coins _ r₁ r r' out (ih.1 hd)
          (ready hst h1 hnd hself hd hf ord) hpl hg hn hr⟩
      | next t types r₁ r r' _ hd hf hpl hg ht hn =>
        refine ⟨fun _ => hnext h s₁.roundNumber _ ord coins _ r₁ r r' out (ih.1 hd) (ready hst h1 hnd hself hd hf ord) hpl hg hn,
          fun hd' => ?_⟩
        rw [show s₁.done = true from hd'] at hd
        cases hd
    all_goals first
      | exact ⟨fun hd => hP _ _ _ _ (ih.1 hd), fun hd he => hE _ _ _ (ih.2 hd he)⟩
      | exact ⟨fun hd => (nomatch hd), fun _ he => (nomatch he)⟩

/-- Why a session was aborted with error `e` by event `op` in state `s`, leaving the round object `r` to be reset. -/
inductive Cause (impl : RoundImpl G R) (s : State G R) (e : StateErr) (r : R) : Op G → Prop
  | timeout : s.timer.fired ≠ 0 → e.partyID = 0 → e.cause = .timeout → r = s.round → Cause impl s e r .callback
  | process (ord : MapOrder) (coins : Coins) (l₁ l₂ : List (ID × Option (Message G))) (k : ID) (m : Option (Message G)) (r' : R)
      (e' : StateErr) : Full impl s → ord.order _ s.received = l₁ ++ (k, m) :: l₂ →
      Spec.Fed impl.processMessage s.round (l₁.map Prod.snd) r' → impl.processMessage r' m = .err (e', r) →
      e.partyID = e'.partyID → e.cause = e'.cause → Cause impl s e r (.processAll ord coins)
  | generate (ord : MapOrder) (coins : Coins) (r₁ : R) (e' : StateErr) : Full impl s →
      processLoop impl (ord.order _ s.received) s.round = .ok r₁ → impl.generateMessages ord coins r₁ = .err (e', r) →
      e.partyID = e'.partyID → e.cause = e'.cause → Cause impl s e r (.processAll ord coins)

theorem processLoop_err {l : List (ID × Option (Message G))} {r r' : R} {e : StateErr} (h : processLoop impl l r = .err (e, r')) :
    ∃ l₁ l₂ k m r₁, l = l₁ ++ (k, m) :: l₂ ∧ Spec.Fed impl.processMessage r (l₁.map Prod.snd) r₁ ∧
      impl.processMessage r₁ m = .err (e, r') := by
  induction l generalizing r with
  | nil => cases h
  | cons a l ih =>
    obtain ⟨k, m⟩ := a
    unfold processLoop at h
    cases hp : impl.processMessage r m with
    | ok r₁ =>
      rw [hp] at h
      obtain ⟨l₁, l₂, k', m', r₂, h1, h2, h3⟩ := ih h
      exact ⟨(k, m) :: l₁, l₂, k', m', r₂, by rw [h1]; rfl, .cons hp h2, h3⟩
    | err x =>
      rw [hp] at h
      cases h
      exact ⟨[], l, k, m, r, rfl, .nil r, hp⟩
    | panic => rw [hp] at h; cases h

/-- An error recorded was recorded by one event, which then ended the session; nothing later changed it. -/
theorem abort_cause (hst : impl.Stable) {r₀ : R} {timeout now : Nat} {h : List (Op G × Ret G)} {s : State G R}
    (hh : Hist impl (newBaseState impl r₀ timeout now) h s) (e : StateErr) (he : s.err = some e) :
    ∃ h₁ op ret h₂ s₁ r, h = h₁ ++ (op, ret) :: h₂ ∧ Hist impl (newBaseState impl r₀ timeout now) h₁ s₁ ∧ s₁.done = false ∧
      s₁.err = none ∧ e.roundNumber = s₁.roundNumber ∧ s.roundNumber = s₁.roundNumber ∧ impl.reset r = some s.round ∧
      Cause impl s₁ e r op := by
  induction hh with
  | nil => cases he
  | @snoc h s₁ s₂ op ret h1 hs ih =>
    have hi := inv_hist hst h1
    cases he1 : s₁.err with
    | some e₁ =>
      have hd1 : s₁.done = true := hi.err (by rw [he1]; simp)
      have hfr := (Props.C28_frozen (Hist.snoc (Hist.nil (impl := impl) (s := s₁)) hs) hd1).1
      have heq : e₁ = e := by
        rw [hfr] at he
        exact Option.some.inj (he1.symm.trans he)
      obtain ⟨h₁, op', ret', h₂, s₀, r, e1, e2, e3, e4, e5, e6, e7, e8⟩ := ih (by rw [he1, heq])
      exact ⟨h₁, op', ret', h₂ ++ [(op, ret)], s₀, r, by rw [e1]; simp, e2, e3, e4, e5, by rw [hfr]; exact e6,
        by rw [hfr]; exact e7, e8⟩
    | none =>
      rcases step_cases hs with ⟨m, e', rfl, rfl, h2⟩ | ⟨ord, coins, out, rfl, rfl, h2⟩ | ⟨dt, rfl, rfl, rfl⟩ |
        ⟨rfl, rfl, rfl | ⟨t, _, _, rfl⟩⟩ | ⟨rfl, rfl, ⟨_, rfl⟩ | ⟨_, _, rfl⟩ | ⟨r, hf, hd, _, hr, rfl⟩⟩
      · exfalso
        cases handle_cases impl h2 <;> exact nomatch he1.symm.trans he
      · cases h2 with
        | idle => exact nomatch he1.symm.trans he
        | last => exact nomatch he1.symm.trans he
        | next => exact nomatch he1.symm.trans he
        | processErr e' r r' hd hf hpl hr hc =>
          have he : some (s₁.err.getD { e' with roundNumber := s₁.roundNumber }) = some e := he
          rw [he1] at he
          cases he
          obtain ⟨l₁, l₂, k, m, r₁, h3, h4, h5⟩ := processLoop_err hpl
          exact ⟨h, _, _, [], s₁, r, rfl, h1, hd, he1, rfl, rfl, hr, .process ord coins l₁ l₂ k m r₁ e' hf h3 h4 h5 rfl rfl⟩
        | generateErr e' r₁ r r' hd hf hpl hg hr hc =>
          have he : some (s₁.err.getD { e' with roundNumber := s₁.roundNumber }) = some e := he
          rw [he1] at he
          cases he
          exact ⟨h, _, _, [], s₁, r, rfl, h1, hd, he1, rfl, rfl, hr, .generate ord coins r₁ e' hf hpl hg rfl rfl⟩
      · exact nomatch he1.symm.trans he
      · exact nomatch he1.symm.trans he
      · exact nomatch he1.symm.trans he
      · exact nomatch he1.symm.trans he
      · exact nomatch he1.symm.trans he
      · have he : some (s₁.err.getD ⟨0, s₁.roundNumber, .timeout⟩) = some e := he
        rw [he1] at he
        cases he
        exact ⟨h, _, _, [], s₁, s₁.round, rfl, h1, hd, he1, rfl, rfl, hr, .timeout hf rfl rfl rfl⟩

/-- After an abort the round object is the reset of one satisfying `Q`, if `Q` holds while the session runs and processing keeps
it. -/
theorem hist_abort (hst : impl.Stable) {r₀ : R} {timeout now : Nat} (Q : R → Prop)
    (hQ : ∀ h s, Hist impl (newBaseState impl r₀ timeout now) h s → s.done = false → Q s.round)
    (hp : ∀ r m r', Q r → impl.processMessage r m = .ok r' → Q r')
    (hpe : ∀ r m e r', Q r → impl.processMessage r m = .err (e, r') → Q r')
    (hge : ∀ ord coins r e r', Q r → impl.generateMessages ord coins r = .err (e, r') → Q r')
    {h : List (Op G × Ret G)} {s : State G R} (hh : Hist impl (newBaseState impl r₀ timeout now) h s) (he : s.err ≠ none) :
    ∃ r, Q r ∧ impl.reset r = some s.round := by
  obtain ⟨e, he⟩ := Option.ne_none_iff_exists'.mp he
  obtain ⟨h₁, op, ret, h₂, s₁, r, _, h1, hd, _, _, _, hr, hc⟩ := abort_cause hst hh e he
  have hfed : ∀ {r r' : R} {l}, Q r → Spec.Fed impl.processMessage r l r' → Q r' := by
    intro r r' l hq hf
    induction hf with
    | nil => exact hq
    | cons h1 _ ih => exact ih (hp _ _ _ hq h1)
  have h0 := hQ h₁ s₁ h1 hd
  refine ⟨r, ?_, hr⟩
  cases hc with
  | timeout _ _ _ hr => rw [hr]; exact h0
  | process ord coins l₁ l₂ k m r' e' _ _ hf hpe' => exact hpe _ _ _ _ (hfed h0 hf) hpe'
  | generate ord coins r₁ e' _ hpl hge' => exact hge _ _ _ _ _ (hfed h0 (Props.fed_of_processLoop hpl)) hge'

end Verif.State
