import Verif.Model.Construct
import Verif.Lemmas.Forward
import Verif.Props.State
import Verif.Props.KeygenOut
import Verif.Lemmas.Sign

/-!
C115: a session whose timer goes off while it is being created is like one whose timer goes off later.
-/

namespace Verif.Props

open State Outcome

variable {G R : Type} {impl : RoundImpl G R} {round : R} {timeout now : Nat}

/-- Time passes, or the timer does something. -/
def Spec.TimerOp : Op G → Prop
  | .advance _ | .fire | .callback => True
  | _ => False

/-- `Reset` keeps the identities. -/
def Spec.KeepsIDs (impl : RoundImpl G R) : Prop :=
  ∀ r r', impl.reset r = some r' → impl.partyIDs r' = impl.partyIDs r ∧ impl.selfID r' = impl.selfID r

theorem keygen_keepsIDs [RGroup G] {sha : Sha512} : Spec.KeepsIDs (Keygen.impl (G := G) sha) := by
  intro r r' h
  simp only [Keygen.impl, Keygen.reset, Option.bind_eq_bind, Option.bind_eq_some_iff] at h
  obtain ⟨_, _, _, _, h⟩ := h
  cases h
  exact ⟨rfl, rfl⟩

theorem sign_keepsIDs [RGroup G] {sha : Sha512} : Spec.KeepsIDs (Sign.impl (G := G) sha) := by
  intro r r' h
  cases h
  exact ⟨rfl, rfl⟩

/-- The session under construction as it will be when the loop is through. -/
def complete (impl : RoundImpl G R) (round : R) (s : State G R) : State G R :=
  { s with received := initReceived (impl.selfID round) (impl.partyIDs round) [] }

/-- A history of the timer alone, from the session as the constructor would have made it at once. -/
def Later (impl : RoundImpl G R) (round : R) (timeout now : Nat) (s : State G R) : Prop :=
  ∃ t h, now ≤ t ∧ Hist impl (newBaseState impl round timeout t) h s ∧ ∀ x ∈ h, Spec.TimerOp x.1

structure BuildInv (impl : RoundImpl G R) (round : R) (timeout now : Nat) (b : Building G R) : Prop where
  alloc : b.pc = .allocated → ∃ t, now ≤ t ∧ b.s = { (Building.alloc impl round now).s with timer := ⟨0, t, none, 0⟩ }
  later : b.pc ≠ .allocated → Later impl round timeout now (complete impl round b.s) ∧ (b.s.timer.fired ≠ 0 → b.s.timer.deadline = none) ∧
    impl.partyIDs b.s.round = impl.partyIDs round ∧ impl.selfID b.s.round = impl.selfID round
  empty : b.pc = .armed ∨ b.pc = .assigned → b.s.received = []
  rest : ∀ l, b.pc = .filling l → initReceived (impl.selfID round) l b.s.received = initReceived (impl.selfID round) (impl.partyIDs round) []
  ret : b.pc = .returned → b.s.received = initReceived (impl.selfID round) (impl.partyIDs round) []

theorem Later.step {s s' : State G R} (h : Later impl round timeout now s) {op : Op G} (ho : Spec.TimerOp op) {ret : Ret G}
    (hs : State.step impl s op = some (s', ret)) : Later impl round timeout now s' := by
  obtain ⟨t, l, h1, h2, h3⟩ := h
  exact ⟨t, _, h1, .snoc h2 hs, fun x hx => by
    rcases List.mem_append.mp hx with hx | hx
    · exact h3 x hx
    · rw [List.mem_singleton] at hx; subst hx; exact ho⟩

/-- Stopping a timer that has fired changes nothing. -/
theorem stop_fired {t : Timer} (h : t.deadline = none) : t.stopTimer = t := by
  unfold Timer.stopTimer
  split
  · rw [← h]
  · rfl

/-- It makes no difference whether the callback finds the timer. -/
theorem callbackSeen_eq {seen : Bool} {s : State G R} (h : s.timer.deadline = none) : callbackSeen impl seen s = timeoutCallback impl s := by
  have hst : ({ s.timer with fired := s.timer.fired - 1 } : Timer).stopTimer = { s.timer with fired := s.timer.fired - 1 } := stop_fired h
  simp only [callbackSeen, timeoutCallback, reportError, finishSeen, finish]
  cases hd : s.done
  · cases he : s.err <;> simp [hd, hst]
  · rfl

/-- Neither does what has been filled in of `receivedMessages`. -/
theorem timeoutCallback_complete (s : State G R) :
    timeoutCallback impl (complete impl round s) = (timeoutCallback impl s).map (complete impl round) := by
  obtain ⟨types, received, queue, timer, number, r, closed, done, err⟩ := s
  simp only [complete, timeoutCallback, reportError, finish]
  cases done
  · cases err <;> cases hr : impl.reset r <;> cases closed <;> simp [hr, complete]
  · rfl

theorem timeoutCallback_keeps (hk : Spec.KeepsIDs impl) {s s' : State G R} (hd : s.timer.deadline = none) (h : timeoutCallback impl s = some s') :
    s'.received = s.received ∧ s'.timer.deadline = none ∧ impl.partyIDs s'.round = impl.partyIDs s.round ∧ impl.selfID s'.round = impl.selfID s.round := by
  have hst : ({ s.timer with fired := s.timer.fired - 1 } : Timer).stopTimer = { s.timer with fired := s.timer.fired - 1 } := stop_fired hd
  simp only [timeoutCallback, reportError, finish] at h
  cases hd' : s.done
  · cases hr : impl.reset s.round with
    | none => cases he : s.err <;> simp [he, hr, hd'] at h
    | some r =>
      have := hk _ _ hr
      cases he : s.err <;> cases hc : s.closed <;> simp [he, hr, hc, hd', hst] at h <;> subst h <;> exact ⟨rfl, hd, this⟩
  · simp [hd'] at h
    subst h
    exact ⟨rfl, hd, rfl, rfl⟩

theorem buildStep_inv (hk : Spec.KeepsIDs impl) {b b' : Building G R} (I : BuildInv impl round timeout now b) {op : BuildOp}
    (h : buildStep impl timeout b op = some b') : BuildInv impl round timeout now b' := by
  obtain ⟨pc, s⟩ := b
  cases op with
  | arm =>
    cases pc <;> cases h <;> try exact I
    obtain ⟨t, ht, hs⟩ := I.alloc rfl
    simp only at hs
    subst hs
    refine ⟨(nomatch ·), fun _ => ⟨⟨t, [], ht, ?_, by simp⟩, fun h => absurd rfl h, rfl, rfl⟩, fun _ => rfl, (fun _ h => nomatch h), (nomatch ·)⟩
    exact .nil
  | assign =>
    cases pc <;> cases h <;> try exact I
    exact ⟨(nomatch ·), fun _ => I.later (nomatch ·), fun _ => I.empty (.inl rfl), (fun _ h => nomatch h), (nomatch ·)⟩
  | begin =>
    cases pc <;> cases h <;> try exact I
    have hl := I.later (nomatch ·)
    refine ⟨(nomatch ·), fun _ => hl, fun h => (by rcases h with h | h <;> cases h), fun l h => ?_, (nomatch ·)⟩
    cases h
    rw [show s.received = [] from I.empty (.inr rfl), hl.2.2.1]
  | fill =>
    cases pc with
    | filling l =>
      cases l with
      | nil => cases h; exact I
      | cons id rest =>
        cases h
        have hl := I.later (nomatch ·)
        refine ⟨(nomatch ·), fun _ => hl, fun h => (by rcases h with h | h <;> cases h), fun l h => ?_, (nomatch ·)⟩
        cases h
        have := I.rest _ rfl
        rw [initReceived] at this
        rw [hl.2.2.2]
        exact this
    | _ => cases h; exact I
  | ret =>
    cases pc with
    | filling l =>
      cases l with
      | nil =>
        cases h
        exact ⟨(nomatch ·), fun _ => I.later (nomatch ·), fun h => (by rcases h with h | h <;> cases h), (fun _ h => nomatch h), fun _ => I.rest _ rfl⟩
      | cons id rest => cases h; exact I
    | _ => cases h; exact I
  | advance dt =>
    cases h
    refine ⟨fun h => ?_, fun h => ?_, I.empty, I.rest, I.ret⟩
    · obtain ⟨t, ht, hs⟩ := I.alloc h
      exact ⟨t + dt, by omega, by simp only at hs ⊢; rw [hs]⟩
    · obtain ⟨h1, h2⟩ := I.later h
      exact ⟨h1.step (op := .advance dt) trivial rfl, h2⟩
  | fire =>
    simp only [buildStep] at h
    cases hd : s.timer.deadline with
    | none => rw [hd] at h; cases h; exact I
    | some t =>
      rw [hd] at h
      simp only at h
      split at h
      · rename_i hle
        cases h
        refine ⟨fun h => ?_, fun h => ?_, I.empty, I.rest, I.ret⟩
        · obtain ⟨t', _, hs⟩ := I.alloc h
          simp only at hs
          rw [hs] at hd
          cases hd
        · obtain ⟨h1, _, h3⟩ := I.later h
          refine ⟨h1.step (op := .fire) (ret := .nothing) trivial ?_, fun _ => rfl, h3⟩
          simp only [State.step]
          rw [show (complete impl round s).timer.deadline = some t from hd]
          exact if_pos hle
      · cases h; exact I
  | callback seen =>
    simp only [buildStep] at h
    split at h
    · cases h; exact I
    · rename_i hf
      simp only [Option.map_eq_some_iff] at h
      obtain ⟨s', hs', rfl⟩ := h
      have hpc : pc ≠ .allocated := by
        intro hp
        obtain ⟨t', _, hs⟩ := I.alloc hp
        simp only at hs
        exact hf (by rw [hs])
      obtain ⟨h1, h2, h3, h4⟩ := I.later hpc
      rw [callbackSeen_eq (h2 hf)] at hs'
      obtain ⟨k1, k2, k3, k4⟩ := timeoutCallback_keeps hk (h2 hf) hs'
      refine ⟨fun h => absurd h hpc, fun _ => ⟨h1.step (op := .callback) (ret := .nothing) trivial ?_, fun _ => k2, k3.trans h3, k4.trans h4⟩, ?_, ?_, ?_⟩
      · simp only [State.step]
        rw [if_neg (by exact hf), timeoutCallback_complete, hs']
        rfl
      · intro h; rw [k1]; exact I.empty h
      · intro l h; rw [k1]; exact I.rest l h
      · intro h; rw [k1]; exact I.ret h

theorem build_inv (hk : Spec.KeepsIDs impl) {ops : List BuildOp} {b : Building G R} (h : build impl round timeout now ops = some b) :
    BuildInv impl round timeout now b := by
  have key : ∀ (ops : List BuildOp) (b₀ : Building G R), BuildInv impl round timeout now b₀ → ops.foldlM (buildStep impl timeout) b₀ = some b →
      BuildInv impl round timeout now b := by
    intro ops
    induction ops with
    | nil => intro b₀ I h; cases h; exact I
    | cons op ops ih =>
      intro b₀ I h
      simp only [List.foldlM_cons, Option.bind_eq_bind, Option.bind_eq_some_iff] at h
      obtain ⟨b₁, h1, h2⟩ := h
      exact ih b₁ (buildStep_inv hk I h1) h2
  exact key ops _ ⟨fun _ => ⟨now, le_refl _, rfl⟩, fun h => absurd rfl h, fun h => (by rcases h with h | h <;> cases h), (fun _ h => nomatch h), (nomatch ·)⟩ h

/-- C115: whatever the timer does while `NewBaseState` runs, the session it returns is exactly one that `NewBaseState` makes at one moment and
that then sees only its timer.  So whatever happens to it later, it has a history as in all other theorems. -/
theorem C115_returned (hk : Spec.KeepsIDs impl) {ops : List BuildOp} {b : Building G R} (h : build impl round timeout now ops = some b)
    (hb : b.pc = .returned) : ∃ t hist, now ≤ t ∧ Hist impl (newBaseState impl round timeout t) hist b.s ∧ (∀ x ∈ hist, Spec.TimerOp x.1) ∧
      ∀ later s, Hist impl b.s later s → Hist impl (newBaseState impl round timeout t) (hist ++ later) s := by
  have I := build_inv hk h
  obtain ⟨⟨t, hist, h1, h2, h3⟩, _⟩ := I.later (by rw [hb]; exact (nomatch ·))
  rw [show complete impl round b.s = b.s by rw [complete, ← I.ret hb]] at h2
  exact ⟨t, hist, h1, h2, h3, fun _ _ hl => h2.trans hl⟩

/-- C115: if the program crashes while the session is created, then because the timer goes off and `Reset` panics, as it would later. -/
theorem C115_crash (hk : Spec.KeepsIDs impl) {ops : List BuildOp} (h : build impl round timeout now ops = none) :
    ∃ t hist s, now ≤ t ∧ Hist impl (newBaseState impl round timeout t) hist s ∧ (∀ x ∈ hist, Spec.TimerOp x.1) ∧ s.timer.fired ≠ 0 ∧
      State.step impl s .callback = none := by
  have key : ∀ (ops : List BuildOp) (b₀ : Building G R), BuildInv impl round timeout now b₀ → ops.foldlM (buildStep impl timeout) b₀ = none →
      ∃ b op, BuildInv impl round timeout now b ∧ buildStep impl timeout b op = none := by
    intro ops
    induction ops with
    | nil => intro b₀ I h; cases h
    | cons op ops ih =>
      intro b₀ I h
      cases h1 : buildStep impl timeout b₀ op with
      | none => exact ⟨b₀, op, I, h1⟩
      | some b₁ =>
        simp only [List.foldlM_cons, h1] at h
        exact ih b₁ (buildStep_inv hk I h1) h
  obtain ⟨⟨pc, s⟩, op, I, h1⟩ := key ops _
    ⟨fun _ => ⟨now, le_refl _, rfl⟩, fun h => absurd rfl h, fun h => (by rcases h with h | h <;> cases h), (fun _ h => nomatch h), (nomatch ·)⟩ h
  cases op with
  | callback seen =>
    simp only [buildStep] at h1
    split at h1
    · cases h1
    · rename_i hf
      have hpc : pc ≠ .allocated := by
        intro hp
        obtain ⟨t', _, hs⟩ := I.alloc hp
        simp only at hs
        exact hf (by rw [hs])
      obtain ⟨⟨t, l, k1, k2, k3⟩, h2, _⟩ := I.later hpc
      rw [callbackSeen_eq (h2 hf), Option.map_eq_none_iff] at h1
      refine ⟨t, l, _, k1, k2, k3, hf, ?_⟩
      simp only [State.step]
      rw [if_neg (by exact hf), timeoutCallback_complete, h1]
      rfl
  | arm => cases pc <;> cases h1
  | assign => cases pc <;> cases h1
  | begin => cases pc <;> cases h1
  | fill =>
    cases pc with
    | filling l => cases l <;> cases h1
    | _ => cases h1
  | ret =>
    cases pc with
    | filling l => cases l <;> cases h1
    | _ => cases h1
  | advance dt => cases h1
  | fire =>
    simp only [buildStep] at h1
    split at h1
    · split at h1 <;> cases h1
    · cases h1

/-- C115: undisturbed, `NewBaseState` returns the session `newBaseState`. -/
theorem C115_alone : build impl round timeout now
      ([.arm, .assign, .begin] ++ List.replicate (impl.partyIDs round).length .fill ++ [.ret]) = some ⟨.returned, newBaseState impl round timeout now⟩ := by
  have key : ∀ (l : List ID) (s : State G R), s.round = round → (List.replicate l.length BuildOp.fill ++ [BuildOp.ret]).foldlM (buildStep impl timeout) ⟨.filling l, s⟩ =
      some ⟨.returned, { s with received := initReceived (impl.selfID round) l s.received }⟩ := by
    intro l
    induction l with
    | nil => intro s _; rfl
    | cons id l ih =>
      intro s hs
      rw [List.length_cons, List.replicate_succ, List.cons_append, List.foldlM_cons]
      simp only [buildStep, Option.bind_eq_bind, Option.bind_some, hs]
      rw [ih _ rfl]
      rfl
  exact key (impl.partyIDs round) { (Building.alloc impl round now).s with timer := Timer.new timeout now } rfl

variable [RGroup G] {sha : Sha512}

/-- C115: the constructor of a signing session does not crash, whatever its timer does. -/
theorem C115_sign (r : Sign.Round G) (ops : List BuildOp) : build (Sign.impl sha) r timeout now ops ≠ none := by
  intro h
  obtain ⟨t, hist, s, _, hh, _, hf, hc⟩ := C115_crash sign_keepsIDs h
  have hcl := (C29_done_iff_closed (Sign.impl_stable sha) hh).1
  obtain ⟨types, received, queue, timer, number, r', closed, done, err⟩ := s
  simp only [isFinished] at hcl
  simp only at hf
  simp only [State.step, hf, if_false, timeoutCallback, reportError, finish, Sign.impl, Sign.reset] at hc
  cases done
  · cases closed
    · cases err <;> simp at hc
    · simp at hcl
  · simp at hc

/-- C115: the constructor of a key generation crashes if the time is up before it returns (and so does the session later, before the first `ProcessAll`,
`C33_keygen_timeout_crashes`). -/
theorem C115_keygen_crashes (self : ID) (ids : IDSlice) (t : UInt16) (r : Keygen.Round G) (hr : Keygen.newRound self ids t = .ok r) (ht : 0 < timeout)
    (seen : Bool) : build (Keygen.impl sha) r timeout now [.arm, .advance timeout, .fire, .callback seen] = none := by
  have hp : r.polynomial = none := by
    unfold Keygen.newRound Keygen.newBaseRound at hr
    simp only [bind_eq_ok, failIf_eq_ok, pure_def, Outcome.ok.injEq] at hr
    obtain ⟨_, _, _, _, _, _, h4⟩ := hr
    rw [← h4]
  simp [build, Building.alloc, buildStep, Timer.new, ht, callbackSeen, finishSeen, Keygen.impl, Keygen.reset, hp]

end Verif.Props
