import Verif.Spec.Alias
import Verif.Lemmas.SignInv
import Verif.Lemmas.Forward

/-!
Sessions whose caller writes to the memory of the message or of the list of parties.
-/

namespace Verif

open State

namespace Sign

variable {G : Type} [RGroup G] {sha : Sha512}

/-- The round with another message. -/
def withMessage (m : Bytes) (r : Round G) : Round G := { r with message := m }

theorem stage_cases (x : Stage) : x = .r0 ∨ x = .r1 ∨ x = .r2 := by cases x <;> simp

theorem process_r0 {r : Round G} (hs : r.stage = .r0) (msg : Option (Message G)) : (impl sha).processMessage r msg = .ok r := by
  simp only [impl, hs]

theorem process_r1 {r : Round G} (hs : r.stage = .r1) (msg : Option (Message G)) : (impl sha).processMessage r msg = process1 r msg := by
  simp only [impl, hs]

theorem process_r2 {r : Round G} (hs : r.stage = .r2) (msg : Option (Message G)) : (impl sha).processMessage r msg = process2 r msg := by
  simp only [impl, hs]

theorem process_fields {r r' : Round G} {msg : Option (Message G)} (h : (impl sha).processMessage r msg = .ok r') :
    ∃ ps, r' = { r with parties := ps } := by
  simp only [impl] at h
  rcases stage_cases r.stage with hs | hs | hs <;> rw [hs] at h
  · cases h; exact ⟨_, rfl⟩
  · obtain ⟨_, _, _, _, _, _, _, _, rfl⟩ := process1_ok.mp h; exact ⟨_, rfl⟩
  · obtain ⟨_, _, _, _, _, _, _, _, _, rfl⟩ := process2_ok.mp h; exact ⟨_, rfl⟩

theorem loop_fields {l : List (ID × Option (Message G))} {r r' : Round G} (h : processLoop (impl sha) l r = .ok r') :
    r' = { r with parties := r'.parties } := by
  induction l generalizing r with
  | nil => cases h; rfl
  | cons x l ih =>
    obtain ⟨_, msg⟩ := x
    unfold processLoop at h
    cases hp : (impl sha).processMessage r msg with
    | panic => rw [hp] at h; cases h
    | err e => rw [hp] at h; cases h
    | ok r₁ =>
      rw [hp] at h
      obtain ⟨ps, hps⟩ := process_fields hp
      have := ih h
      rw [hps] at this
      exact this

theorem process_ok_with {r r' : Round G} {msg : Option (Message G)} (m : Bytes) (h : (impl sha).processMessage r msg = .ok r') :
    (impl sha).processMessage (withMessage m r) msg = .ok (withMessage m r') := by
  rcases stage_cases r.stage with hs | hs | hs
  · rw [process_r0 hs] at h; cases h; exact process_r0 (r := withMessage m r) hs msg
  · rw [process_r1 hs] at h
    rw [process_r1 (r := withMessage m r) hs]
    obtain ⟨x, k, p, h1, h2, h3, h4, h5, rfl⟩ := process1_ok.mp h
    exact process1_ok.mpr ⟨x, k, p, h1, h2, h3, h4, h5, rfl⟩
  · rw [process_r2 hs] at h
    rw [process_r2 (r := withMessage m r) hs]
    obtain ⟨x, k, p, Ri, h1, h2, h3, h4, h5, rfl⟩ := process2_ok.mp h
    exact process2_ok.mpr ⟨x, k, p, Ri, h1, h2, h3, h4, h5, rfl⟩

theorem process_err_with {r r' : Round G} {msg : Option (Message G)} {e : StateErr} (m : Bytes)
    (h : (impl sha).processMessage r msg = .err (e, r')) :
    (impl sha).processMessage (withMessage m r) msg = .err (e, withMessage m r') := by
  rcases stage_cases r.stage with hs | hs | hs
  · rw [process_r0 hs] at h; cases h
  · rw [process_r1 hs] at h
    rw [process_r1 (r := withMessage m r) hs]
    obtain ⟨x, k, h1, h2, h3, h4, rfl⟩ := process1_err.mp h
    exact process1_err.mpr ⟨x, k, h1, h2, h3, h4, rfl⟩
  · rw [process_r2 hs] at h
    rw [process_r2 (r := withMessage m r) hs]
    obtain ⟨x, k, p, Ri, h1, h2, h3, h4, h5, h6, rfl⟩ := process2_err.mp h
    exact process2_err.mpr ⟨x, k, p, Ri, h1, h2, h3, h4, h5, h6, rfl⟩

theorem loop_ok_with {l : List (ID × Option (Message G))} {r r' : Round G} (m : Bytes) (h : processLoop (impl sha) l r = .ok r') :
    processLoop (impl sha) l (withMessage m r) = .ok (withMessage m r') := by
  induction l generalizing r with
  | nil => cases h; rfl
  | cons x l ih =>
    obtain ⟨_, msg⟩ := x
    unfold processLoop at h ⊢
    cases hp : (impl sha).processMessage r msg with
    | panic => rw [hp] at h; cases h
    | err e => rw [hp] at h; cases h
    | ok r₁ =>
      rw [hp] at h
      rw [process_ok_with m hp]
      exact ih h

theorem loop_err_with {l : List (ID × Option (Message G))} {r r' : Round G} {e : StateErr} (m : Bytes)
    (h : processLoop (impl sha) l r = .err (e, r')) : processLoop (impl sha) l (withMessage m r) = .err (e, withMessage m r') := by
  induction l generalizing r with
  | nil => cases h
  | cons x l ih =>
    obtain ⟨_, msg⟩ := x
    unfold processLoop at h ⊢
    cases hp : (impl sha).processMessage r msg with
    | panic => rw [hp] at h; cases h
    | err e' =>
      obtain ⟨e', r₁⟩ := e'
      rw [hp] at h
      rw [process_err_with m hp]
      cases h
      rfl
    | ok r₁ =>
      rw [hp] at h
      rw [process_ok_with m hp]
      exact ih h

/-- The session with another message. -/
def _root_.Verif.State.withMessage (m : Bytes) (s : State G (Round G)) : State G (Round G) :=
  { s with round := Sign.withMessage m s.round }

theorem handle_with (m : Bytes) (s : State G (Round G)) (msg : Message G) :
    handleMessage (impl sha) (s.withMessage m) msg =
      ((handleMessage (impl sha) s msg).1.withMessage m, (handleMessage (impl sha) s msg).2) := by
  obtain ⟨types, rc, q, tm, n, r, c, d, e⟩ := s
  unfold handleMessage
  simp only [State.withMessage, Sign.withMessage, impl, wrapError]
  cases d with
  | true => rfl
  | false =>
    cases types with
    | nil => rfl
    | cons t ts =>
      simp only [Bool.false_eq_true, if_false]
      by_cases h1 : msg.header.fromID = r.selfID
      · simp only [h1, if_true]
      by_cases h2 : msg.header.isBroadcast = false ∧ msg.header.toID ≠ r.selfID
      · simp only [h1, h2, ↓reduceIte, ne_eq, not_false_eq_true, and_self]
      by_cases h3 : IDSlice.contains r.partyIDs msg.header.fromID = false
      · simp only [h1, h2, h3, ↓reduceIte, Bool.true_eq_false, Bool.false_eq_true]
      by_cases h4 : rc.has msg.header.fromID = true
      · simp only [h1, h2, h3, h4, ↓reduceIte, Bool.true_eq_false, Bool.false_eq_true]
      by_cases h5 : isAcceptedType (t :: ts) msg.header.type = false
      · simp only [h1, h2, h3, h4, h5, ↓reduceIte, Bool.true_eq_false, Bool.false_eq_true]
      by_cases h6 : msg.header.type = t
      · simp only [h1, h2, h3, h4, h5, if_pos h6, ↓reduceIte, Bool.true_eq_false, Bool.false_eq_true]
      · simp only [h1, h2, h3, h4, h5, h6, ↓reduceIte, Bool.true_eq_false, Bool.false_eq_true]

theorem handle_done (s : State G (Round G)) (msg : Message G) :
    (handleMessage (impl sha) s msg).1.done = s.done ∧ (handleMessage (impl sha) s msg).1.roundNumber = s.roundNumber ∧
      (handleMessage (impl sha) s msg).1.round = s.round ∧ (handleMessage (impl sha) s msg).1.closed = s.closed ∧
      (handleMessage (impl sha) s msg).1.err = s.err := by
  have := handle_cases (impl sha) (s := s) (m := msg) (s' := (handleMessage (impl sha) s msg).1)
    (e := (handleMessage (impl sha) s msg).2) rfl
  generalize (handleMessage (impl sha) s msg).1 = s' at this ⊢
  generalize (handleMessage (impl sha) s msg).2 = e at this
  cases this <;> exact ⟨rfl, rfl, rfl, rfl, rfl⟩

/-- An event that does not come to use the message does the same whatever the message is. -/
theorem step_with {s s' : State G (Round G)} {op : Op G} {ret : Ret G} (m : Bytes) (hd : s.done = false)
    (h : step (impl sha) s op = some (s', ret))
    (hg : s.round.stage = .r0 ∨ s'.roundNumber = s.roundNumber ∧ (s.round.stage = .r1 ∨ s'.done = false)) :
    step (impl sha) (s.withMessage m) op = some (if s'.done = true then s' else s'.withMessage m, ret) := by
  rcases step_cases h with ⟨msg, e, rfl, rfl, h1⟩ | ⟨ord, coins, out, rfl, rfl, h1⟩ | ⟨dt, rfl, rfl, rfl⟩ |
    ⟨rfl, rfl, h1 | ⟨t, ht, hle, rfl⟩⟩ | ⟨rfl, rfl, ⟨hf, rfl⟩ | ⟨_, hd', _⟩ | ⟨r, hf, _, hc, hr, rfl⟩⟩
  · have h2 := handle_with (sha := sha) m s msg
    obtain ⟨h3, _⟩ := handle_done (sha := sha) s msg
    rw [h1] at h2 h3
    simp only [step, h2]
    rw [h3, hd]
    rfl
  · have key : ProcessCases (impl sha) ord coins (s.withMessage m) (if s'.done = true then s' else s'.withMessage m) out := by
      have hgen : ∀ {r₁ : Round G} {x : StateErr × Round G}, processLoop (impl sha) (ord.order _ s.received) s.round = .ok r₁ →
          s.round.stage ≠ .r2 → (impl sha).generateMessages ord coins r₁ ≠ .err x := by
        intro r₁ x h2 h3 h4
        have h5 := loop_fields h2
        simp only [impl] at h4
        have h6 : r₁.stage = s.round.stage := by rw [h5]
        cases hs : s.round.stage <;> rw [h6, hs] at h4
        · exact noErr_generate0 _ _ _ h4
        · exact noErr_generate1 _ _ _ _ h4
        · exact h3 hs
      cases h1 with
      | idle h2 =>
        rw [hd]
        simp only [Bool.false_eq_true, if_false]
        exact .idle (by rw [hd] at h2; simpa [State.withMessage, Full, impl, withMessage, hd] using h2)
      | processErr e r r' _ hf hp hr hc =>
        simp only [if_true]
        exact .processErr e (withMessage m r) r' hd hf (loop_err_with m hp) hr hc
      | generateErr e r₁ r r' _ hf hp hge hr hc =>
        exfalso
        refine hgen hp ?_ hge
        intro h2
        rw [h2] at hg
        simp at hg
      | last t types r₁ r r' out _ hf hp hge ht hn hr hc =>
        exfalso
        have h5 := loop_fields hp
        have h6 : r₁.stage = s.round.stage := by rw [h5]
        have h2 : s.round.stage ≠ .r2 := by
          intro h2
          rw [h2] at hg
          simp at hg
        simp only [impl] at hge hn
        cases hs : s.round.stage <;> rw [h6, hs] at hge
        · obtain ⟨p, _, rfl, _⟩ := generate0_ok.mp hge
          simp [h6, hs] at hn
        · obtain ⟨_, _, _, _, rfl, _⟩ := generate1_ok_fields hge
          simp [h6, hs] at hn
        · exact h2 hs
      | next t types r₁ r r' out _ hf hp hge ht hn =>
        rcases hg with hg | ⟨hg, _⟩
        swap
        · simp at hg
        rw [if_neg (by simp [hd])]
        have h5 := loop_fields hp
        have h6 : r₁.stage = .r0 := by rw [h5]; exact hg
        have hge' := hge
        simp only [impl, h6] at hge
        obtain ⟨p, h7, h8, rfl⟩ := generate0_ok.mp hge
        have h9 : r.stage = .r0 := by rw [h8]; exact h6
        refine ProcessCases.next (s := s.withMessage m) (coins := coins) t types (withMessage m r₁) (withMessage m r) (withMessage m r') [Message.newSign1 r₁.selfID (coins 0 • base) (coins 1 • base)] hd hf (loop_ok_with m hp) ?_ ht ?_
        · simp only [impl, withMessage, h6]
          exact generate0_ok.mpr ⟨p, h7, by rw [h8]; simp only [h6], rfl⟩
        · simp only [impl, h9, Option.some.injEq] at hn
          subst hn
          simp only [impl, withMessage, h9]
    simp only [step, (processAll_iff (impl sha)).mpr key]
    rfl
  · obtain ⟨types, rc, q, tm, n, r, c, d, e⟩ := s
    simp only [] at hd
    subst hd
    rfl
  · clear h1 hg
    obtain ⟨types, rc, q, tm, n, r, c, d, e⟩ := s
    simp only [] at hd
    subst hd
    have hw : State.withMessage m ⟨types, rc, q, tm, n, r, c, false, e⟩ = ⟨types, rc, q, tm, n, Sign.withMessage m r, c, false, e⟩ := rfl
    rw [hw]
    simp only [step] at h ⊢
    cases htm : tm.deadline with
    | none => rw [htm] at h; cases h; rfl
    | some t =>
      rw [htm] at h
      simp only [] at h ⊢
      by_cases hle : t ≤ tm.now
      · rw [if_pos hle] at h ⊢
        obtain ⟨g, _⟩ := Prod.mk.inj (Option.some.inj h)
        rw [← g]
        rfl
      · rw [if_neg hle] at h ⊢
        obtain ⟨g, _⟩ := Prod.mk.inj (Option.some.inj h)
        rw [← g]
        rfl
  · simp only [step, State.withMessage] at ht hle ⊢
    rw [ht]
    simp only []
    simp only [hle, hd, ↓reduceIte, Bool.false_eq_true]
  · rw [hd]
    simp only [step, State.withMessage, hf, if_true]
    rfl
  · rw [hd] at hd'
    cases hd'
  · simp only [step, State.withMessage, hf, if_false, timeoutCallback, if_true]
    rw [reportError_ok (impl sha) (s := { s with round := Sign.withMessage m s.round, timer := { s.timer with fired := s.timer.fired - 1 } }) hd hr hc]
    rfl

/-- What holds of a session while its caller writes; `w` is in the memory of the message. -/
structure Kept (key : G) (w : Bytes) (s : State G (Round G)) : Prop where
  number : s.roundNumber ≤ 2
  stage : s.done = false → s.round.stage = match s.roundNumber with | 0 => .r0 | 1 => .r1 | _ => .r2
  message : s.done = false → s.round.message = w
  open_ : s.done = false → s.closed = false ∧ s.err = none ∧ s.round.hasOutput = true ∧ s.round.output.signature = none
  shut : s.done = true → s.round.hasOutput = false
  key : s.round.groupKey = key

theorem step_done {s s' : State G (Round G)} {op : Op G} {ret : Ret G} (hd : s.done = true) (h : step (impl sha) s op = some (s', ret)) :
    s'.done = true ∧ s'.round = s.round ∧ s'.roundNumber = s.roundNumber ∧ s'.err = s.err := by
  rcases step_cases h with ⟨msg, e, rfl, rfl, h1⟩ | ⟨ord, coins, out, rfl, rfl, h1⟩ | ⟨dt, rfl, rfl, rfl⟩ |
    ⟨rfl, rfl, rfl | ⟨t, ht, hle, rfl⟩⟩ | ⟨rfl, rfl, ⟨hf, rfl⟩ | ⟨_, hd', rfl⟩ | ⟨r, hf, hd', hc, hr, rfl⟩⟩
  · obtain ⟨h2, h3, h4, _, h5⟩ := handle_done (sha := sha) s msg
    rw [h1] at h2 h3 h4 h5
    exact ⟨h2.trans hd, h4, h3, h5⟩
  · cases h1 with
    | idle => exact ⟨hd, rfl, rfl, rfl⟩
    | _ => simp_all
  all_goals first | exact ⟨hd, rfl, rfl, rfl⟩ | (rw [hd] at hd'; cases hd')

theorem Kept.step {key : G} {w : Bytes} {s s' : State G (Round G)} {op : Op G} {ret : Ret G} (hk : Kept key w s)
    (h : State.step (impl sha) s op = some (s', ret)) :
    Kept key w s' ∧ (s.done = false → ∀ sig, s'.round.output.signature = some sig →
      (∃ ord coins, op = .processAll ord coins) ∧ s'.done = true ∧ s'.err = none ∧ s.roundNumber = 2 ∧
        PublicKey.verify sha key w sig = .ok true) := by
  cases hd : s.done with
  | true =>
    obtain ⟨h1, h2, h3, _⟩ := step_done hd h
    exact ⟨⟨by rw [h3]; exact hk.number, by simp [h1], by simp [h1], by simp [h1], fun _ => by rw [h2]; exact hk.shut hd,
      by rw [h2]; exact hk.key⟩, by simp⟩
  | false =>
  obtain ⟨h1, h2, h3, h4⟩ := hk.open_ hd
  have hst := hk.stage hd
  have hn := hk.number
  rcases step_cases h with ⟨msg, e, rfl, rfl, h5⟩ | ⟨ord, coins, out, rfl, rfl, h5⟩ | ⟨dt, rfl, rfl, rfl⟩ |
    ⟨rfl, rfl, rfl | ⟨t, ht, hle, rfl⟩⟩ | ⟨rfl, rfl, ⟨hf, rfl⟩ | ⟨_, hd', rfl⟩ | ⟨r, hf, hd', hc, hr, rfl⟩⟩
  · obtain ⟨g1, g2, g3, g4, g5⟩ := handle_done (sha := sha) s msg
    rw [h5] at g1 g2 g3 g4 g5
    simp only [] at g1 g2 g3 g4 g5
    refine ⟨⟨by rw [g2]; exact hn, ?_, ?_, ?_, by simp [g1, hd], by rw [g3]; exact hk.key⟩, ?_⟩
    · intro _; rw [g2, g3]; exact hst
    · intro _; rw [g3]; exact hk.message hd
    · intro _; rw [g3, g4, g5]; exact ⟨h1, h2, h3, h4⟩
    · intro _ sig hsig; rw [g3, h4] at hsig; cases hsig
  · cases h5 with
    | idle => exact ⟨hk, fun _ sig hsig => by rw [h4] at hsig; cases hsig⟩
    | processErr e r r' _ hf hp hr hc =>
      have hpf : r.groupKey = s.round.groupKey ∧ r.output = s.round.output := by
        clear hf hr h
        generalize ord.order _ s.received = l at hp
        generalize s.round = r₀ at hp
        induction l generalizing r₀ with
        | nil => cases hp
        | cons x l ih =>
          obtain ⟨_, msg⟩ := x
          unfold processLoop at hp
          cases hp' : (impl sha).processMessage r₀ msg with
          | panic => rw [hp'] at hp; cases hp
          | err e' =>
            rw [hp'] at hp
            cases hp
            simp only [impl] at hp'
            cases hs : r₀.stage <;> rw [hs] at hp'
            · cases hp'
            · obtain ⟨_, _, _, _, _, _, rfl⟩ := process1_err.mp hp'; exact ⟨rfl, rfl⟩
            · obtain ⟨_, _, _, _, _, _, _, _, _, _, rfl⟩ := process2_err.mp hp'; exact ⟨rfl, rfl⟩
          | ok r₁ =>
            rw [hp'] at hp
            obtain ⟨g1, g2⟩ := ih r₁ hp
            have := loop_fields (sha := sha) (l := [(0, msg)]) (r := r₀) (r' := r₁) (by unfold processLoop; rw [hp']; rfl)
            exact ⟨by rw [g1, this], by rw [g2, this]⟩
      cases hr
      refine ⟨⟨hn, by simp, by simp, by simp, fun _ => rfl, hpf.1.trans hk.key⟩, ?_⟩
      intro _ sig hsig
      simp only [] at hsig
      rw [hpf.2, h4] at hsig
      cases hsig
    | generateErr e r₁ r r' _ hf hp hge hr hc =>
      have h6 := loop_fields hp
      have hpf : r = r₁ := by
        simp only [impl] at hge
        cases hs : r₁.stage <;> rw [hs] at hge
        · exact absurd hge (noErr_generate0 _ _ _)
        · exact absurd hge (noErr_generate1 _ _ _ _)
        · exact (generate2_err.mp hge).2.2
      subst hpf
      cases hr
      refine ⟨⟨hn, by simp, by simp, by simp, fun _ => rfl, ?_⟩, ?_⟩
      · simp only []
        rw [h6]
        exact hk.key
      · intro _ sig hsig
        simp only [] at hsig
        rw [h6] at hsig
        simp only [] at hsig
        rw [h4] at hsig
        cases hsig
    | last t types r₁ r r' out _ hf hp hge ht hnx hr hc =>
      have h6 := loop_fields hp
      have hs1 : r₁.stage = s.round.stage := by rw [h6]
      simp only [impl] at hge hnx
      cases hs : s.round.stage <;> rw [hs1, hs] at hge
      · obtain ⟨p, _, rfl, _⟩ := generate0_ok.mp hge
        simp [hs1, hs] at hnx
      · obtain ⟨_, _, _, _, rfl, _⟩ := generate1_ok_fields hge
        simp [hs1, hs] at hnx
      · obtain ⟨hv, ho, rfl, rfl⟩ := generate2_ok.mp hge
        cases hr
        have hkey : r₁.groupKey = key := by rw [h6]; exact hk.key
        have hmsg : r₁.message = w := by rw [h6]; exact hk.message hd
        refine ⟨⟨hn, by simp, by simp, by simp, fun _ => rfl, hkey⟩, ?_⟩
        intro _ sig hsig
        simp only [Option.some.injEq] at hsig
        subst hsig
        rw [hkey, hmsg] at hv
        refine ⟨⟨ord, coins, rfl⟩, rfl, h2, ?_, hv⟩
        rw [hs] at hst
        generalize s.roundNumber = n at hst hn
        match n, hst, hn with
        | 0, hst, _ => cases hst
        | 1, hst, _ => cases hst
        | 2, _, _ => rfl
    | next t types r₁ r r' out _ hf hp hge ht hnx =>
      have h6 := loop_fields hp
      have hs1 : r₁.stage = s.round.stage := by rw [h6]
      simp only [impl] at hge hnx
      cases hs : s.round.stage <;> rw [hs1, hs] at hge
      · obtain ⟨p, _, rfl, _⟩ := generate0_ok.mp hge
        simp only [hs1, hs, Option.some.injEq] at hnx
        subst hnx
        have hn0 : s.roundNumber = 0 := by
          rw [hs] at hst
          generalize s.roundNumber = n at hst hn
          match n, hst, hn with
          | 0, _, _ => rfl
          | 1, hst, _ => cases hst
          | 2, hst, _ => cases hst
        refine ⟨⟨?_, ?_, ?_, ?_, ?_, ?_⟩, ?_⟩
        · show s.roundNumber + 1 ≤ 2; omega
        · intro _; show Stage.r1 = _; simp [hn0]
        · intro _; show r₁.message = w; rw [h6]; exact hk.message hd
        · intro _; refine ⟨h1, h2, ?_, ?_⟩
          · show r₁.hasOutput = true; rw [h6]; exact h3
          · show r₁.output.signature = none; rw [h6]; exact h4
        · intro hd'; rw [hd] at hd'; cases hd'
        · show r₁.groupKey = key; rw [h6]; exact hk.key
        · intro _ sig hsig
          have hsig : r₁.output.signature = some sig := hsig
          rw [h6] at hsig
          simp only [] at hsig
          rw [h4] at hsig; cases hsig
      · obtain ⟨ps, R, C, z, rfl, _⟩ := generate1_ok_fields hge
        simp only [hs1, hs, Option.some.injEq] at hnx
        subst hnx
        have hn0 : s.roundNumber = 1 := by
          rw [hs] at hst
          generalize s.roundNumber = n at hst hn
          match n, hst, hn with
          | 0, hst, _ => cases hst
          | 1, _, _ => rfl
          | 2, hst, _ => cases hst
        refine ⟨⟨?_, ?_, ?_, ?_, ?_, ?_⟩, ?_⟩
        · show s.roundNumber + 1 ≤ 2; omega
        · intro _; show Stage.r2 = _; simp [hn0]
        · intro _; show r₁.message = w; rw [h6]; exact hk.message hd
        · intro _; refine ⟨h1, h2, ?_, ?_⟩
          · show r₁.hasOutput = true; rw [h6]; exact h3
          · show r₁.output.signature = none; rw [h6]; exact h4
        · intro hd'; rw [hd] at hd'; cases hd'
        · show r₁.groupKey = key; rw [h6]; exact hk.key
        · intro _ sig hsig
          have hsig : r₁.output.signature = some sig := hsig
          rw [h6] at hsig
          simp only [] at hsig
          rw [h4] at hsig; cases hsig
      · obtain ⟨_, _, rfl, _⟩ := generate2_ok.mp hge
        simp [hs1, hs] at hnx
  · exact ⟨⟨hn, hk.stage, hk.message, hk.open_, hk.shut, hk.key⟩, fun _ sig hsig => by simp only [] at hsig; rw [h4] at hsig; cases hsig⟩
  · exact ⟨hk, fun _ sig hsig => by rw [h4] at hsig; cases hsig⟩
  · exact ⟨⟨hn, hk.stage, hk.message, hk.open_, hk.shut, hk.key⟩, fun _ sig hsig => by simp only [] at hsig; rw [h4] at hsig; cases hsig⟩
  · exact ⟨hk, fun _ sig hsig => by rw [h4] at hsig; cases hsig⟩
  · rw [hd] at hd'; cases hd'
  · cases hr
    exact ⟨⟨hn, by simp, by simp, by simp, fun _ => rfl, hk.key⟩, fun _ sig hsig => by simp only [] at hsig; rw [h4] at hsig; cases hsig⟩

theorem Kept.write {key : G} {w : Bytes} {s : State G (Round G)} (hk : Kept key w s) (m : Bytes) :
    Kept key m { s with round := seeMessage m s.round } ∧
      ({ s with round := seeMessage m s.round } : State G (Round G)) = if s.done = true then s else s.withMessage m := by
  rcases Bool.eq_false_or_eq_true s.done with hd | hd
  · have h1 : seeMessage m s.round = s.round := by simp [seeMessage, hk.shut hd]
    rw [h1]
    exact ⟨⟨hk.number, by simp [hd], by simp [hd], by simp [hd], fun _ => hk.shut hd, hk.key⟩, by rw [if_pos hd]⟩
  · obtain ⟨h1, h2, h3, h4⟩ := hk.open_ hd
    have h5 : seeMessage m s.round = { s.round with message := m } := by simp [seeMessage, h3]
    rw [h5]
    exact ⟨⟨hk.number, hk.stage, fun _ => rfl, hk.open_, hk.shut, hk.key⟩, by rw [if_neg (by simp [hd])]; rfl⟩

/-- The session with another message, if it still runs. -/
def _root_.Verif.State.put (m : Bytes) (s : State G (Round G)) : State G (Round G) := if s.done = true then s else s.withMessage m

theorem put_done {s : State G (Round G)} (m : Bytes) (hd : s.done = true) : s.put m = s := if_pos hd

theorem put_run {s : State G (Round G)} (m : Bytes) (hd : s.done = false) : s.put m = s.withMessage m := if_neg (by simp [hd])

theorem Kept.put_write {key : G} {w : Bytes} {s : State G (Round G)} (hk : Kept key w s) (m m' : Bytes) :
    State.put m { s with round := seeMessage m' s.round } = s.put m := by
  have h2 := (hk.write m').2
  rcases Bool.eq_false_or_eq_true s.done with hd | hd
  · rw [if_pos hd] at h2
    rw [h2]
  · rw [if_neg (by simp [hd])] at h2
    rw [h2, put_run m hd, put_run m (show (s.withMessage m').done = false from hd)]
    rfl

theorem Kept.put_self {key : G} {w : Bytes} {s : State G (Round G)} (hk : Kept key w s) : s.put w = s := by
  rcases Bool.eq_false_or_eq_true s.done with hd | hd
  · exact put_done w hd
  · rw [put_run w hd, ← hk.message hd]
    rfl

/-- The last step of a session that succeeds, and what it is with another message. -/
theorem last_with {key : G} {w : Bytes} {s t : State G (Round G)} {ord : MapOrder} {coins : Coins} {out : List (Message G)} {sig : Signature G}
    (hk : Kept key w s) (hd : s.done = false) (h : processAll (impl sha) ord coins s = some (t, out))
    (hsig : t.round.output.signature = some sig) (m : Bytes) :
    s.roundNumber = 2 ∧ PublicKey.verify sha key w sig = .ok true ∧
    (PublicKey.verify sha key m sig = .ok true → processAll (impl sha) ord coins (s.withMessage m) = some (t, out)) ∧
    (PublicKey.verify sha key m sig ≠ .ok true → ∃ t', processAll (impl sha) ord coins (s.withMessage m) = some (t', []) ∧ t'.done = true ∧
      t'.err = some ⟨0, 2, .badSignature⟩ ∧ t'.round.output.signature = none) := by
  have hstep : State.step (impl sha) s (.processAll ord coins) = some (t, .messages out) := by
    simp only [State.step, h, Option.map_some]
  obtain ⟨_, _, _, hn, hv⟩ := (hk.step hstep).2 hd sig hsig
  refine ⟨hn, hv, ?_⟩
  obtain ⟨_, he0, hout, hnone⟩ := hk.open_ hd
  have hst : s.round.stage = .r2 := by rw [hk.stage hd, hn]; rfl
  cases (processAll_iff (impl sha)).mp h with
  | idle => rw [hnone] at hsig; cases hsig
  | processErr e r r' _ hf hp hr hc =>
    exfalso
    have := ((hk.step hstep).2 hd sig hsig).2.2.1
    simp at this
  | generateErr e r₁ r r' _ hf hp hge hr hc =>
    exfalso
    have := ((hk.step hstep).2 hd sig hsig).2.2.1
    simp at this
  | next t types r₁ r r' out _ hf hp hge ht hnx =>
    exfalso
    have := ((hk.step hstep).2 hd sig hsig).2.1
    simp [hd] at this
  | last ty types r₁ r r' out _ hf hp hge ht hnx hr hc =>
    have h6 := loop_fields hp
    have hs1 : r₁.stage = .r2 := by rw [h6]; exact hst
    have hkey : r₁.groupKey = key := by rw [h6]; exact hk.key
    have hge' : generate2 sha ord r₁ = .ok (r, out) := by simpa only [impl, hs1] using hge
    obtain ⟨hv₁, ho, rfl, rfl⟩ := generate2_ok.mp hge'
    cases hr
    simp only [Option.some.injEq] at hsig
    subst hsig
    constructor
    · intro hm
      refine (processAll_iff (impl sha)).mpr ?_
      refine ProcessCases.last (s := s.withMessage m) ty types (withMessage m r₁) { withMessage m r₁ with output := ⟨some (finalSig r₁)⟩ } _ []
        hd hf (loop_ok_with m hp) ?_ ht ?_ rfl hc
      · simp only [impl, withMessage, hs1]
        exact generate2_ok.mpr ⟨by simp only [hkey]; exact hm, ho, by simp only [hs1]; rfl, rfl⟩
      · simp only [impl, withMessage, hs1]
    · intro hm
      obtain ⟨b, hb, _⟩ := Props.C50_verify_iff sha key m (finalSig r₁)
      have hb' : b = false := by
        cases b
        · rfl
        · exact absurd hb hm
      subst hb'
      refine ⟨_, (processAll_iff (impl sha)).mpr (ProcessCases.generateErr (s := s.withMessage m) (.new 0 .badSignature) (withMessage m r₁) (withMessage m r₁) _
        hd hf (loop_ok_with m hp) ?_ rfl hc), rfl, ?_, ?_⟩
      · simp only [impl, withMessage, hs1]
        exact generate2_err.mpr ⟨by simp only [hkey]; exact hb, rfl, by simp only [hs1]⟩
      · show some ((s.withMessage m).err.getD _) = _
        rw [show (s.withMessage m).err = none from he0]
        show some (StateErr.mk 0 s.roundNumber .badSignature) = _
        rw [hn]
      · show r₁.output.signature = none
        rw [h6]
        exact hnone

end Sign

end Verif
