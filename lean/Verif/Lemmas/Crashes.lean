import Verif.Lemmas.StateHist
import Verif.Lemmas.KeygenInv
import Verif.Lemmas.SignInv
import Verif.Lemmas.Stage
import Verif.Props.KeygenOut
import Verif.Props.Crash

/-!
When `ProcessAll` panics: what each step of it needs.
-/

namespace Verif

open State Outcome

variable {G R : Type} [RGroup G] {impl : RoundImpl G R} {sha : Sha512}

namespace State

omit [RGroup G] in
/-- When every step is fine, `ProcessAll` returns. -/
theorem processAll_isSome {ord : MapOrder} {coins : Coins} {s : State G R} (hcl : s.closed = s.done) (ht : s.done = false → s.acceptedTypes ≠ [])
    (hloop : s.done = false → Full impl s → processLoop impl (ord.order _ s.received) s.round ≠ .panic)
    (herr : ∀ e r, processLoop impl (ord.order _ s.received) s.round = .err (e, r) → ∃ r', impl.reset r = some r')
    (hgen : s.done = false → Full impl s → ∀ r, processLoop impl (ord.order _ s.received) s.round = .ok r →
      (∃ e r₂ r', impl.generateMessages ord coins r = .err (e, r₂) ∧ impl.reset r₂ = some r') ∨
      ∃ r₂ out, impl.generateMessages ord coins r = .ok (r₂, out) ∧ (impl.nextRound r₂ = none → ∃ r', impl.reset r₂ = some r')) :
    ∃ x, processAll impl ord coins s = some x := by
  unfold processAll
  by_cases hd : s.done = true
  · exact ⟨_, if_pos hd⟩
  · rw [if_neg hd]
    have hd : s.done = false := by simpa using hd
    split
    · exact ⟨_, rfl⟩
    · rename_i hf
      have hf : Full impl s := not_not.mp hf
      have hcl : s.closed = false := by rw [hcl, hd]
      cases hl : processLoop impl (ord.order _ s.received) s.round with
      | panic => exact absurd hl (hloop hd hf)
      | err x =>
        obtain ⟨e, r⟩ := x
        obtain ⟨r', hr'⟩ := herr e r hl
        simp only []
        rw [reportError_ok impl (s := { s with round := r }) hd hr' hcl]
        exact ⟨_, rfl⟩
      | ok r =>
        simp only []
        rcases hgen hd hf r hl with ⟨e, r₂, r', hg, hr⟩ | ⟨r₂, out, hg, hr⟩
        · rw [hg]
          simp only []
          rw [reportError_ok impl (s := { s with received := [], round := r₂ }) hd hr hcl]
          exact ⟨_, rfl⟩
        · rw [hg]
          simp only []
          cases hts : s.acceptedTypes with
          | nil => exact absurd hts (ht hd)
          | cons t types =>
            simp only []
            cases types with
            | nil =>
              simp only []
              cases hn : impl.nextRound r₂ with
              | some next => exact ⟨_, rfl⟩
              | none =>
                obtain ⟨r', hr'⟩ := hr hn
                simp only []
                rw [finish_ok impl (r := r') (by exact hd) hr' (by exact hcl)]
                exact ⟨_, rfl⟩
            | cons t' types =>
              simp only []
              cases hn : impl.nextRound r₂ with
              | some next => exact ⟨_, rfl⟩
              | none =>
                obtain ⟨r', hr'⟩ := hr hn
                simp only []
                rw [finish_ok impl (r := r') (by exact hd) hr' (by exact hcl)]
                exact ⟨_, rfl⟩

omit [RGroup G] in
/-- What holds of the round object holds until a message fails. -/
theorem loop_keeps {Q : R → Prop} (hQ : ∀ r v r', Q r → impl.processMessage r v = .ok r' → Q r')
    (hE : ∀ r v e r', Q r → impl.processMessage r v = .err (e, r') → Q r') :
    ∀ (l : List (ID × Option (Message G))) (r : R), Q r →
      (∀ r', processLoop impl l r = .ok r' → Q r') ∧ (∀ e r', processLoop impl l r = .err (e, r') → Q r') ∧
      (processLoop impl l r = .panic → ∃ k v r', (k, v) ∈ l ∧ Q r' ∧ impl.processMessage r' v = .panic)
  | [], r, hr => ⟨(fun r' h => (by cases h; exact hr)), (fun e r' h => (by cases h)), (fun h => (by cases h))⟩
  | (k, v) :: l, r, hr => by
    unfold processLoop
    cases hv : impl.processMessage r v with
    | panic => exact ⟨(fun _ h => (by cases h)), (fun _ _ h => (by cases h)), fun _ => ⟨k, v, r, List.mem_cons_self, hr, hv⟩⟩
    | err x =>
      obtain ⟨e, r'⟩ := x
      exact ⟨(fun _ h => (by cases h)), (fun e' r'' h => (by cases h; exact hE r v e r' hr hv)), (fun h => (by cases h))⟩
    | ok r₁ =>
      obtain ⟨h1, h2, h3⟩ := loop_keeps hQ hE l r₁ (hQ r v r₁ hr hv)
      refine ⟨h1, h2, fun h => ?_⟩
      obtain ⟨k', v', r', hm, h⟩ := h3 h
      exact ⟨k', v', r', List.mem_cons_of_mem _ hm, h⟩

omit [RGroup G] in
/-- A stored message whose processing always panics: some order reaches it first. -/
theorem first_crashes {Q : R → Prop} {m : Message G} (hQ : ∀ r v r', Q r → impl.processMessage r v = .ok r' → Q r')
    (hp : ∀ r, Q r → impl.processMessage r (some m) = .panic) {s : State G R} (hr : Q s.round) (hd : s.done = false) (hf : Full impl s)
    (hwf : s.received.WF) {j : ID} (hm : (j, some m) ∈ s.received) :
    (∀ coins, processAll impl (Props.orderFirst j) coins s = none) ∧
      ∀ ord coins s' out, processAll impl ord coins s = some (s', out) → s'.done = true ∧ s'.err ≠ none := by
  refine ⟨fun coins => ?_, fun ord coins s' out h => ?_⟩
  · have hfil : s.received.filter (fun e => decide (e.1 = j)) = [(j, some m)] := by
      have hnd : (s.received.map Prod.fst).Nodup := hwf
      have key : ∀ l : List (ID × Option (Message G)), (l.map Prod.fst).Nodup → (j, some m) ∈ l →
          l.filter (fun e => decide (e.1 = j)) = [(j, some m)] := by
        intro l
        induction l with
        | nil => intro _ h; cases h
        | cons a l ih =>
          intro hnd hm
          rw [List.map_cons, List.nodup_cons] at hnd
          rcases List.mem_cons.mp hm with rfl | hm
          · rw [List.filter_cons_of_pos (by simp)]
            congr 1
            rw [List.filter_eq_nil_iff]
            intro e he
            simp only [decide_eq_true_eq]
            intro h
            exact hnd.1 (List.mem_map.mpr ⟨e, he, h⟩)
          · rw [List.filter_cons_of_neg (by
              simp only [decide_eq_true_eq]
              intro h
              exact hnd.1 (by rw [h]; exact List.mem_map_of_mem hm))]
            exact ih hnd.2 hm
      exact key _ hnd hm
    have hloop : processLoop impl ((Props.orderFirst j).order _ s.received) s.round = .panic := by
      show processLoop impl (s.received.filter (fun e => decide (e.1 = j)) ++ _) s.round = .panic
      rw [hfil]
      simp [processLoop, hp _ hr]
    have hf : s.received.length = (IDSlice.N (impl.partyIDs s.round) - 1).toNat := hf
    unfold processAll
    simp only [hd, Bool.false_eq_true, if_false, hf, ne_eq, not_true, hloop]
  · have hno := Props.loop_ne_ok hQ hp (k := j) (ord.order _ s.received) s.round hr ((ord.perm _ _).mem_iff.mpr hm)
    have hpc := (processAll_iff impl).mp h
    clear h
    cases hpc with
    | idle h =>
      rcases h with h | h
      · rw [hd] at h; cases h
      · exact absurd hf h
    | processErr e r r' => exact ⟨rfl, by simp⟩
    | generateErr e r₁ r r' _ _ h => exact absurd h (hno _)
    | last _ _ r₁ r r' _ _ _ h => exact absurd h (hno _)
    | next _ _ r₁ r r' _ _ _ h => exact absurd h (hno _)

end State

namespace Keygen

theorem process1_panics {r : Round G} {v : Option (Message G)} (hsum : r.commitmentsSum ≠ none) (h : process1 sha r v = .panic) :
    v = none ∨ ∃ m, v = some m ∧ ∀ k, m.keyGen1 = some k → k.commitments = [] := by
  cases v with
  | none => exact Or.inl rfl
  | some m =>
    refine Or.inr ⟨m, rfl, fun k hk => ?_⟩
    by_contra hne
    obtain ⟨c, hc⟩ := getElem?_zero_iff.mpr hne
    obtain ⟨sum, hsum⟩ := Option.ne_none_iff_exists'.mp hsum
    by_cases hS : k.proof.S = 0
    · rw [process1_ok.mpr ⟨m, k, c, sum, rfl, hk, hc, hS, hsum, rfl⟩] at h
      cases h
    · rw [process1_err.mpr ⟨m, k, c, rfl, hk, hc, hS, rfl, rfl⟩] at h
      cases h

theorem process2_panics {r : Round G} {v : Option (Message G)} (h0 : r.selfID ≠ 0) (h : process2 r v = .panic) :
    v = none ∨ ∃ m, v = some m ∧ (m.keyGen2 = none ∨ r.commitments.get? m.header.fromID = none) := by
  cases v with
  | none => exact Or.inl rfl
  | some m =>
    refine Or.inr ⟨m, rfl, ?_⟩
    by_contra hne
    rw [not_or] at hne
    obtain ⟨k, hk⟩ := Option.ne_none_iff_exists'.mp hne.1
    obtain ⟨c, hc⟩ := Option.ne_none_iff_exists'.mp hne.2
    by_cases hS : k.share • (base : G) = Verif.Spec.evalAt c r.selfID.val
    · rw [process2_ok.mpr ⟨m, k, c, rfl, hk, hc, h0, hS, rfl⟩] at h
      cases h
    · rw [process2_err.mpr ⟨m, k, c, rfl, hk, hc, h0, hS, rfl, rfl⟩] at h
      cases h

theorem process2_nil {r : Round G} {m : Message G} (h : m.keyGen2 = none) : process2 r (some m) = .panic := by
  unfold process2
  rw [deref_some, ok_bind, h]
  rfl

end Keygen

namespace Sign

theorem process1_panics {r : Round G} {v : Option (Message G)} (h : process1 r v = .panic) :
    v = none ∨ ∃ m, v = some m ∧ (m.sign1 = none ∨ r.parties.get? m.header.fromID = none) := by
  cases v with
  | none => exact Or.inl rfl
  | some m =>
    refine Or.inr ⟨m, rfl, ?_⟩
    by_contra hne
    rw [not_or] at hne
    obtain ⟨k, hk⟩ := Option.ne_none_iff_exists'.mp hne.1
    obtain ⟨p, hp⟩ := Option.ne_none_iff_exists'.mp hne.2
    by_cases hz : k.Di = 0 ∨ k.Ei = 0
    · rw [process1_err.mpr ⟨m, k, rfl, hk, hz, rfl, rfl⟩] at h
      cases h
    · rw [not_or] at hz
      rw [process1_ok.mpr ⟨m, k, p, rfl, hk, hz.1, hz.2, hp, rfl⟩] at h
      cases h

theorem process2_panics {r : Round G} {v : Option (Message G)} (h : process2 r v = .panic) :
    v = none ∨ ∃ m, v = some m ∧ (m.sign2 = none ∨ ∀ p, r.parties.get? m.header.fromID = some p → p.Ri = none) := by
  cases v with
  | none => exact Or.inl rfl
  | some m =>
    refine Or.inr ⟨m, rfl, ?_⟩
    by_contra hne
    rw [not_or] at hne
    obtain ⟨h1, h2⟩ := hne
    obtain ⟨k, hk⟩ := Option.ne_none_iff_exists'.mp h1
    push Not at h2
    obtain ⟨p, hp, h3⟩ := h2
    obtain ⟨Ri, hRi⟩ := Option.ne_none_iff_exists'.mp h3
    by_cases he : k.Zi • (base : G) = Ri + r.C • p.pub
    · rw [process2_ok.mpr ⟨m, k, p, Ri, rfl, hp, hk, hRi, he, rfl⟩] at h
      cases h
    · rw [process2_err.mpr ⟨m, k, p, Ri, rfl, hp, hk, hRi, he, rfl, rfl⟩] at h
      cases h

theorem process1_nil {r : Round G} {m : Message G} (h : m.sign1 = none) : process1 r (some m) = .panic := by
  unfold process1
  rw [deref_some, ok_bind, h]
  rfl

theorem process2_nil {r : Round G} {m : Message G} (h : m.sign2 = none) : process2 r (some m) = .panic := by
  unfold process2
  simp only [deref_some, ok_bind, h]
  cases hp : r.parties.get? m.header.fromID <;> rfl

end Sign

end Verif
