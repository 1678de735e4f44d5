import Verif.Lemmas.Race

/-!
The histories of `State` are executions in which all reads are made with the mutex held.
-/

namespace Verif.Race

open Verif.Spec.GoMem

variable {Ω G R : Type}

/-- `tr` is an execution that may be continued with the mutex as in `h`, with the values given. -/
structure Reach (tr : Trace Ω) (h : Holder) (done : Bool) (err : Option StateErr) (out : Option Ω) (closed : Bool) : Prop where
  exec : ∃ hs, Executes tr hs ∧ hs tr.length = h
  reads : ∀ (j t : Nat) (x : Var) (v : Val Ω x), tr[j]? = some ⟨t, .read x v⟩ → After init tr j x v
  recv : ∀ j t : Nat, tr[j]? ≠ some ⟨t, .recv⟩
  done : Final init tr .done done
  err : Final init tr .err err
  out : Final init tr .out out
  closed : (∃ i t : Nat, tr[i]? = some ⟨t, .close⟩) ↔ closed = true

theorem Reach.allowed {tr : Trace Ω} {h done err out closed} (hr : Reach tr h done err out closed) : Allowed init tr :=
  ⟨fun j t x v hj => valueAt_maySee (hr.reads j t x v hj), fun j t hj => absurd hj (hr.recv j t)⟩

theorem get_append {tr : Trace Ω} {e e' : Event Ω} {i : Nat} (h : (tr ++ [e])[i]? = some e') : (i < tr.length ∧ tr[i]? = some e') ∨ (i = tr.length ∧ e' = e) := by
  rcases Nat.lt_trichotomy i tr.length with hlt | heq | hlt
  · rw [List.getElem?_append_left hlt] at h
    exact Or.inl ⟨hlt, h⟩
  · subst heq
    rw [List.getElem?_concat_length] at h
    exact Or.inr ⟨rfl, (Option.some.inj h).symm⟩
  · have := (List.getElem?_eq_some_iff.mp h).1
    simp at this
    omega

theorem executes_append {tr : Trace Ω} {hs : Nat → Holder} {e : Event Ω} {h' : Holder} (hx : Executes tr hs) (hn : Next (hs tr.length) e h') :
    ∃ hs', Executes (tr ++ [e]) hs' ∧ hs' (tr ++ [e]).length = h' := by
  refine ⟨fun i => if i ≤ tr.length then hs i else h', ⟨by simp [hx.1], fun i e' he => ?_⟩, by simp⟩
  rcases get_append he with ⟨hlt, h⟩ | ⟨rfl, rfl⟩
  · show Next (if i ≤ tr.length then hs i else h') e' (if i + 1 ≤ tr.length then hs (i + 1) else h')
    rw [if_pos (by omega), if_pos (by omega)]
    exact hx.2 i e' h
  · simpa using hn

theorem after_append {tr : Trace Ω} {e : Event Ω} {n : Nat} {x : Var} {v : Val Ω x} (hn : n ≤ tr.length) (h : After init tr n x v) :
    After init (tr ++ [e]) n x v := by
  rcases h with ⟨i, t, h1, h2, h3⟩ | ⟨h1, h2⟩
  · refine Or.inl ⟨i, t, h1, by rw [List.getElem?_append_left (by omega)]; exact h2, fun k u v' hik hkn => ?_⟩
    rw [List.getElem?_append_left (by omega)]
    exact h3 k u v' hik hkn
  · refine Or.inr ⟨h1, fun k u v' hkn => ?_⟩
    rw [List.getElem?_append_left (by omega)]
    exact h2 k u v' hkn

theorem final_keep {tr : Trace Ω} {e : Event Ω} {x : Var} {v : Val Ω x} (hw : writes e.act ≠ some x) (h : Final init tr x v) :
    Final init (tr ++ [e]) x v := by
  have hne : ∀ u v', e ≠ ⟨u, .write x v'⟩ := by
    rintro u v' rfl
    exact hw rfl
  have last : ∀ (u : Nat) (v' : Val Ω x), (tr ++ [e])[tr.length]? ≠ some ⟨u, .write x v'⟩ := by
    intro u v' h
    rw [List.getElem?_concat_length] at h
    exact hne u v' (Option.some.inj h)
  rcases after_append (e := e) le_rfl h with ⟨i, t, h1, h2, h3⟩ | ⟨h1, h2⟩
  · refine Or.inl ⟨i, t, by simp; omega, h2, fun k u v' hik hkn => ?_⟩
    rcases Nat.lt_or_ge k tr.length with hlt | hge
    · exact h3 k u v' hik hlt
    · obtain rfl : k = tr.length := by simp at hkn; omega
      exact last u v'
  · refine Or.inr ⟨h1, fun k u v' hkn => ?_⟩
    rcases Nat.lt_or_ge k tr.length with hlt | hge
    · exact h2 k u v' hlt
    · obtain rfl : k = tr.length := by simp at hkn; omega
      exact last u v'

theorem final_write {tr : Trace Ω} {t : Nat} {x : Var} (v : Val Ω x) : Final init (tr ++ [⟨t, .write x v⟩]) x v := by
  refine Or.inl ⟨tr.length, t, by simp, by rw [List.getElem?_concat_length], fun k u v' hk hkn => ?_⟩
  simp at hkn
  omega

theorem closed_append {tr : Trace Ω} {e : Event Ω} {c : Bool} (h : (∃ i t : Nat, tr[i]? = some ⟨t, .close⟩) ↔ c = true) :
    (∃ i t : Nat, (tr ++ [e])[i]? = some ⟨t, .close⟩) ↔ (c || closes e.act) = true := by
  rw [Bool.or_eq_true, ← h, closes_iff]
  constructor
  · rintro ⟨i, t, h⟩
    rcases get_append h with ⟨_, h⟩ | ⟨_, h⟩
    · exact Or.inl ⟨i, t, h⟩
    · exact Or.inr ⟨t, h.symm⟩
  · rintro (⟨i, t, h⟩ | ⟨t, rfl⟩)
    · refine ⟨i, t, ?_⟩
      rw [List.getElem?_append_left (List.getElem?_eq_some_iff.mp h).1]
      exact h
    · exact ⟨tr.length, t, by rw [List.getElem?_concat_length]⟩

section
variable {tr : Trace Ω} {h h' : Holder} {done : Bool} {err : Option StateErr} {out : Option Ω} {closed : Bool}

theorem reads_append {e : Event Ω} (hr : ∀ (j t : Nat) (x : Var) (v : Val Ω x), tr[j]? = some ⟨t, .read x v⟩ → After init tr j x v)
    (he : ∀ t x v, e = ⟨t, .read x v⟩ → Final init tr x v) (j t : Nat) (x : Var) (v : Val Ω x) (hj : (tr ++ [e])[j]? = some ⟨t, .read x v⟩) :
    After init (tr ++ [e]) j x v := by
  rcases get_append hj with ⟨hlt, h⟩ | ⟨rfl, h⟩
  · exact after_append hlt.le (hr j t x v h)
  · exact after_append le_rfl (he t x v h.symm)

theorem recv_append {e : Event Ω} (hr : ∀ j t : Nat, tr[j]? ≠ some ⟨t, .recv⟩) (he : e.act ≠ .recv) (j t : Nat) : (tr ++ [e])[j]? ≠ some ⟨t, .recv⟩ := by
  intro hj
  rcases get_append hj with ⟨_, h⟩ | ⟨_, h⟩
  · exact hr j t h
  · exact he (by rw [← h])

theorem Reach.next {e : Event Ω} {done' : Bool} {err' : Option StateErr} {out' : Option Ω} (hr : Reach tr h done err out closed) (hn : Next h e h')
    (he : ∀ t x v, e = ⟨t, .read x v⟩ → Final init tr x v) (hrecv : e.act ≠ .recv)
    (hd : Final init (tr ++ [e]) .done done') (her : Final init (tr ++ [e]) .err err') (ho : Final init (tr ++ [e]) .out out') :
    Reach (tr ++ [e]) h' done' err' out' (closed || closes e.act) := by
  obtain ⟨hs, hx, rfl⟩ := hr.exec
  exact ⟨executes_append hx hn, reads_append hr.reads he, recv_append hr.recv hrecv, hd, her, ho, closed_append hr.closed⟩

theorem Reach.lock (t : Nat) (hr : Reach tr none done err out closed) : Reach (tr ++ [⟨t, .lock⟩]) (some (t, .entered)) done err out closed := by
  simpa [closes] using hr.next .lock (by simp) (by simp) (final_keep (by simp [writes]) hr.done) (final_keep (by simp [writes]) hr.err)
    (final_keep (by simp [writes]) hr.out)

theorem Reach.unlock {t : Nat} {p : Phase} (hp : p = .working ∨ p = .leaving) (hr : Reach tr (some (t, p)) done err out closed) :
    Reach (tr ++ [⟨t, .unlock⟩]) none done err out closed := by
  have hn : Next (Ω := Ω) (some (t, p)) ⟨t, .unlock⟩ none := by
    rcases hp with rfl | rfl
    · exact .quiet
    · exact .leave
  simpa [closes] using hr.next hn (by simp) (by simp) (final_keep (by simp [writes]) hr.done) (final_keep (by simp [writes]) hr.err)
    (final_keep (by simp [writes]) hr.out)

theorem Reach.finished {t : Nat} (hr : Reach tr (some (t, .entered)) true err out closed) :
    Reach (tr ++ [⟨t, .read .done true⟩]) (some (t, .leaving)) true err out closed := by
  simpa [closes] using hr.next .finished (by rintro _ _ _ ⟨⟩; exact hr.done) (by simp) (final_keep (by simp [writes]) hr.done)
    (final_keep (by simp [writes]) hr.err) (final_keep (by simp [writes]) hr.out)

theorem Reach.unfinished {t : Nat} (hr : Reach tr (some (t, .entered)) false err out closed) :
    Reach (tr ++ [⟨t, .read .done false⟩]) (some (t, .working)) false err out closed := by
  simpa [closes] using hr.next .unfinished (by rintro _ _ _ ⟨⟩; exact hr.done) (by simp) (final_keep (by simp [writes]) hr.done)
    (final_keep (by simp [writes]) hr.err) (final_keep (by simp [writes]) hr.out)

theorem Reach.output {t : Nat} (o : Option Ω) (hr : Reach tr (some (t, .working)) done err out closed) :
    Reach (tr ++ [⟨t, .write .out o⟩]) (some (t, .working)) done err o closed := by
  simpa [closes] using hr.next (.output o) (by simp) (by simp) (final_keep (by simp [writes]) hr.done)
    (final_keep (by simp [writes]) hr.err) (final_write (x := .out) o)

theorem Reach.report {t : Nat} (e : StateErr) (hr : Reach tr (some (t, .working)) done err out closed) :
    Reach (tr ++ [⟨t, .write .err (some e)⟩]) (some (t, .reported)) done (some e) out closed := by
  simpa [closes] using hr.next (.report e) (by simp) (by simp) (final_keep (by simp [writes]) hr.done)
    (final_write (x := .err) (some e)) (final_keep (by simp [writes]) hr.out)

theorem Reach.finish {t : Nat} {p : Phase} (hp : p = .working ∨ p = .reported) (hr : Reach tr (some (t, p)) done err out closed) :
    Reach (tr ++ [⟨t, .write .done true⟩]) (some (t, .closing)) true err out closed := by
  have hn : Next (Ω := Ω) (some (t, p)) ⟨t, .write .done true⟩ (some (t, .closing)) := by
    rcases hp with rfl | rfl
    · exact .finish
    · exact .abort
  simpa [closes] using hr.next hn (by simp) (by simp) (final_write (x := .done) true) (final_keep (by simp [writes]) hr.err)
    (final_keep (by simp [writes]) hr.out)

theorem Reach.close {t : Nat} (hr : Reach tr (some (t, .closing)) done err out closed) :
    Reach (tr ++ [⟨t, .close⟩]) (some (t, .leaving)) done err out true := by
  simpa [closes] using hr.next .close (by simp) (by simp) (final_keep (by simp [writes]) hr.done) (final_keep (by simp [writes]) hr.err)
    (final_keep (by simp [writes]) hr.out)

end

/-- How a step of a `State` changes the variables. -/
theorem step_shape (impl : RoundImpl G R) {s s' : State G R} {op : State.Op G} {ret : State.Ret G} (h : State.step impl s op = some (s', ret)) :
    (s.done = true → s'.done = true ∧ s'.err = s.err ∧ s'.closed = s.closed ∧ s'.round = s.round) ∧
    (s.done = false → s.err = none → s.closed = false →
      (s'.done = false ∧ s'.err = none ∧ s'.closed = false) ∨ (s'.done = true ∧ s'.closed = true)) := by
  have hfin : ∀ (s s' : State G R), State.finish impl s = some s' → s.done = false → s'.done = true ∧ s'.closed = true := by
    intro s s' h hd
    unfold State.finish at h
    rw [hd] at h
    simp only [Bool.false_eq_true, if_false, Option.bind_eq_bind, Option.bind_eq_some_iff] at h
    obtain ⟨r, _, h⟩ := h
    split at h
    · cases h
    · cases h; exact ⟨rfl, rfl⟩
  have hrep : ∀ (s s' : State G R) e, State.reportError impl s e = some s' → s.done = false → s'.done = true ∧ s'.closed = true := by
    intro s s' e h hd
    unfold State.reportError at h
    rw [if_neg (by simp [hd])] at h
    refine hfin _ _ h ?_
    split <;> exact hd
  cases op with
  | handle msg =>
    simp only [State.step, Option.some.injEq, Prod.mk.injEq] at h
    obtain ⟨rfl, _⟩ := h
    unfold State.handleMessage
    constructor
    · intro hd
      simp [hd]
    · intro hd he hc
      left
      simp only [hd, Bool.false_eq_true, if_false]
      repeat' split
      all_goals simp [hd, he, hc]
  | processAll ord coins =>
    simp only [State.step, Option.map_eq_some_iff] at h
    obtain ⟨⟨s1, out⟩, h, h2⟩ := h
    cases h2
    unfold State.processAll at h
    constructor
    · intro hd
      rw [if_pos hd] at h
      cases h
      exact ⟨hd, rfl, rfl, rfl⟩
    · intro hd he hc
      rw [if_neg (by simp [hd])] at h
      split at h
      · cases h; exact Or.inl ⟨hd, he, hc⟩
      · split at h
        · cases h
        · simp only [Option.bind_eq_bind, Option.bind_eq_some_iff] at h
          obtain ⟨s2, h3, h4⟩ := h
          cases h4
          exact Or.inr (hrep _ _ _ h3 hd)
        · dsimp only at h
          split at h
          · cases h
          · simp only [Option.bind_eq_bind, Option.bind_eq_some_iff] at h
            obtain ⟨s2, h3, h4⟩ := h
            cases h4
            exact Or.inr (hrep _ _ _ h3 hd)
          · split at h
            · cases h
            · split at h
              · simp only [Option.bind_eq_bind, Option.bind_eq_some_iff] at h
                obtain ⟨s2, h3, h4⟩ := h
                cases h4
                refine Or.inr (hfin _ _ h3 ?_)
                split <;> exact hd
              · cases h
                left
                split <;> exact ⟨hd, he, hc⟩
  | advance dt =>
    cases h
    exact ⟨fun hd => ⟨hd, rfl, rfl, rfl⟩, fun hd he hc => Or.inl ⟨hd, he, hc⟩⟩
  | fire =>
    simp only [State.step] at h
    split at h
    · split at h <;> cases h <;> exact ⟨fun hd => ⟨hd, rfl, rfl, rfl⟩, fun hd he hc => Or.inl ⟨hd, he, hc⟩⟩
    · cases h; exact ⟨fun hd => ⟨hd, rfl, rfl, rfl⟩, fun hd he hc => Or.inl ⟨hd, he, hc⟩⟩
  | callback =>
    simp only [State.step] at h
    split at h
    · cases h; exact ⟨fun hd => ⟨hd, rfl, rfl, rfl⟩, fun hd he hc => Or.inl ⟨hd, he, hc⟩⟩
    · simp only [Option.map_eq_some_iff] at h
      obtain ⟨s1, h, h2⟩ := h
      cases h2
      refine ⟨fun hd => ?_, fun hd _ _ => Or.inr (hrep _ _ _ h hd)⟩
      unfold State.timeoutCallback State.reportError at h
      rw [if_pos hd] at h
      cases h
      exact ⟨hd, rfl, rfl, rfl⟩

end Verif.Race
