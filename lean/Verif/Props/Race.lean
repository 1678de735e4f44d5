import Verif.Lemmas.RaceState
import Mathlib.Tactic.IntervalCases

/-!
C85: "It is safe to use the output when State.WaitForError() returns nil", by the Go memory model, for any number of goroutines calling the
methods of one `State`.
-/

namespace Verif.Props

open Verif.Spec.GoMem Verif.Race

variable {Ω : Type} {tr : Trace Ω} {hs : Nat → Holder}

/-- What the methods read with the mutex held is what was last written in the order in which they got the mutex, so that calls that take the
mutex may be taken to be atomic. -/
theorem C85_atomic (hx : Executes tr hs) (ha : Allowed init tr) {j t : Nat} {p : Phase} {x : Var} {v : Val Ω x}
    (hj : tr[j]? = some ⟨t, .read x v⟩) (hp : hs j = some (t, p)) : After init tr j x v :=
  owned_read hx ha hj ⟨_, hj, Or.inr ⟨p, hp⟩⟩

/-- Where `reportError` tests it, `err` is nil. -/
theorem C85_err_nil (hx : Executes tr hs) (ha : Allowed init tr) {j t : Nat} {e : Option StateErr}
    (hj : tr[j]? = some ⟨t, .read .err e⟩) (hp : hs j = some (t, .working)) : e = none := by
  rcases C85_atomic hx ha hj hp with ⟨i, u, h1, h2, _⟩ | ⟨h, _⟩
  · exact absurd ⟨i, u, _, h1, h2⟩ ((facts hx ha j (List.getElem?_eq_some_iff.mp hj).1.le).working t hp).2
  · exact h

/-- `done` and `err` are written at most once, and nothing is written after `done`. -/
theorem C85_once (hx : Executes tr hs) (ha : Allowed init tr) {i t : Nat} {b : Bool} (hi : tr[i]? = some ⟨t, .write .done b⟩) {j u : Nat} {x : Var}
    {v : Val Ω x} (hj : tr[j]? = some ⟨u, .write x v⟩) : j ≤ i ∧ (x = .done → j = i) := by
  have h1 : j ≤ i := by
    by_contra hc
    exact not_written hx ha hj ((written_of hi).mono (by omega))
  refine ⟨h1, ?_⟩
  rintro rfl
  by_contra hc
  exact not_written hx ha hi ((written_of hj).mono (by omega))

theorem C85_once_err (hx : Executes tr hs) (ha : Allowed init tr) {i t : Nat} {e : Option StateErr} (hi : tr[i]? = some ⟨t, .write .err e⟩) {j u : Nat}
    {e' : Option StateErr} (hj : tr[j]? = some ⟨u, .write .err e'⟩) : i = j := by
  rcases Nat.lt_trichotomy i j with h | h | h
  · exact absurd ((written_of hi).mono (by omega)) (not_written_err hx ha hj)
  · exact h
  · exact absurd ((written_of hj).mono (by omega)) (not_written_err hx ha hi)

/-- The channel is closed at most once, so that `close` does not panic, and after everything was written. -/
theorem C85_close (hx : Executes tr hs) (ha : Allowed init tr) {i t : Nat} (hi : tr[i]? = some ⟨t, .close⟩) :
    (∀ j u, tr[j]? = some ⟨u, .close⟩ → i = j) ∧ ∀ j u x v, tr[j]? = some ⟨u, .write x v⟩ → j < i := by
  constructor
  · intro j u hj
    rcases Nat.lt_trichotomy i j with h | h | h
    · exact absurd ⟨i, t, h, hi⟩ (at_close hx ha hj).2
    · exact h
    · exact absurd ⟨j, u, h, hj⟩ (at_close hx ha hi).2
  · intro j u x v hj
    by_contra hc
    have := (at_close hx ha hi).1
    exact not_written hx ha hj (this.mono (by omega))

/-- After a receive from `Done()` a goroutine reads the final values. -/
theorem C85_received (hx : Executes tr hs) (ha : Allowed init tr) {j k t : Nat} {x : Var} {v : Val Ω x} (hj : tr[j]? = some ⟨t, .recv⟩)
    (hjk : j < k) (hk : tr[k]? = some ⟨t, .read x v⟩) : Final init tr x v := by
  obtain ⟨i, u, hij, hi⟩ := ha.2 j t hj
  obtain ⟨d, u', b, hd, hw⟩ := (at_close hx ha hi).1
  have h1 : HB tr d i := owned_hb hx hd (owned_write hx hw) (owned_close hx hi)
  exact read_after_done hx ha hw hk (.trans h1 (.trans (.channel hij hi hj) (.program hjk hj hk rfl)))

/-- A goroutine that took the mutex when `done` was set, or set it, reads the final values from then on. -/
theorem C85_locked (hx : Executes tr hs) (ha : Allowed init tr) {d u m k t : Nat} {p : Phase} {b : Bool} {x : Var} {v : Val Ω x} {e : Event Ω}
    (hd : tr[d]? = some ⟨u, .write .done b⟩) (hm : hs m = some (t, p)) (he : tr[m]? = some e) (het : e.thread = t) (hdm : d ≤ m) (hmk : m < k)
    (hk : tr[k]? = some ⟨t, .read x v⟩) : Final init tr x v := by
  have h1 : HB tr m k := .program hmk he hk het
  rcases Nat.eq_or_lt_of_le hdm with rfl | hlt
  · exact read_after_done hx ha hd hk h1
  · exact read_after_done hx ha hd hk (.trans (owned_hb hx hlt (owned_write hx hd) ⟨e, he, Or.inr ⟨p, by rw [het]; exact hm⟩⟩) h1)

/-- `WaitForError` that had to wait returns the final error, and the output read afterwards is final.  Missing: `WaitForError` that
found `done` set; see `C85_lost_error` and `C85_lost_output`. -/
theorem C85_wait_partial (hx : Executes tr hs) (ha : Allowed init tr) {t i j k : Nat} {e : Option StateErr}
    (_hi : tr[i]? = some ⟨t, .read .done false⟩) (_hij : i < j) (hj : tr[j]? = some ⟨t, .recv⟩) (hjk : j < k) (hk : tr[k]? = some ⟨t, .read .err e⟩) :
    Final init tr .err e ∧ ∀ l o, k < l → tr[l]? = some ⟨t, .read .out o⟩ → Final init tr .out o :=
  ⟨C85_received hx ha hj hjk hk, fun _ _ hl ho => C85_received hx ha hj (hjk.trans hl) ho⟩

/-- A read without the mutex that returns an error returns the one that was reported. -/
theorem C85_error_true (hx : Executes tr hs) (ha : Allowed init tr) {k t : Nat} {e : StateErr} (hk : tr[k]? = some ⟨t, .read .err (some e)⟩) :
    Final init tr .err (some e) := by
  rcases ha.1 k t .err (some e) hk with ⟨i, u, h1, _⟩ | ⟨h, _⟩
  · refine Or.inl ⟨i, u, (List.getElem?_eq_some_iff.mp h1).1, h1, fun j u' v' hij _ hj => ?_⟩
    have := C85_once_err hx ha h1 hj
    omega
  · cases h

/-- `IsFinished` without the mutex returns true only if `done` is set. -/
theorem C85_finished_true (ha : Allowed init tr) {k t : Nat} (hk : tr[k]? = some ⟨t, .read .done true⟩) :
    ∃ i u : Nat, tr[i]? = some ⟨u, .write .done true⟩ := by
  rcases ha.1 k t .done true hk with ⟨i, u, h1, _⟩ | ⟨h, _⟩
  · exact ⟨i, u, h1⟩
  · cases h

/-- Who uses the `State` alone gets the right answers: if all writes are by goroutine `t` then `WaitForError` called by `t`, not inside another
method, returns the final error if the protocol is over, and the output is final. -/
theorem C85_alone (hx : Executes tr hs) (ha : Allowed init tr) {t : Nat} (hall : ∀ (i u : Nat) (x : Var) (v : Val Ω x), tr[i]? = some ⟨u, .write x v⟩ → u = t)
    {k : Nat} {x : Var} {v : Val Ω x} (hk : tr[k]? = some ⟨t, .read x v⟩) : After init tr k x v := by
  refine maySee_ordered hx (ha.1 k t x v hk) (fun i u v' hij hi => ?_) fun i u v' hji hi => ?_
  · exact .program hij hi hk (hall i u x v' hi)
  · rcases Nat.eq_or_lt_of_le hji with rfl | hlt
    · rw [hk] at hi
      injection hi with hi
      injection hi with _ hi
      cases hi
    · exact .program hlt hk hi (hall i u x v' hi).symm

/-! ### The histories of `State` are executions -/

/-- The operations that take the mutex. -/
def takesMutex {G : Type} : State.Op G → Bool
  | .handle _ => true
  | .processAll _ _ => true
  | .callback => true
  | .advance _ => false
  | .fire => false

/-- The goroutines that took the mutex, in order. -/
def lockers (tr : Trace Ω) : List Nat := tr.filterMap fun e => match e.act with
  | .lock => some e.thread
  | _ => none

/-- Every history of the model of `State` is an execution of the automaton, whichever goroutines make the calls, with the same values in the
end: what is proved here about executions is about the code that the other theorems are about.  `o` tells the output from the round. -/
theorem C85_realised {G R : Type} (impl : RoundImpl G R) (o : R → Option Ω) {round : R} (ho : o round = none) {timeout now : Nat}
    {h : List (State.Op G × State.Ret G)} {s : State G R} (hh : State.Hist impl (State.newBaseState impl round timeout now) h s)
    (ts : List Nat) (hts : ts.length = h.length) : ∃ (tr : Trace Ω) (hs : Nat → Holder), Executes tr hs ∧ Allowed init tr ∧ hs tr.length = none ∧
      lockers tr = ((h.zip ts).filter fun c => takesMutex c.1.1).map (·.2) ∧
      Final init tr .done s.done ∧ Final init tr .err s.err ∧ Final init tr .out (o s.round) ∧
      ((∃ i t : Nat, tr[i]? = some ⟨t, .close⟩) ↔ s.closed = true) := by
  suffices H : (s.done = false → s.err = none ∧ s.closed = false) ∧ ∃ tr : Trace Ω, lockers tr = ((h.zip ts).filter fun c => takesMutex c.1.1).map (·.2) ∧
      Reach tr none s.done s.err (o s.round) s.closed by
    obtain ⟨_, tr, hl, hr⟩ := H
    obtain ⟨hs, hx, hn⟩ := hr.exec
    exact ⟨tr, hs, hx, hr.allowed, hn, hl, hr.done, hr.err, hr.out, hr.closed⟩
  induction hh generalizing ts with
  | nil =>
    refine ⟨fun _ => ⟨rfl, rfl⟩, [], by simp [lockers], ⟨fun _ => none, ⟨rfl, fun i e h => by simp at h⟩, rfl⟩, ?_, ?_, ?_, ?_, ?_, ?_⟩
    · intro j t x v h; simp at h
    · intro j t h; simp at h
    · exact Or.inr ⟨rfl, fun k u v h => by simp at h⟩
    · exact Or.inr ⟨rfl, fun k u v h => by simp at h⟩
    · exact Or.inr ⟨ho, fun k u v h => by simp at h⟩
    · simp [State.newBaseState]
  | @snoc h s₁ s₂ op ret _ hstep ih =>
    obtain rfl | ⟨ts', t, rfl⟩ := List.eq_nil_or_concat ts
    · simp at hts
    have hlen : ts'.length = h.length := by simpa using hts
    obtain ⟨hinv, tr, hl, hr⟩ := ih ts' hlen
    obtain ⟨sd, su⟩ := step_shape impl hstep
    have hinv' : s₂.done = false → s₂.err = none ∧ s₂.closed = false := by
      intro hd
      cases hd1 : s₁.done with
      | true => rw [(sd hd1).1] at hd; cases hd
      | false =>
        obtain ⟨h1, h2⟩ := hinv hd1
        rcases su hd1 h1 h2 with ⟨_, h3⟩ | ⟨h3, _⟩
        · exact h3
        · rw [hd] at h3; cases h3
    refine ⟨hinv', ?_⟩
    have hzip : (((h ++ [(op, ret)]).zip (ts' ++ [t])).filter fun c => takesMutex c.1.1).map (·.2) =
        ((h.zip ts').filter fun c => takesMutex c.1.1).map (·.2) ++ if takesMutex op then [t] else [] := by
      rw [List.zip_append hlen.symm, List.filter_append, List.map_append]
      congr 1
      cases h : takesMutex op <;> simp [h]
    rw [List.concat_eq_append, hzip, ← hl]
    cases htk : takesMutex op with
    | false =>
      refine ⟨tr, by simp, ?_⟩
      have : s₂.done = s₁.done ∧ s₂.err = s₁.err ∧ s₂.round = s₁.round ∧ s₂.closed = s₁.closed := by
        cases op with
        | advance dt => cases hstep; exact ⟨rfl, rfl, rfl, rfl⟩
        | fire =>
          simp only [State.step] at hstep
          split at hstep
          · split at hstep <;> cases hstep <;> exact ⟨rfl, rfl, rfl, rfl⟩
          · cases hstep; exact ⟨rfl, rfl, rfl, rfl⟩
        | _ => cases htk
      rw [this.1, this.2.1, this.2.2.1, this.2.2.2]
      exact hr
    | true =>
      have l1 := hr.lock t
      cases hd1 : s₁.done with
      | true =>
        obtain ⟨h1, h2, h3, h4⟩ := sd hd1
        rw [hd1] at l1
        refine ⟨_, ?_, by rw [h1, h2, h3, h4]; exact l1.finished.unlock (Or.inr rfl)⟩
        simp [lockers]
      | false =>
        obtain ⟨h1, h2⟩ := hinv hd1
        rw [hd1] at l1
        have l2 := l1.unfinished.output (o s₂.round)
        rcases su hd1 h1 h2 with ⟨g1, g2, g3⟩ | ⟨g1, g2⟩
        · rw [h1, h2] at l2
          refine ⟨_, ?_, by rw [g1, g2, g3]; exact l2.unlock (Or.inl rfl)⟩
          simp [lockers]
        · cases he : s₂.err with
          | none =>
            rw [h1] at l2
            refine ⟨_, ?_, by rw [g1, g2]; exact ((l2.finish (Or.inl rfl)).close).unlock (Or.inr rfl)⟩
            simp [lockers]
          | some e =>
            refine ⟨_, ?_, by rw [g1, g2]; exact (((l2.report e).finish (Or.inr rfl)).close).unlock (Or.inr rfl)⟩
            simp [lockers]

/-! ### Refutations -/

/-- `hs` from a list. -/
def holders (l : List Holder) (i : Nat) : Holder := l[i]?.getD none

/-- A party of `PartyRoutine` (pkg/helpers/parties.go:24-51), goroutine 0, and the timer, goroutine 1: `ProcessAll` finds that messages are missing;
then the timer callback aborts; then `IsFinished` and `WaitForError` find `done` set, and `err` nil. -/
def lostError (e : StateErr) : Trace Unit :=
  [⟨0, .lock⟩, ⟨0, .read .done false⟩, ⟨0, .unlock⟩,
   ⟨1, .lock⟩, ⟨1, .read .done false⟩, ⟨1, .write .err (some e)⟩, ⟨1, .write .done true⟩, ⟨1, .close⟩, ⟨1, .unlock⟩,
   ⟨0, .read .done true⟩, ⟨0, .read .done true⟩, ⟨0, .read .err none⟩, ⟨0, .read .out none⟩]

/-- The protocol finishes in goroutine 1, and goroutine 0, that handled a message before, calls `WaitForError` and reads the output. -/
def lostOutput : Trace Unit :=
  [⟨0, .lock⟩, ⟨0, .read .done false⟩, ⟨0, .unlock⟩,
   ⟨1, .lock⟩, ⟨1, .read .done false⟩, ⟨1, .write .out (some ())⟩, ⟨1, .write .done true⟩, ⟨1, .close⟩, ⟨1, .unlock⟩,
   ⟨0, .read .done true⟩, ⟨0, .read .err none⟩, ⟨0, .read .out none⟩]

/-- A goroutine that does not synchronise any more may miss what others write after that. -/
theorem racy_miss {t m j : Nat} {x : Var} {e : Event Ω} (hsync : ∀ i, m ≤ i → tr[i]? ≠ some ⟨t, .lock⟩ ∧ tr[i]? ≠ some ⟨t, .recv⟩)
    (hj : tr[j]? = some e) (het : e.thread = t) (hw : ∀ i u v, tr[i]? = some ⟨u, .write x v⟩ → m ≤ i ∧ u ≠ t) : MaySee init tr j x (init x) := by
  refine Or.inr ⟨rfl, ?_⟩
  rintro ⟨k, u, v', h1, h2⟩
  obtain ⟨h3, h4⟩ := hw k u v' h1
  rcases hb_foreign hsync h2 (fun e' he' => by rw [hj] at he'; obtain rfl := Option.some.inj he'; exact het) with h | h
  · exact h4 (h _ h1)
  · omega

/-- A read may return the only value that is written before it in the list. -/
theorem racy_see {i j u : Nat} {x : Var} {v : Val Ω x} (hi : tr[i]? = some ⟨u, .write x v⟩) (hij : i < j)
    (hw : ∀ k u' v', tr[k]? = some ⟨u', .write x v'⟩ → k = i) : MaySee init tr j x v := by
  refine Or.inl ⟨i, u, hi, fun h => absurd (HB.lt h) (by omega), ?_⟩
  rintro ⟨k, u', v', h1, h2, _⟩
  have := hw k u' v' h1
  have := HB.lt h2
  omega

theorem lt_of_getElem? {α : Type} {l : List α} {i : Nat} {a : α} (h : l[i]? = some a) : i < l.length := (List.getElem?_eq_some_iff.mp h).1

/-- Both traces are executions. -/
theorem lostError_executes (e : StateErr) : Executes (lostError e)
    (holders [none, some (0, .entered), some (0, .working), none, some (1, .entered), some (1, .working), some (1, .reported), some (1, .closing),
      some (1, .leaving)]) := by
  refine ⟨rfl, fun i ev h => ?_⟩
  have hi : i < 13 := lt_of_getElem? h
  interval_cases i <;> obtain rfl := Option.some.inj h
  · exact .lock
  · exact .unfinished
  · exact .quiet
  · exact .lock
  · exact .unfinished
  · exact .report e
  · exact .abort
  · exact .close
  · exact .leave
  all_goals exact .peek (fun p h => by cases h)

theorem lostOutput_executes : Executes lostOutput
    (holders [none, some (0, .entered), some (0, .working), none, some (1, .entered), some (1, .working), some (1, .working), some (1, .closing),
      some (1, .leaving)]) := by
  refine ⟨rfl, fun i ev h => ?_⟩
  have hi : i < 12 := lt_of_getElem? h
  interval_cases i <;> obtain rfl := Option.some.inj h
  · exact .lock
  · exact .unfinished
  · exact .quiet
  · exact .lock
  · exact .unfinished
  · exact .output _
  · exact .finish
  · exact .close
  · exact .leave
  all_goals exact .peek (fun p h => by cases h)

theorem lostError_write {e : StateErr} {i u : Nat} {x : Var} {v : Val Unit x} (h : (lostError e)[i]? = some ⟨u, .write x v⟩) :
    u = 1 ∧ ((i = 5 ∧ x = .err) ∨ (i = 6 ∧ x = .done)) := by
  have hi : i < 13 := lt_of_getElem? h
  interval_cases i <;> cases h <;> simp

theorem lostOutput_write {i u : Nat} {x : Var} {v : Val Unit x} (h : lostOutput[i]? = some ⟨u, .write x v⟩) :
    u = 1 ∧ ((i = 5 ∧ x = .out) ∨ (i = 6 ∧ x = .done)) := by
  have hi : i < 12 := lt_of_getElem? h
  interval_cases i <;> cases h <;> simp

theorem lostError_allowed (e : StateErr) : Allowed init (lostError e) := by
  have hsync : ∀ i, 3 ≤ i → (lostError e)[i]? ≠ some ⟨0, .lock⟩ ∧ (lostError e)[i]? ≠ some ⟨0, .recv⟩ := by
    refine fun i h3 => ⟨fun h => ?_, fun h => ?_⟩
    all_goals
      have hi : i < 13 := lt_of_getElem? h
      interval_cases i <;> cases h
  have miss : ∀ (j : Nat) (x : Var) a, (lostError e)[j]? = some ⟨0, a⟩ → MaySee init (lostError e) j x (init x) := by
    refine fun j x a hj => racy_miss hsync hj rfl fun i u v hw => ?_
    obtain ⟨rfl, ⟨rfl, _⟩ | ⟨rfl, _⟩⟩ := lostError_write hw <;> decide
  have see : ∀ j, 6 < j → MaySee init (lostError e) j .done true := by
    refine fun j hj => racy_see (i := 6) (u := 1) rfl hj fun k u v hw => ?_
    obtain ⟨_, ⟨_, h⟩ | ⟨h, _⟩⟩ := lostError_write hw
    · cases h
    · exact h
  constructor
  · intro j t x v h
    have hj : j < 13 := lt_of_getElem? h
    interval_cases j <;> cases h
    · exact miss 1 .done _ rfl
    · refine valueAt_maySee (Or.inr ⟨rfl, fun k u v' hk hw => ?_⟩)
      obtain ⟨_, ⟨rfl, _⟩ | ⟨rfl, _⟩⟩ := lostError_write hw <;> omega
    · exact see 9 (by decide)
    · exact see 10 (by decide)
    · exact miss 11 .err _ rfl
    · exact miss 12 .out _ rfl
  · intro j t h
    have hj : j < 13 := lt_of_getElem? h
    interval_cases j <;> cases h

theorem lostOutput_allowed : Allowed init lostOutput := by
  have hsync : ∀ i, 3 ≤ i → lostOutput[i]? ≠ some ⟨0, .lock⟩ ∧ lostOutput[i]? ≠ some ⟨0, .recv⟩ := by
    refine fun i h3 => ⟨fun h => ?_, fun h => ?_⟩
    all_goals
      have hi : i < 12 := lt_of_getElem? h
      interval_cases i <;> cases h
  have miss : ∀ (j : Nat) (x : Var) a, lostOutput[j]? = some ⟨0, a⟩ → MaySee init lostOutput j x (init x) := by
    refine fun j x a hj => racy_miss hsync hj rfl fun i u v hw => ?_
    obtain ⟨rfl, ⟨rfl, _⟩ | ⟨rfl, _⟩⟩ := lostOutput_write hw <;> decide
  constructor
  · intro j t x v h
    have hj : j < 12 := lt_of_getElem? h
    interval_cases j <;> cases h
    · exact miss 1 .done _ rfl
    · refine valueAt_maySee (Or.inr ⟨rfl, fun k u v' hk hw => ?_⟩)
      obtain ⟨_, ⟨rfl, _⟩ | ⟨rfl, _⟩⟩ := lostOutput_write hw <;> omega
    · refine racy_see (i := 6) (u := 1) rfl (by decide) fun k u v hw => ?_
      obtain ⟨_, ⟨_, h⟩ | ⟨h, _⟩⟩ := lostOutput_write hw
      · cases h
      · exact h
    · exact miss 10 .err _ rfl
    · exact miss 11 .out _ rfl
  · intro j t h
    have hj : j < 12 := lt_of_getElem? h
    interval_cases j <;> cases h

/-- The claim is refuted: `WaitForError` may return nil although the protocol was aborted with any error `e`, and the output is missing. -/
theorem C85_lost_error (e : StateErr) : ∃ (tr : Trace Unit) (hs : Nat → Holder), Executes tr hs ∧ Allowed init tr ∧
    WaitForError tr 0 none 11 ∧ tr[12]? = some ⟨0, .read .out none⟩ ∧ Final init tr .err (some e) := by
  refine ⟨lostError e, _, lostError_executes e, lostError_allowed e, ⟨10, true, by decide, rfl, rfl, fun h => by cases h⟩, rfl, ?_⟩
  refine Or.inl ⟨5, 1, (by show 5 < 13; decide), rfl, fun k u v hk _ hw => ?_⟩
  obtain ⟨_, ⟨h, _⟩ | ⟨_, h⟩⟩ := lostError_write hw
  · omega
  · cases h

/-- The same when the protocol succeeds: `WaitForError` rightly returns nil, and still the output that is then read may be missing. -/
theorem C85_lost_output : ∃ (tr : Trace Unit) (hs : Nat → Holder), Executes tr hs ∧ Allowed init tr ∧
    WaitForError tr 0 none 10 ∧ Final init tr .err none ∧ tr[11]? = some ⟨0, .read .out none⟩ ∧ Final init tr .out (some ()) := by
  refine ⟨lostOutput, _, lostOutput_executes, lostOutput_allowed, ⟨9, true, by decide, rfl, rfl, fun h => by cases h⟩, ?_, rfl, ?_⟩
  · refine Or.inr ⟨rfl, fun k u v _ hw => ?_⟩
    obtain ⟨_, ⟨_, h⟩ | ⟨_, h⟩⟩ := lostOutput_write hw <;> cases h
  · refine Or.inl ⟨5, 1, (by show 5 < 12; decide), rfl, fun k u v hk _ hw => ?_⟩
    obtain ⟨_, ⟨h, _⟩ | ⟨_, h⟩⟩ := lostOutput_write hw
    · omega
    · cases h

/-! ### A concrete execution: goroutine 0 waits, goroutine 1 finishes -/

/-- Goroutine 0 calls `WaitForError` before the end, goroutine 1 finishes the protocol; then goroutine 0 reads the output. -/
def waiting : Trace Unit :=
  [⟨0, .read .done false⟩, ⟨1, .lock⟩, ⟨1, .read .done false⟩, ⟨1, .read .err none⟩, ⟨1, .write .out (some ())⟩, ⟨1, .write .done true⟩, ⟨1, .close⟩, ⟨0, .recv⟩, ⟨0, .read .err none⟩,
   ⟨1, .unlock⟩, ⟨0, .read .out (some ())⟩]

def waitingHolders : Nat → Holder :=
  holders [none, none, some (1, .entered), some (1, .working), some (1, .working), some (1, .working), some (1, .closing), some (1, .leaving), some (1, .leaving),
    some (1, .leaving)]

theorem waiting_executes : Executes waiting waitingHolders := by
  refine ⟨rfl, fun i ev h => ?_⟩
  have hi : i < 11 := lt_of_getElem? h
  interval_cases i <;> obtain rfl := Option.some.inj h
  · exact .peek (fun p h => by cases h)
  · exact .lock
  · exact .unfinished
  · exact .look (by decide)
  · exact .output _
  · exact .finish
  · exact .close
  · exact .wait (fun p h => by cases h)
  · exact .peek (fun p h => by cases h)
  · exact .leave
  · exact .peek (fun p h => by cases h)

theorem waiting_write {i u : Nat} {x : Var} {v : Val Unit x} (h : waiting[i]? = some ⟨u, .write x v⟩) :
    u = 1 ∧ ((i = 4 ∧ x = .out) ∨ (i = 5 ∧ x = .done)) := by
  have hi : i < 11 := lt_of_getElem? h
  interval_cases i <;> cases h <;> simp

theorem waiting_allowed : Allowed init waiting := by
  have nothing : ∀ (j : Nat) (x : Var), (∀ i, i < j → ¬ ((i = 4 ∧ x = .out) ∨ (i = 5 ∧ x = .done))) → MaySee init waiting j x (init x) := by
    refine fun j x hn => valueAt_maySee (Or.inr ⟨rfl, fun k u v' hk hw => ?_⟩)
    exact hn k hk (waiting_write hw).2
  constructor
  · intro j t x v h
    have hj : j < 11 := lt_of_getElem? h
    interval_cases j <;> cases h
    · exact nothing 0 .done (by simp)
    · exact nothing 2 .done (by intro i hi; omega)
    · exact nothing 3 .err (by simp)
    · exact nothing 8 .err (by simp)
    · refine valueAt_maySee (Or.inl ⟨4, 1, by decide, rfl, fun k u v' hk _ hw => ?_⟩)
      obtain ⟨_, ⟨h, _⟩ | ⟨_, h⟩⟩ := waiting_write hw
      · omega
      · cases h
  · intro j t h
    have hj : j < 11 := lt_of_getElem? h
    interval_cases j <;> cases h
    exact ⟨6, 1, by decide, rfl⟩

example : Final init waiting .err none ∧ ∀ l o, 8 < l → waiting[l]? = some ⟨0, .read .out o⟩ → Final init waiting .out o :=
  C85_wait_partial waiting_executes waiting_allowed (t := 0) (i := 0) (j := 7) (k := 8) rfl (by decide) rfl (by decide) rfl

example : Final init waiting .out (some ()) :=
  C85_received waiting_executes waiting_allowed (j := 7) (k := 10) (t := 0) rfl (by decide) rfl

example : (none : Option StateErr) = none := C85_err_nil waiting_executes waiting_allowed (j := 3) (t := 1) rfl rfl

example : After init waiting 3 .err none := C85_atomic waiting_executes waiting_allowed (j := 3) (t := 1) (p := .working) rfl rfl

example : ∀ j u x v, waiting[j]? = some ⟨u, .write x v⟩ → j < 6 := (C85_close waiting_executes waiting_allowed (i := 6) (t := 1) rfl).2

example : (4 : Nat) ≤ 5 ∧ (Var.out = .done → 4 = 5) :=
  C85_once waiting_executes waiting_allowed (i := 5) (t := 1) (b := true) rfl (j := 4) (u := 1) (x := .out) (v := some ()) rfl

/-- An execution in which the first goroutine does everything, aborting the protocol. -/
def aborting (e : StateErr) : Trace Unit :=
  [⟨0, .lock⟩, ⟨0, .read .done false⟩, ⟨0, .write .err (some e)⟩, ⟨0, .write .done true⟩, ⟨0, .close⟩, ⟨0, .unlock⟩, ⟨0, .read .done true⟩, ⟨0, .read .err (some e)⟩]

theorem aborting_executes (e : StateErr) : Executes (aborting e)
    (holders [none, some (0, .entered), some (0, .working), some (0, .reported), some (0, .closing), some (0, .leaving)]) := by
  refine ⟨rfl, fun i ev h => ?_⟩
  have hi : i < 8 := lt_of_getElem? h
  interval_cases i <;> obtain rfl := Option.some.inj h
  · exact .lock
  · exact .unfinished
  · exact .report e
  · exact .abort
  · exact .close
  · exact .leave
  all_goals exact .peek (fun p h => by cases h)

theorem aborting_write {e : StateErr} {i u : Nat} {x : Var} {v : Val Unit x} (h : (aborting e)[i]? = some ⟨u, .write x v⟩) :
    u = 0 ∧ ((i = 2 ∧ x = .err) ∨ (i = 3 ∧ x = .done)) := by
  have hi : i < 8 := lt_of_getElem? h
  interval_cases i <;> cases h <;> simp

theorem aborting_allowed (e : StateErr) : Allowed init (aborting e) := by
  constructor
  · intro j t x v h
    have hj : j < 8 := lt_of_getElem? h
    interval_cases j <;> cases h
    · refine valueAt_maySee (Or.inr ⟨rfl, fun k u v' hk hw => ?_⟩)
      obtain ⟨_, ⟨h, _⟩ | ⟨h, _⟩⟩ := aborting_write hw <;> omega
    · refine racy_see (i := 3) (u := 0) rfl (by decide) fun k u v hw => ?_
      obtain ⟨_, ⟨_, h⟩ | ⟨h, _⟩⟩ := aborting_write hw
      · cases h
      · exact h
    · refine racy_see (i := 2) (u := 0) rfl (by decide) fun k u v hw => ?_
      obtain ⟨_, ⟨h, _⟩ | ⟨_, h⟩⟩ := aborting_write hw
      · exact h
      · cases h
  · intro j t h
    have hj : j < 8 := lt_of_getElem? h
    interval_cases j <;> cases h

example (e : StateErr) : Final init (aborting e) .err (some e) :=
  C85_locked (aborting_executes e) (aborting_allowed e) (d := 3) (u := 0) (m := 3) (k := 7) (t := 0) (p := .reported) (b := true) rfl rfl rfl rfl
    (by decide) (by decide) rfl

example (e : StateErr) : Final init (aborting e) .err (some e) := C85_error_true (aborting_executes e) (aborting_allowed e) (k := 7) (t := 0) rfl

example (e : StateErr) : ∃ i u : Nat, (aborting e)[i]? = some ⟨u, .write .done true⟩ := C85_finished_true (aborting_allowed e) (k := 6) (t := 0) rfl

example (e : StateErr) : After init (aborting e) 7 .err (some e) :=
  C85_alone (aborting_executes e) (aborting_allowed e) (t := 0) (fun _ _ _ _ h => (aborting_write h).1) rfl

example (e : StateErr) : (2 : Nat) = 2 :=
  C85_once_err (aborting_executes e) (aborting_allowed e) (i := 2) (t := 0) (e := some e) rfl (j := 2) (u := 0) (e' := some e) rfl

/-- A protocol of rounds that do nothing, for the example. -/
def idle : RoundImpl Unit Unit where
  selfID _ := 1
  partyIDs _ := [1, 2]
  acceptedMessageTypes _ := [.none, .keyGen1]
  processMessage _ _ := .ok ()
  generateMessages _ _ _ := .ok ((), [])
  nextRound _ := some ()
  reset _ := some ()

/-- A history in which the timer fires: goroutine 7 called `ProcessAll` before, and the callback runs in goroutine 8. -/
example : ∃ (tr : Trace Unit) (hs : Nat → Holder), Executes tr hs ∧ Allowed init tr ∧ lockers tr = [7, 8] ∧
    Final init tr .done true ∧ Final init tr .err (some ⟨0, 1, .timeout⟩) := by
  obtain ⟨s, hh, hd, he⟩ : ∃ s, State.Hist idle (State.newBaseState idle () 10 0)
      [(.advance 3, .nothing), (.processAll .insertion (fun _ => 0), .messages []), (.advance 8, .nothing), (.fire, .nothing), (.callback, .nothing)] s ∧
      s.done = true ∧ s.err = some ⟨0, 1, .timeout⟩ :=
    ⟨_, .snoc (.snoc (.snoc (.snoc (.snoc .nil rfl) rfl) rfl) rfl) rfl, rfl, rfl⟩
  obtain ⟨tr, hs, h1, h2, _, h3, h4, h5, _⟩ := C85_realised idle (fun _ => (none : Option Unit)) rfl hh [5, 7, 5, 5, 8] rfl
  exact ⟨tr, hs, h1, h2, h3, hd ▸ h4, he ▸ h5⟩

end Verif.Props
