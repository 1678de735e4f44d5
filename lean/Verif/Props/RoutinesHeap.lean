import Verif.Model.RoutinesHeap
import Verif.Props.Heap
import Verif.Props.Helpers

/-!
C114: what `PartyRoutine` sends in a key generation while the timer and other goroutines work with the same session.
-/

namespace Verif.Props

open State KeygenHeap

variable {G : Type} [RGroup G] {sha : Sha512}

/-- After the call of `ProcessAll` of the routine nobody else calls it. -/
def Spec.OnlyOne (l : List (Bool × Op Addr × Ret Addr)) : Prop :=
  ∀ l₁ l₂ x, l = l₁ ++ x :: l₂ → x.1 = true → ∀ y ∈ l₂, ∀ ord coins, y.2.1 ≠ .processAll ord coins

/-- The routine called `ProcessAll`, which left the session in the state `s₁` and returned `msgs`. -/
def Spec.Produced (sha : Sha512) (s₀ : State Addr (KeygenHeap.Round G)) (l : List (Bool × Op Addr × Ret Addr)) (s₁ : State Addr (KeygenHeap.Round G))
    (msgs : List (Message Addr)) : Prop :=
  ∃ l₁ l₂ ord coins s, l = l₁ ++ (true, .processAll ord coins, .messages msgs) :: l₂ ∧ Hist (KeygenHeap.impl sha) s₀ (l₁.map Prod.snd) s ∧
    step (KeygenHeap.impl sha) s (.processAll ord coins) = some (s₁, .messages msgs)

theorem Spec.Produced.append {s₀ s₁ : State Addr (KeygenHeap.Round G)} {l : List (Bool × Op Addr × Ret Addr)} {msgs : List (Message Addr)}
    (h : Spec.Produced sha s₀ l s₁ msgs) (l' : List (Bool × Op Addr × Ret Addr)) : Spec.Produced sha s₀ (l ++ l') s₁ msgs := by
  obtain ⟨l₁, l₂, ord, coins, s, rfl, h1, h2⟩ := h
  exact ⟨l₁, l₂ ++ l', ord, coins, s, by simp, h1, h2⟩

theorem Spec.OnlyOne.prefix {l l' : List (Bool × Op Addr × Ret Addr)} (h : Spec.OnlyOne (l ++ l')) : Spec.OnlyOne l := by
  intro l₁ l₂ x hl hx y hy
  exact h l₁ (l₂ ++ l') x (by rw [hl]; simp) hx y (List.mem_append_left _ hy)

theorem Spec.Produced.quiet {s₀ s₁ : State Addr (KeygenHeap.Round G)} {l l' : List (Bool × Op Addr × Ret Addr)} {msgs : List (Message Addr)}
    (h : Spec.Produced sha s₀ l s₁ msgs) (hq : Spec.OnlyOne (l ++ l')) : ∀ y ∈ l', ∀ ord coins, y.2.1 ≠ .processAll ord coins := by
  obtain ⟨l₁, l₂, ord, coins, s, rfl, h1, h2⟩ := h
  intro y hy
  exact hq l₁ (l₂ ++ l') (true, .processAll ord coins, .messages msgs) (by simp) rfl y (List.mem_append_right _ hy)

/-- As long as nothing has been overwritten, what the call has read and encoded is what it should be. -/
def PCGood (heap : Heap G) (msgs : List (Message Addr)) : TailPC G → Prop
  | .processing => False
  | .encoding ms el out => ∃ pre, msgs = pre ++ ms ∧ Spec.Encode (pre.map heap.deref) out ∧
      ∀ m rest k, ms = m :: rest → m.keyGen1 = some k → el = heap.read (k.commitments.take el.length)
  | .checking out | .waiting out | .returned (.ok out) => Spec.Encode (msgs.map heap.deref) out
  | .returned (.error _) => True

/-- Only a return with encodings has to be right when the session was ended by an error. -/
def PCBad (heap : Heap G) (msgs : List (Message Addr)) : TailPC G → Prop
  | .processing => False
  | .returned (.ok out) => Spec.Encode (msgs.map heap.deref) out
  | _ => True

theorem PCGood.bad {heap : Heap G} {msgs : List (Message Addr)} {pc : TailPC G} (h : PCGood heap msgs pc) : PCBad heap msgs pc := by
  unfold PCGood at h
  unfold PCBad
  split at h <;> first | trivial | exact h

def TailInv (sha : Sha512) (s₀ : State Addr (KeygenHeap.Round G)) (l : List (Bool × Op Addr × Ret Addr)) (w : Shared G) (pc : TailPC G) : Prop :=
  Hist (KeygenHeap.impl sha) s₀ (l.map Prod.snd) (w.ending.getD w.session) ∧
  (pc = .processing ∨ ∃ s₁ msgs, Spec.Produced sha s₀ l s₁ msgs ∧
    ((w.ending = none ∧ w.session.round.heap = s₁.round.heap ∧ PCGood s₁.round.heap msgs pc) ∨
     (w.session.done = true ∧ w.session.err ≠ none ∧ (∀ s, w.ending = some s → s.done = true ∧ s.err ≠ none) ∧ PCBad s₁.round.heap msgs pc)))

/-- A call other than `ProcessAll` keeps the memory or ends the session with an error. -/
theorem quiet_step {s s' : State Addr (KeygenHeap.Round G)} {op : Op Addr} {ret : Ret Addr} (h : step (KeygenHeap.impl sha) s op = some (s', ret))
    (hq : ∀ ord coins, op ≠ .processAll ord coins) : (s'.done = s.done ∧ s'.round.heap = s.round.heap) ∨ s.done = false ∧ s'.done = true ∧ s'.err ≠ none := by
  rcases step_cases h with ⟨m, e, rfl, rfl, h2⟩ | ⟨ord, coins, out, rfl, rfl, _⟩ | ⟨dt, rfl, rfl, rfl⟩ |
    ⟨rfl, rfl, rfl | ⟨t, _, _, rfl⟩⟩ | ⟨rfl, rfl, ⟨_, rfl⟩ | ⟨_, h1, rfl⟩ | ⟨r, _, h1, _, _, rfl⟩⟩
  · left
    cases handle_cases _ h2 <;> exact ⟨rfl, rfl⟩
  · exact absurd rfl (hq ord coins)
  · exact .inl ⟨rfl, rfl⟩
  · exact .inl ⟨rfl, rfl⟩
  · exact .inl ⟨rfl, rfl⟩
  · exact .inl ⟨rfl, rfl⟩
  · exact .inl ⟨rfl, rfl⟩
  · exact .inr ⟨h1, rfl, by simp⟩

theorem fill_eq {heap : Heap G} {m : Message Addr} {el : List G} (hs : m.sign1 = none)
    (h : ∀ k, m.keyGen1 = some k → el = heap.read k.commitments) : fill m el = heap.deref m := by
  unfold fill Heap.deref
  rw [hs]
  cases hk : m.keyGen1 with
  | none => rfl
  | some k => simp [h k hk]

theorem tail_inv {s₀ : State Addr (KeygenHeap.Round G)} {l : List (Bool × Op Addr × Ret Addr)} {w : Shared G} {pc : TailPC G}
    (h : Tail sha s₀ l w pc) (hq : Spec.OnlyOne l) : TailInv sha s₀ l w pc := by
  induction h with
  | start => exact ⟨.nil, .inl rfl⟩
  | own h hst ih =>
    rename_i l w pc ev w' p
    obtain ⟨i1, i2⟩ := ih hq.prefix
    cases hst with
    | processed hp =>
      rename_i s s' ord coins msgs
      refine ⟨by simpa using i1.snoc hp, .inr ⟨s', msgs, ⟨l, [], ord, coins, s, rfl, i1, hp⟩, .inl ⟨rfl, rfl, [], rfl, List.Forall₂.nil, ?_⟩⟩⟩
      intro m rest k _ _
      simp [Heap.read]
    | read hk ha hv =>
      rename_i m rest k el out a v
      refine ⟨by simpa using i1, .inr ?_⟩
      rcases i2 with h0 | ⟨s₁, msgs, hp, h2⟩
      · cases h0
      refine ⟨s₁, msgs, hp.append _, ?_⟩
      rcases h2 with ⟨e1, e2, pre, e3, e4, e5⟩ | ⟨b1, b2, b3, _⟩
      · refine .inl ⟨e1, e2, pre, e3, e4, ?_⟩
        intro m' rest' k' hm hk'
        cases hm
        rw [hk] at hk'
        cases hk'
        have h5 := e5 m rest k rfl hk
        have hv : v = s₁.round.heap.cell a := by
          rcases hv with hv | ⟨s, hs, _⟩
          · rw [hv, e2]
          · rw [e1] at hs; cases hs
        rw [List.length_append, List.length_singleton, List.take_add_one, ha, hv]
        simp only [Heap.read, List.map_append, Option.toList_some, List.map_cons, List.map_nil]
        rw [← Heap.read, ← h5]
      · exact .inr ⟨b1, b2, b3, trivial⟩
    | encoded hl hb =>
      rename_i m rest el out b
      refine ⟨by simpa using i1, .inr ?_⟩
      rcases i2 with h0 | ⟨s₁, msgs, hp, h2⟩
      · cases h0
      refine ⟨s₁, msgs, hp.append _, ?_⟩
      rcases h2 with ⟨e1, e2, pre, e3, e4, e5⟩ | ⟨b1, b2, b3, _⟩
      · refine .inl ⟨e1, e2, pre ++ [m], by simp [e3], ?_, fun m' rest' k _ _ => by simp [Heap.read]⟩
        have hm : m.sign1 = none := by
          obtain ⟨_, _, ord, coins, s, _, _, hs⟩ := hp
          exact (made_step hs (by rw [e3]; simp)).1
        rw [fill_eq (heap := s₁.round.heap) hm] at hb
        · rw [List.map_append]
          exact List.rel_append e4 (List.Forall₂.cons hb List.Forall₂.nil)
        · intro k hk
          have h5 := e5 m rest k rfl hk
          rw [hl k hk, List.take_length] at h5
          exact h5
      · exact .inr ⟨b1, b2, b3, trivial⟩
    | unencodable hl hb =>
      refine ⟨by simpa using i1, .inr ?_⟩
      rcases i2 with h0 | ⟨s₁, msgs, hp, h2⟩
      · cases h0
      refine ⟨s₁, msgs, hp.append _, ?_⟩
      rcases h2 with ⟨e1, e2, _⟩ | ⟨b1, b2, b3, _⟩
      · exact .inl ⟨e1, e2, trivial⟩
      · exact .inr ⟨b1, b2, b3, trivial⟩
    | all =>
      refine ⟨by simpa using i1, .inr ?_⟩
      rcases i2 with h0 | ⟨s₁, msgs, hp, h2⟩
      · cases h0
      refine ⟨s₁, msgs, hp.append _, ?_⟩
      rcases h2 with ⟨e1, e2, pre, e3, e4, e5⟩ | ⟨b1, b2, b3, _⟩
      · refine .inl ⟨e1, e2, ?_⟩
        rw [List.append_nil] at e3
        rw [e3]
        exact e4
      · exact .inr ⟨b1, b2, b3, trivial⟩
    | running hf =>
      refine ⟨by simpa using i1, .inr ?_⟩
      rcases i2 with h0 | ⟨s₁, msgs, hp, h2⟩
      · cases h0
      refine ⟨s₁, msgs, hp.append _, ?_⟩
      rcases h2 with ⟨e1, e2, e3⟩ | ⟨b1, b2, b3, _⟩
      · exact .inl ⟨e1, e2, e3⟩
      · unfold isFinished at hf
        rw [b1] at hf
        cases hf
    | finished hf =>
      refine ⟨by simpa using i1, .inr ?_⟩
      rcases i2 with h0 | ⟨s₁, msgs, hp, h2⟩
      · cases h0
      refine ⟨s₁, msgs, hp.append _, ?_⟩
      rcases h2 with ⟨e1, e2, e3⟩ | ⟨b1, b2, b3, _⟩
      · exact .inl ⟨e1, e2, e3⟩
      · exact .inr ⟨b1, b2, b3, trivial⟩
    | failed hf =>
      refine ⟨by simpa using i1, .inr ?_⟩
      rcases i2 with h0 | ⟨s₁, msgs, hp, h2⟩
      · cases h0
      refine ⟨s₁, msgs, hp.append _, ?_⟩
      rcases h2 with ⟨e1, e2, e3⟩ | ⟨b1, b2, b3, _⟩
      · exact .inl ⟨e1, e2, trivial⟩
      · exact .inr ⟨b1, b2, b3, trivial⟩
    | succeeded hf =>
      refine ⟨by simpa using i1, .inr ?_⟩
      rcases i2 with h0 | ⟨s₁, msgs, hp, h2⟩
      · cases h0
      refine ⟨s₁, msgs, hp.append _, ?_⟩
      rcases h2 with ⟨e1, e2, e3⟩ | ⟨b1, b2, b3, _⟩
      · exact .inl ⟨e1, e2, e3⟩
      · unfold waitForError at hf
        rw [if_neg (by simp [b1])] at hf
        simp only [Option.some.injEq] at hf
        exact absurd hf b2
  | other h hst ih =>
    rename_i l w pc ev w'
    obtain ⟨i1, i2⟩ := ih hq.prefix
    cases hst with
    | call hs hd =>
      rename_i s s' op ret
      refine ⟨by simpa using i1.snoc hs, ?_⟩
      rcases i2 with h0 | ⟨s₁, msgs, hp, h2⟩
      · exact .inl h0
      have hne := hp.quiet hq (false, op, ret) (by simp)
      refine .inr ⟨s₁, msgs, hp.append _, ?_⟩
      rcases h2 with ⟨e1, e2, e3⟩ | ⟨b1, b2, b3, b4⟩
      · refine .inl ⟨rfl, ?_, e3⟩
        rcases quiet_step hs hne with ⟨_, h3⟩ | ⟨h3, h4, _⟩
        · exact h3.trans e2
        · rw [h4, h3] at hd; cases hd
      · have hf := (C28_frozen (Hist.one hs) b1).1
        exact .inr ⟨by rw [hf]; exact b1, by rw [hf]; exact b2, (fun _ h => nomatch h), b4⟩
    | begins hs hd hd' =>
      rename_i s s' op ret
      refine ⟨by simpa using i1.snoc hs, ?_⟩
      rcases i2 with h0 | ⟨s₁, msgs, hp, h2⟩
      · exact .inl h0
      have hne := hp.quiet hq (false, op, ret) (by simp)
      refine .inr ⟨s₁, msgs, hp.append _, .inr ?_⟩
      have he : s'.err ≠ none := by
        rcases quiet_step hs hne with ⟨h3, _⟩ | ⟨_, _, h3⟩
        · rw [hd', hd] at h3; cases h3
        · exact h3
      refine ⟨rfl, he, fun s h => ?_, ?_⟩
      · cases h; exact ⟨hd', he⟩
      · rcases h2 with ⟨_, _, e3⟩ | ⟨b1, _⟩
        · exact e3.bad
        · rw [hd] at b1; cases b1
    | ends =>
      rename_i s s'
      refine ⟨by simpa using i1, ?_⟩
      rcases i2 with h0 | ⟨s₁, msgs, hp, h2⟩
      · exact .inl h0
      refine .inr ⟨s₁, msgs, hp.append _, .inr ?_⟩
      rcases h2 with ⟨e1, _⟩ | ⟨_, _, b3, b4⟩
      · cases e1
      · exact ⟨(b3 s' rfl).1, (b3 s' rfl).2, (fun _ h => nomatch h), b4⟩

/-- C114: when `PartyRoutine` returns messages, their bytes are those of the messages as `ProcessAll` made them, whatever messages others
hand over meanwhile and whenever the timer ends the session and overwrites the memory.  (Missing: it fails when another goroutine calls
`ProcessAll` meanwhile, see `C114_refuted`.) -/
theorem C114_sent_partial {s₀ : State Addr (KeygenHeap.Round G)} {l : List (Bool × Op Addr × Ret Addr)} {w : Shared G} {out : List Bytes}
    (h : Tail sha s₀ l w (.returned (.ok out))) (hq : Spec.OnlyOne l) :
    ∃ s₁ msgs, Spec.Produced sha s₀ l s₁ msgs ∧ Spec.Encode (msgs.map s₁.round.heap.deref) out := by
  rcases (tail_inv h hq).2 with h0 | ⟨s₁, msgs, hp, ⟨_, _, h3⟩ | ⟨_, _, _, h3⟩⟩
  · cases h0
  · exact ⟨s₁, msgs, hp, h3⟩
  · exact ⟨s₁, msgs, hp, h3⟩

/-- What was encoded wrongly is never returned: when the elements that are read are not those of the message, the session was ended by an
error, and the call can only go on to return that. -/
theorem C114_wrong_partial {s₀ : State Addr (KeygenHeap.Round G)} {l : List (Bool × Op Addr × Ret Addr)} {w : Shared G} {out : List Bytes}
    (h : Tail sha s₀ l w (.checking out)) (hq : Spec.OnlyOne l) :
    ∃ s₁ msgs, Spec.Produced sha s₀ l s₁ msgs ∧
      (Spec.Encode (msgs.map s₁.round.heap.deref) out ∨ w.session.isFinished = true ∧ ∃ c, w.session.waitForError = some (some c)) := by
  rcases (tail_inv h hq).2 with h0 | ⟨s₁, msgs, hp, ⟨_, _, h3⟩ | ⟨h1, h2, _, _⟩⟩
  · cases h0
  · exact ⟨s₁, msgs, hp, .inl h3⟩
  · refine ⟨s₁, msgs, hp, .inr ⟨h1, ?_⟩⟩
    obtain ⟨c, hc⟩ := Option.ne_none_iff_exists'.mp h2
    exact ⟨c, by unfold waitForError; rw [if_neg (by simp [h1]), hc]⟩

/-- The calls, in the order in which they got the mutex, are a history of the session. -/
theorem tail_hist {s₀ : State Addr (KeygenHeap.Round G)} {l : List (Bool × Op Addr × Ret Addr)} {w : Shared G} {pc : TailPC G}
    (h : Tail sha s₀ l w pc) : Hist (KeygenHeap.impl sha) s₀ (l.map Prod.snd) (w.ending.getD w.session) ∧
      (∀ s, w.ending = some s → w.session.done = true ∧ w.session.err = s.err ∧ s.done = true) ∧
      (∀ out, pc = .waiting out → w.session.done = true) ∧
      ∀ c, pc = .returned (.error (.aborted c)) → w.session.done = true ∧ w.session.err = some c := by
  induction h with
  | start => exact ⟨.nil, (fun _ h => nomatch h), (fun _ h => nomatch h), (fun _ h => nomatch h)⟩
  | own h hst ih =>
    obtain ⟨i1, i2, i3, _⟩ := ih
    cases hst with
    | processed hp => exact ⟨by simpa using i1.snoc hp, (fun _ h => nomatch h), (fun _ h => nomatch h), (fun _ h => nomatch h)⟩
    | finished hf => exact ⟨by simpa using i1, i2, fun _ _ => hf, (fun _ h => nomatch h)⟩
    | failed hf =>
      refine ⟨by simpa using i1, i2, (fun _ h => nomatch h), ?_⟩
      intro c' hc
      cases hc
      have hd := i3 _ rfl
      unfold waitForError at hf
      rw [if_neg (by simp [hd])] at hf
      exact ⟨hd, Option.some.inj hf⟩
    | _ => exact ⟨by simpa using i1, i2, (fun _ h => nomatch h), (fun _ h => nomatch h)⟩
  | other h hst ih =>
    obtain ⟨i1, i2, i3, i4⟩ := ih
    cases hst with
    | call hs hd =>
      refine ⟨by simpa using i1.snoc hs, (fun _ h => nomatch h), fun out ho => hd.trans (i3 out ho), fun c hc => ?_⟩
      have hf := (C28_frozen (Hist.one hs) (i4 c hc).1).1
      rw [hf]
      exact i4 c hc
    | begins hs hd hd' =>
      refine ⟨by simpa using i1.snoc hs, fun s h => ?_, fun _ _ => rfl, fun c hc => ?_⟩
      · cases h; exact ⟨rfl, rfl, hd'⟩
      · have := (i4 c hc).1
        rw [hd] at this
        cases this
    | ends =>
      have h1 := i2 _ rfl
      exact ⟨by simpa using i1, (fun _ h => nomatch h), fun _ _ => h1.2.2, fun c hc => ⟨h1.2.2, h1.2.1 ▸ (i4 c hc).2⟩⟩

/-- C114: when it returns the error of the session, the session has ended with that error. -/
theorem C114_aborted {s₀ : State Addr (KeygenHeap.Round G)} {l : List (Bool × Op Addr × Ret Addr)} {w : Shared G} {c : StateErr}
    (h : Tail sha s₀ l w (.returned (.error (.aborted c)))) :
    ∃ s, Hist (KeygenHeap.impl sha) s₀ (l.map Prod.snd) s ∧ s.done = true ∧ s.err = some c := by
  obtain ⟨h1, h2, _, h3⟩ := tail_hist h
  obtain ⟨h4, h5⟩ := h3 c rfl
  cases he : w.ending with
  | none => exact ⟨_, h1, by rw [he]; exact h4, by rw [he]; exact h5⟩
  | some s =>
    rw [he] at h1
    exact ⟨s, h1, (h2 s he).2.2, (h2 s he).2.1 ▸ h5⟩

/-! ### Concrete calls -/

namespace TailDemo

open Demo HeapDemo

theorem run_ops {G R : Type} {impl : RoundImpl G R} {s t : State G R} {ops : List (Op G)} {h : List (Op G × Ret G)} (hr : run impl s ops = some (h, t)) :
    h.map Prod.fst = ops := by
  induction ops generalizing s h with
  | nil => cases hr; rfl
  | cons op ops ih =>
    unfold run at hr
    split at hr
    · cases hr
    · split at hr
      · cases hr
      · rename_i hrun
        cases hr
        rw [List.map_cons, ih hrun]

theorem exists_run {G R : Type} {impl : RoundImpl G R} {s : State G R} {ops : List (Op G)} {p : State G R → Bool}
    (hr : ((run impl s ops).map fun x => p x.2) = some true) : ∃ h t, (Hist impl s h t ∧ h.map Prod.fst = ops) ∧ p t = true := by
  obtain ⟨⟨h, t⟩, h1, h2⟩ := Option.map_eq_some_iff.mp hr
  exact ⟨h, t, ⟨run_hist h1, run_ops h1⟩, h2⟩

/-- The session after the call of `ProcessAll`. -/
def processed : State Addr (KeygenHeap.Round Toy) := ((step (KeygenHeap.impl toySha) start (.processAll .insertion (coins [5, 6, 7]))).getD (start, .nothing)).1

theorem processed_ok : step (KeygenHeap.impl toySha) start (.processAll .insertion (coins [5, 6, 7])) = some (processed, .messages [mine]) := by
  have key : (step (KeygenHeap.impl toySha) start (.processAll .insertion (coins [5, 6, 7]))).map (fun x => isMine x.2) = some true := by decide +kernel
  obtain ⟨⟨s, r⟩, h1, h2⟩ := Option.map_eq_some_iff.mp key
  have hr : r = .messages [mine] := eq_of_isMine h2
  unfold processed
  rw [h1, hr]
  rfl

/-- What others do changes only the session. -/
theorem others {s₀ s t : State Addr (KeygenHeap.Round Toy)} {l : List (Bool × Op Addr × Ret Addr)} {pc : TailPC Toy} {h : List (Op Addr × Ret Addr)}
    (ht : Tail toySha s₀ l ⟨s, none⟩ pc) (hh : Hist (KeygenHeap.impl toySha) s h t) (hd : t.done = false) :
    Tail toySha s₀ (l ++ h.map (Prod.mk false)) ⟨t, none⟩ pc := by
  induction hh with
  | nil => simpa using ht
  | snoc hh hst ih =>
    rename_i h s₁ s₂ op ret
    have hd₁ : s₁.done = false := by
      cases hc : s₁.done with
      | false => rfl
      | true =>
        have := (C28_frozen (Hist.one hst) hc).1
        rw [this] at hd
        exact hc.symm.trans hd
    have := (ih hd₁).other (.call hst (hd.trans hd₁.symm))
    simpa using this

/-- The messages with the given commitments as party 1 sends them. -/
def bytesOf (c : List Toy) : Bytes := match Message.marshalBinary (Message.newKeyGen1 1 ⟨0, 7⟩ c) with | .ok b => b | _ => []

theorem encodes (c : List Toy) (hc : c.length = 2) : Message.marshalBinary (fill mine c) = .ok (bytesOf c) := by
  unfold bytesOf
  have : fill mine c = Message.newKeyGen1 1 ⟨0, 7⟩ c := rfl
  rw [this]
  obtain ⟨b, hb⟩ : ∃ b, Message.marshalBinary (Message.newKeyGen1 1 ⟨0, 7⟩ c) = .ok b := ⟨_, rfl⟩
  rw [hb]

/-- Reading two elements and encoding the message. -/
theorem encode {s₀ : State Addr (KeygenHeap.Round Toy)} {l : List (Bool × Op Addr × Ret Addr)} {w : Shared Toy} {u v : Toy}
    (ht : Tail toySha s₀ l w (.encoding [mine] [] [])) (hu : w.Sees 4 u) (hv : w.Sees 5 v) : Tail toySha s₀ l w (.checking [bytesOf [u, v]]) := by
  have h1 := ht.own (.read (k := ⟨⟨0, 7⟩, [4, 5]⟩) rfl rfl hu)
  have h2 := h1.own (.read (k := ⟨⟨0, 7⟩, [4, 5]⟩) rfl rfl hv)
  have h3 := h2.own (.encoded (fun k hk => by cases hk; rfl) (encodes _ rfl))
  simpa using h3.own .all

end TailDemo

open Demo HeapDemo TailDemo in
/-- C114 is refuted: when another goroutine hands over the messages of the other parties and calls `ProcessAll` before the message is encoded,
the call returns the sum of all commitments instead of those of party 1. -/
theorem C114_refuted : ∃ l w, KeygenHeap.newKeygenState toySha HeapDemo.heap 1 ids 1 10 0 = .ok start ∧
    Tail toySha start l w (.returned (.ok [bytesOf [Toy.of 21, Toy.of 24]])) ∧ w.session.done = false ∧
    Spec.Produced toySha start l processed [mine] ∧ processed.round.heap.deref mine = Message.newKeyGen1 1 ⟨0, 7⟩ [Toy.of 5, Toy.of 6] ∧
    ¬ Spec.Encode ([mine].map processed.round.heap.deref) [bytesOf [Toy.of 21, Toy.of 24]] := by
  have key : ((run (KeygenHeap.impl toySha) processed HeapDemo.ops).map fun y => decide (y.2.done = false ∧ y.2.round.heap.cell 4 = Toy.of 21 ∧
      y.2.round.heap.cell 5 = Toy.of 24)) = some true := by decide +kernel
  obtain ⟨⟨h, t⟩, h1, h2⟩ := Option.map_eq_some_iff.mp key
  rw [decide_eq_true_eq] at h2
  have p := processed_ok
  have h3 : Tail toySha start _ _ _ := others (Tail.start.own (.processed p)) (run_hist h1) h2.1
  have h4 := (encode h3 (u := Toy.of 21) (v := Toy.of 24) (.inl h2.2.1.symm) (.inl h2.2.2.symm)).own (.running h2.1)
  have hd : processed.round.heap.deref mine = Message.newKeyGen1 1 ⟨0, 7⟩ [Toy.of 5, Toy.of 6] := by decide +kernel
  refine ⟨_, _, start_ok, h4, h2.1, ⟨[], _, _, _, start, rfl, .nil, p⟩, hd, ?_⟩
  intro he
  rw [List.map_singleton, hd] at he
  cases he with
  | cons h _ => exact absurd h (by decide +kernel)

open Demo HeapDemo TailDemo in
/-- The others take this for the message of party 1, and when its shares arrive they blame party 1. -/
theorem C114_refuted_blamed : ∃ (m : Message Toy) (h : List (Op Toy × Ret Toy)) (s : State Toy (Keygen.Round Toy)),
    Message.unmarshalBinary (Message.fresh : Message Toy) (bytesOf [Toy.of 21, Toy.of 24]) = .ok m ∧
    Keygen.newKeygenState toySha 2 ids 1 10 0 = .ok (session ids 1 2) ∧ Hist (Keygen.impl toySha) (session ids 1 2) h s ∧
    h.map Prod.fst = [.processAll .insertion (coins [7, 8, 9]), .handle m, .handle (Message.newKeyGen1 3 ⟨0, 1⟩ [Toy.of 9, Toy.of 10]),
      .processAll .insertion (coins []), .handle (Message.newKeyGen2 1 2 (5 + 2 * 6)), .handle (Message.newKeyGen2 3 2 (9 + 2 * 10)),
      .processAll .insertion (coins [])] ∧ s.done = true ∧ s.err = some ⟨1, 2, .vssFailed⟩ := by
  have key : (match Message.unmarshalBinary (Message.fresh : Message Toy) (bytesOf [Toy.of 21, Toy.of 24]) with
      | .ok m => decide (m = Message.newKeyGen1 1 ⟨0, 7⟩ [Toy.of 21, Toy.of 24])
      | _ => false) = true := by decide +kernel
  have hm : Message.unmarshalBinary (Message.fresh : Message Toy) (bytesOf [Toy.of 21, Toy.of 24]) = .ok (Message.newKeyGen1 1 ⟨0, 7⟩ [Toy.of 21, Toy.of 24]) := by
    split at key
    · rename_i m h; rw [h, of_decide_eq_true key]
    · cases key
  obtain ⟨h, s, h1, h2⟩ := exists_run (impl := Keygen.impl toySha) (s := session ids 1 2)
    (ops := [.processAll .insertion (coins [7, 8, 9]), .handle (Message.newKeyGen1 1 ⟨0, 7⟩ [Toy.of 21, Toy.of 24]),
      .handle (Message.newKeyGen1 3 ⟨0, 1⟩ [Toy.of 9, Toy.of 10]), .processAll .insertion (coins []), .handle (Message.newKeyGen2 1 2 (5 + 2 * 6)),
      .handle (Message.newKeyGen2 3 2 (9 + 2 * 10)), .processAll .insertion (coins [])])
    (p := fun s => decide (s.done = true ∧ s.err = some ⟨1, 2, .vssFailed⟩)) (by decide +kernel)
  exact ⟨_, h, s, hm, session_ok (by decide) (by decide) (by decide +kernel), h1.1, h1.2, of_decide_eq_true h2⟩

open Demo HeapDemo TailDemo in
/-- The timer can end the session while the message is encoded, so that the bytes are those of commitments to zero; then the call returns
the error. -/
theorem tail_timer : ∃ l w w', Tail toySha start l w (.checking [bytesOf [Toy.of 5, Toy.of 0]]) ∧ Spec.OnlyOne l ∧
    ¬ Spec.Encode ([mine].map processed.round.heap.deref) [bytesOf [Toy.of 5, Toy.of 0]] ∧
    Tail toySha start l w' (.returned (.error (.aborted ⟨0, 1, .timeout⟩))) := by
  have key : ((run (KeygenHeap.impl toySha) processed [.advance 10, .fire]).bind fun y => (step (KeygenHeap.impl toySha) y.2 .callback).map fun z =>
      decide (y.1.length = 2 ∧ y.2.done = false ∧ z.1.done = true ∧ z.1.err = some ⟨0, 1, .timeout⟩ ∧ y.2.round.heap.cell 4 = Toy.of 5 ∧ z.1.round.heap.cell 5 = Toy.of 0)) =
      some true := by decide +kernel
  obtain ⟨⟨h, t⟩, h1, h2⟩ := Option.bind_eq_some_iff.mp key
  obtain ⟨⟨u, r⟩, h3, h4⟩ := Option.map_eq_some_iff.mp h2
  obtain ⟨g1, g2, g3, g4, g5, g6⟩ := of_decide_eq_true h4
  have p := processed_ok
  have h5 : Tail toySha start _ _ _ := (others (Tail.start.own (.processed p)) (run_hist h1) g2).other (.begins h3 g2 g3)
  have h6 := encode h5 (u := Toy.of 5) (v := Toy.of 0) (.inl g5.symm) (.inr ⟨u, rfl, g6.symm⟩)
  have h7 := (h6.own (.finished rfl)).own (.failed (c := ⟨0, 1, .timeout⟩) (by
    unfold waitForError
    rw [if_neg (by simp)]
    exact congrArg some g4))
  have hd : processed.round.heap.deref mine = Message.newKeyGen1 1 ⟨0, 7⟩ [Toy.of 5, Toy.of 6] := by decide +kernel
  refine ⟨_, _, _, h6, ?_, ?_, by simpa using h7⟩
  · have hops := run_ops h1
    intro l₁ l₂ x hl hx y hy ord coins he
    cases l₁ with
    | nil =>
      simp only [List.nil_append, Option.toList_some, List.map_cons, List.map_nil, List.cons_append, List.cons.injEq] at hl
      rw [← hl.2] at hy
      rcases List.mem_append.mp hy with hy | hy
      · obtain ⟨z, hz, rfl⟩ := List.mem_map.mp hy
        have : z.1 ∈ [Op.advance 10, Op.fire] := hops ▸ List.mem_map_of_mem hz
        have he : z.1 = _ := he
        rw [he] at this
        simp at this
      · rcases List.mem_singleton.mp hy with rfl
        cases he
    | cons a l₁ =>
      simp only [List.nil_append, Option.toList_some, List.map_cons, List.map_nil, List.cons_append, List.cons.injEq] at hl
      have hx' : x ∈ h.map (Prod.mk false) ++ [(false, Op.callback, r)] := by rw [hl.2]; simp
      rcases List.mem_append.mp hx' with hy | hy
      · obtain ⟨z, hz, rfl⟩ := List.mem_map.mp hy
        cases hx
      · rcases List.mem_singleton.mp hy with rfl
        cases hx
  · intro he
    rw [List.map_singleton, hd] at he
    cases he with
    | cons h _ => exact absurd h (by decide +kernel)

end Verif.Props
