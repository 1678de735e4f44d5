import Verif.Model.Routines
import Verif.Props.Helpers

/-!
C110: calls of `PartyRoutine` while other goroutines and the timer work with the same session.
-/

namespace Verif.Props

open Verif State Outcome

variable {G R ι : Type} [RGroup G] [DecidableEq ι] {impl : RoundImpl G R}

/-- The events that call `i` caused. -/
def Spec.own (i : ι) (l : List (Option ι × Op G × Ret G)) : List (Op G × Ret G) :=
  (l.filter fun x => x.1 = some i).map Prod.snd

theorem own_append (i : ι) (l l' : List (Option ι × Op G × Ret G)) : Spec.own i (l ++ l') = Spec.own i l ++ Spec.own i l' := by
  simp [Spec.own]

theorem own_none (i : ι) (x : Op G × Ret G) : Spec.own i [((none : Option ι), x)] = [] := by simp [Spec.own]

theorem own_self (i : ι) (ev : Option (Op G × Ret G)) : Spec.own i (ev.toList.map (Prod.mk (some i))) = ev.toList := by
  cases ev <;> simp [Spec.own]

theorem own_ne {i j : ι} (h : j ≠ i) (ev : Option (Op G × Ret G)) : Spec.own i (ev.toList.map (Prod.mk (some j))) = [] := by
  cases ev <;> simp [Spec.own, h]

/-- The session had not ended at a moment after the last event of call `i`. -/
def Spec.RunningAfter (impl : RoundImpl G R) (s₀ : State G R) (i : ι) (l : List (Option ι × Op G × Ret G)) : Prop :=
  ∃ l₁ l₂ s₁, l = l₁ ++ l₂ ∧ Spec.own i l₂ = [] ∧ Hist impl s₀ (l₁.map Prod.snd) s₁ ∧ s₁.done = false

/-- The call has handed over all its inputs and called `ProcessAll`, which returned `msgs`, and has done nothing else. -/
def Spec.Processed (ins : List Bytes) (own : List (Op G × Ret G)) (msgs : List (Message G)) : Prop :=
  ∃ ms ord coins, Spec.Decode ins ms ∧ own = Spec.accepted ms ++ [(.processAll ord coins, .messages msgs)]

omit [RGroup G] in
/-- What the session keeps once it has ended. -/
theorem step_ended {s s' : State G R} {op : Op G} {ret : Ret G} (h : step impl s op = some (s', ret)) (hd : s.done = true) :
    s'.done = true ∧ s'.err = s.err := by
  have := (C28_frozen (Hist.one h) hd).1
  rw [this]
  exact ⟨hd, rfl⟩

theorem routineStep_step {s s' : State G R} {pc p : RoutinePC G} {ev : Option (Op G × Ret G)} (h : RoutineStep impl s pc ev s' p) :
    Hist impl s ev.toList s' := by
  cases h with
  | handled h | refused h => exact Hist.one (by simp only [step, h])
  | processed h => exact Hist.one (by simp [step, h])
  | _ => exact .nil

/-- Where a call stands, and what it has done so far. -/
def RoutineInv (impl : RoundImpl G R) (s₀ : State G R) (i : ι) (ins : List Bytes) (l : List (Option ι × Op G × Ret G)) (s : State G R) :
    RoutinePC G → Prop
  | .decoding rest => ∃ before ms, ins = before ++ rest ∧ Spec.Decode before ms ∧ Spec.own i l = Spec.accepted ms
  | .handing m rest => ∃ before b ms, ins = before ++ b :: rest ∧ Spec.Decode before ms ∧ Spec.own i l = Spec.accepted ms ∧
      Message.unmarshalBinary (Message.fresh : Message G) b = .ok m
  | .processing => ∃ ms, Spec.Decode ins ms ∧ Spec.own i l = Spec.accepted ms
  | .encoding msgs => Spec.Processed ins (Spec.own i l) msgs
  | .checking out => ∃ msgs, Spec.Processed ins (Spec.own i l) msgs ∧ Spec.Encode msgs out
  | .waiting out => (∃ msgs, Spec.Processed ins (Spec.own i l) msgs ∧ Spec.Encode msgs out) ∧ s.done = true
  | .returned (.ok out) => (∃ msgs, Spec.Processed ins (Spec.own i l) msgs ∧ Spec.Encode msgs out) ∧
      (Spec.RunningAfter impl s₀ i l ∨ s.done = true ∧ s.err = none)
  | .returned (.error (.unmarshal c)) => ∃ before b after ms, ins = before ++ b :: after ∧ Spec.Decode before ms ∧
      Spec.own i l = Spec.accepted ms ∧ Message.unmarshalBinary (Message.fresh : Message G) b = .err c
  | .returned (.error (.handle c)) => ∃ before b after ms m, ins = before ++ b :: after ∧ Spec.Decode before ms ∧
      Message.unmarshalBinary (Message.fresh : Message G) b = .ok m ∧ Spec.own i l = Spec.accepted ms ++ [(.handle m, .handled (some c))]
  | .returned (.error (.marshal c)) => ∃ before m after bs, Spec.Processed ins (Spec.own i l) (before ++ m :: after) ∧
      Spec.Encode before bs ∧ Message.marshalBinary m = .err c
  | .returned (.error (.aborted c)) => (∃ msgs out, Spec.Processed ins (Spec.own i l) msgs ∧ Spec.Encode msgs out) ∧
      s.done = true ∧ s.err = some c

/-- What others do does not change it. -/
theorem routineInv_other {s₀ s s' : State G R} {i : ι} {ins : List Bytes} {l l' : List (Option ι × Op G × Ret G)} {pc : RoutinePC G}
    (h : RoutineInv impl s₀ i ins l s pc) (ho : Spec.own i l' = []) (hd : s.done = true → s'.done = true ∧ s'.err = s.err) :
    RoutineInv impl s₀ i ins (l ++ l') s' pc := by
  have hown : Spec.own i (l ++ l') = Spec.own i l := by rw [own_append, ho, List.append_nil]
  cases pc with
  | decoding | handing | processing | encoding | checking => simpa only [RoutineInv, hown] using h
  | waiting out => exact ⟨by rw [hown]; exact h.1, (hd h.2).1⟩
  | returned r =>
    cases r with
    | ok out =>
      refine ⟨by rw [hown]; exact h.1, ?_⟩
      rcases h.2 with ⟨l₁, l₂, s₁, h1, h2, h3, h4⟩ | ⟨h1, h2⟩
      · exact Or.inl ⟨l₁, l₂ ++ l', s₁, by rw [h1, List.append_assoc], by rw [own_append, h2, ho]; rfl, h3, h4⟩
      · exact Or.inr ⟨(hd h1).1, by rw [(hd h1).2, h2]⟩
    | error e =>
      cases e with
      | unmarshal | handle | marshal => simpa only [RoutineInv, hown] using h
      | aborted c => exact ⟨by rw [hown]; exact h.1, (hd h.2.1).1, by rw [(hd h.2.1).2, h.2.2]⟩

theorem decode_snoc {before : List Bytes} {ms : List (Message G)} {b : Bytes} {m : Message G} (h : Spec.Decode before ms)
    (hb : Message.unmarshalBinary (Message.fresh : Message G) b = .ok m) : Spec.Decode (before ++ [b]) (ms ++ [m]) :=
  List.rel_append h (.cons hb .nil)

/-- The steps of the call itself. -/
theorem routineInv_step {s₀ s s' : State G R} {i : ι} {ins : List Bytes} {l : List (Option ι × Op G × Ret G)} {pc p : RoutinePC G}
    {ev : Option (Op G × Ret G)} (hh : Hist impl s₀ (l.map Prod.snd) s) (h : RoutineInv impl s₀ i ins l s pc)
    (hs : RoutineStep impl s pc ev s' p) : RoutineInv impl s₀ i ins (l ++ ev.toList.map (Prod.mk (some i))) s' p := by
  have hown : Spec.own i (l ++ ev.toList.map (Prod.mk (some i))) = Spec.own i l ++ ev.toList := by rw [own_append, own_self]
  cases hs with
  | decoded hb =>
    obtain ⟨before, ms, h1, h2, h3⟩ := h
    exact ⟨before, _, ms, h1, h2, by simpa [h3] using hown, hb⟩
  | undecodable hb =>
    obtain ⟨before, ms, h1, h2, h3⟩ := h
    exact ⟨before, _, _, ms, h1, h2, by simpa [h3] using hown, hb⟩
  | all =>
    obtain ⟨before, ms, h1, h2, h3⟩ := h
    rw [List.append_nil] at h1
    subst h1
    exact ⟨ms, h2, by simpa [h3] using hown⟩
  | handled hm =>
    obtain ⟨before, b, ms, h1, h2, h3, h4⟩ := h
    exact ⟨before ++ [b], ms ++ [_], by simp [h1], decode_snoc h2 h4, by rw [hown, h3]; simp [Spec.accepted]⟩
  | refused hm =>
    obtain ⟨before, b, ms, h1, h2, h3, h4⟩ := h
    exact ⟨before, b, _, ms, _, h1, h2, h4, by rw [hown, h3]; rfl⟩
  | processed hp =>
    obtain ⟨ms, h1, h2⟩ := h
    exact ⟨ms, _, _, h1, by rw [hown, h2]; rfl⟩
  | encoded ho =>
    obtain ⟨bs, h1, h2⟩ := routineOutputs_ok.mp ho
    rw [List.nil_append] at h2
    subst h2
    exact ⟨_, by simpa [RoutineInv] using h, h1⟩
  | unencodable ho =>
    obtain ⟨before, m, after, bs, rfl, h2, h3⟩ := routineOutputs_err.mp ho
    exact ⟨before, m, after, bs, by simpa [RoutineInv] using h, h2, h3⟩
  | running hf => exact ⟨by simpa [RoutineInv] using h, Or.inl ⟨l, [], s, by simp, rfl, hh, hf⟩⟩
  | finished hf => exact ⟨by simpa [RoutineInv] using h, hf⟩
  | failed hw =>
    obtain ⟨⟨msgs, h1, h2⟩, hd⟩ := h
    refine ⟨⟨msgs, _, by simpa using h1, h2⟩, hd, ?_⟩
    unfold waitForError at hw
    rw [if_neg (by simp [hd])] at hw
    exact Option.some.inj hw
  | succeeded hw =>
    obtain ⟨h1, hd⟩ := h
    refine ⟨by simpa using h1, Or.inr ⟨hd, ?_⟩⟩
    unfold waitForError at hw
    rw [if_neg (by simp [hd])] at hw
    exact Option.some.inj hw

/-- What happens to the session is one history, and every call stands where what it has done says. -/
theorem routines_inv {ins : ι → List Bytes} {s₀ s : State G R} {l : List (Option ι × Op G × Ret G)} {pc : ι → RoutinePC G}
    (h : Routines impl ins s₀ l s pc) :
    Hist impl s₀ (l.map Prod.snd) s ∧ ∀ i, RoutineInv impl s₀ i (ins i) l s (pc i) := by
  induction h with
  | start => exact ⟨.nil, fun i => ⟨[], [], rfl, .nil, rfl⟩⟩
  | @routine l s pc j ev s' p h1 hs ih =>
    refine ⟨?_, fun i => ?_⟩
    · rw [List.map_append, List.map_map]
      have : (Prod.snd ∘ Prod.mk (some j) : Op G × Ret G → _) = id := rfl
      rw [this, List.map_id]
      exact ih.1.trans (routineStep_step hs)
    · by_cases hij : i = j
      · subst hij
        rw [Function.update_self]
        exact routineInv_step ih.1 (ih.2 i) hs
      · rw [Function.update_of_ne hij]
        refine routineInv_other (ih.2 i) (own_ne (Ne.symm hij) ev) fun hd => ?_
        have := (C28_frozen (routineStep_step hs) hd).1
        rw [this]
        exact ⟨hd, rfl⟩
  | @other l s pc op ret s' h1 hs ih =>
    refine ⟨?_, fun i => routineInv_other (ih.2 i) (own_none i _) (step_ended hs)⟩
    rw [List.map_append]
    exact ih.1.snoc hs

/-! ### C110 -/

theorem routineOutputs_no_panic (ms : List (Message G)) (acc : List Bytes) : routineOutputs ms acc ≠ .panic := by
  induction ms generalizing acc with
  | nil => simp [routineOutputs]
  | cons m ms ih =>
    unfold routineOutputs
    cases hm : Message.marshalBinary m with
    | ok b => exact ih _
    | err e => simp
    | panic => exact absurd hm (message_bytesAppend_no_panic m _)

/-- Whatever the calls and the others do, the session sees one sequence of events, and so all that is proved about histories holds. -/
theorem C110_history {ins : ι → List Bytes} {s₀ s : State G R} {l : List (Option ι × Op G × Ret G)} {pc : ι → RoutinePC G}
    (h : Routines impl ins s₀ l s pc) : Hist impl s₀ (l.map Prod.snd) s := (routines_inv h).1

/-- A call that returned without an error has handed over all its inputs, none of which was refused, and then called `ProcessAll` once;
it returned the encodings of exactly the messages of that call; and at a moment after that the session had not ended, or it has
ended without an error. -/
theorem C110_ok {ins : ι → List Bytes} {s₀ s : State G R} {l : List (Option ι × Op G × Ret G)} {pc : ι → RoutinePC G}
    (h : Routines impl ins s₀ l s pc) (i : ι) (out : List Bytes) (hr : pc i = .returned (.ok out)) :
    (∃ msgs, Spec.Processed (ins i) (Spec.own i l) msgs ∧ Spec.Encode msgs out) ∧
      (Spec.RunningAfter impl s₀ i l ∨ s.done = true ∧ s.err = none) := by
  have := (routines_inv h).2 i
  rw [hr] at this
  exact this

/-- A call that returned an error did so for one of four reasons: an input that cannot be decoded, or that was refused, after those
before it were accepted and without a call of `ProcessAll`; a message of its call of `ProcessAll` that cannot be encoded; or the session
has ended with that very error. -/
theorem C110_error {ins : ι → List Bytes} {s₀ s : State G R} {l : List (Option ι × Op G × Ret G)} {pc : ι → RoutinePC G}
    (h : Routines impl ins s₀ l s pc) (i : ι) (e : RoutineErr) (hr : pc i = .returned (.error e)) :
    (∃ c before b after ms, e = .unmarshal c ∧ ins i = before ++ b :: after ∧ Spec.Decode before ms ∧
      Message.unmarshalBinary (Message.fresh : Message G) b = .err c ∧ Spec.own i l = Spec.accepted ms) ∨
    (∃ c before b after ms m, e = .handle c ∧ ins i = before ++ b :: after ∧ Spec.Decode before ms ∧
      Message.unmarshalBinary (Message.fresh : Message G) b = .ok m ∧ Spec.own i l = Spec.accepted ms ++ [(.handle m, .handled (some c))]) ∨
    (∃ c before m after bs, e = .marshal c ∧ Spec.Processed (ins i) (Spec.own i l) (before ++ m :: after) ∧ Spec.Encode before bs ∧
      Message.marshalBinary m = .err c) ∨
    (∃ c msgs out, e = .aborted c ∧ Spec.Processed (ins i) (Spec.own i l) msgs ∧ Spec.Encode msgs out ∧ s.done = true ∧ s.err = some c) := by
  have := (routines_inv h).2 i
  rw [hr] at this
  cases e with
  | unmarshal c =>
    obtain ⟨before, b, after, ms, h1, h2, h3, h4⟩ := this
    exact Or.inl ⟨c, before, b, after, ms, rfl, h1, h2, h4, h3⟩
  | handle c =>
    obtain ⟨before, b, after, ms, m, h1, h2, h3, h4⟩ := this
    exact Or.inr (Or.inl ⟨c, before, b, after, ms, m, rfl, h1, h2, h3, h4⟩)
  | marshal c =>
    obtain ⟨before, m, after, bs, h1, h2, h3⟩ := this
    exact Or.inr (Or.inr (Or.inl ⟨c, before, m, after, bs, rfl, h1, h2, h3⟩))
  | aborted c =>
    obtain ⟨⟨msgs, out, h1, h2⟩, h3, h4⟩ := this
    exact Or.inr (Or.inr (Or.inr ⟨c, msgs, out, rfl, h1, h2, h3, h4⟩))

/-- No call ever waits: one that has not returned can take a step whatever the others do, unless `ProcessAll` crashes.  In particular
`WaitForError` does not block. -/
theorem C110_never_waits {ins : ι → List Bytes} {s₀ s : State G R} {l : List (Option ι × Op G × Ret G)} {pc : ι → RoutinePC G}
    (h : Routines impl ins s₀ l s pc) (i : ι) (ord : MapOrder) (coins : Coins) :
    (∃ r, pc i = .returned r) ∨ (∃ ev s' p, RoutineStep impl s (pc i) ev s' p) ∨
    (pc i = .processing ∧ State.processAll impl ord coins s = none) := by
  have hi := (routines_inv h).2 i
  cases hp : pc i with
  | returned r => exact Or.inl ⟨r, rfl⟩
  | decoding rest =>
    refine Or.inr (Or.inl ?_)
    cases rest with
    | nil => exact ⟨_, _, _, .all⟩
    | cons b rest =>
      cases hb : Message.unmarshalBinary (Message.fresh : Message G) b with
      | ok m => exact ⟨_, _, _, .decoded hb⟩
      | err c => exact ⟨_, _, _, .undecodable hb⟩
      | panic => exact absurd hb (C22_unmarshal_no_panic_partial b Message.fresh).1
  | handing m rest =>
    refine Or.inr (Or.inl ?_)
    rcases hm : handleMessage impl s m with ⟨s', _ | c⟩
    · exact ⟨_, _, _, .handled hm⟩
    · exact ⟨_, _, _, .refused hm⟩
  | processing =>
    cases hx : State.processAll impl ord coins s with
    | none => exact Or.inr (Or.inr ⟨rfl, rfl⟩)
    | some x => exact Or.inr (Or.inl ⟨_, _, _, .processed (s' := x.1) (msgs := x.2) hx⟩)
  | encoding msgs =>
    cases hx : routineOutputs msgs [] with
    | ok out => exact Or.inr (Or.inl ⟨_, _, _, .encoded hx⟩)
    | err c => exact Or.inr (Or.inl ⟨_, _, _, .unencodable hx⟩)
    | panic => exact absurd hx (routineOutputs_no_panic _ _)
  | checking out =>
    refine Or.inr (Or.inl ?_)
    cases hf : s.isFinished with
    | false => exact ⟨_, _, _, .running hf⟩
    | true => exact ⟨_, _, _, .finished hf⟩
  | waiting out =>
    rw [hp] at hi
    have hw : s.waitForError = some s.err := by unfold waitForError; rw [if_neg (by simp [hi.2])]
    refine Or.inr (Or.inl ?_)
    cases he : s.err with
    | none => exact ⟨_, _, _, .succeeded (by rw [hw, he])⟩
    | some c => exact ⟨_, _, _, .failed (by rw [hw, he])⟩

omit [RGroup G] in
theorem hist_messages {s s' : State G R} {h : List (Op G × Ret G)} (hh : Hist impl s h s') {op : Op G} {out : List (Message G)}
    (hx : (op, Ret.messages out) ∈ h) : ∃ ord coins, op = .processAll ord coins := by
  induction hh with
  | nil => cases hx
  | @snoc h s₁ s₂ op' ret h1 hs ih =>
    rcases List.mem_append.mp hx with hx | hx
    · exact ih hx
    · rw [List.mem_singleton] at hx
      cases hx
      cases op with
      | processAll ord coins => exact ⟨ord, coins, rfl⟩
      | handle m => simp [step] at hs
      | advance dt => simp [step] at hs
      | fire => simp only [step] at hs; split at hs <;> [split at hs; skip] <;> simp at hs
      | callback => simp only [step] at hs; split at hs <;> simp at hs

omit [RGroup G] in
theorem accepted_no_messages {ms : List (Message G)} {op : Op G} {out : List (Message G)} :
    (op, Ret.messages out) ∉ Spec.accepted ms := by simp [Spec.accepted]

theorem encode_mem {ms : List (Message G)} {bs : List Bytes} (h : Spec.Encode ms bs) {m : Message G} (hm : m ∈ ms) :
    ∃ b ∈ bs, Message.marshalBinary m = .ok b := by
  induction h with
  | nil => cases hm
  | cons h _ ih =>
    rcases List.mem_cons.mp hm with rfl | hm
    · exact ⟨_, List.mem_cons_self, h⟩
    · obtain ⟨b, hb, h⟩ := ih hm
      exact ⟨b, List.mem_cons_of_mem _ hb, h⟩

/-- Nothing gets lost unless the session fails: when all calls have returned, nobody else has called `ProcessAll` and the session has no
error, every message that the session ever sent is among the results of a call. -/
theorem nothing_lost {ins : ι → List Bytes} {s₀ s : State G R} {l : List (Option ι × Op G × Ret G)} {pc : ι → RoutinePC G}
    (h : Routines impl ins s₀ l s pc) (hret : ∀ i, ∃ r, pc i = .returned r)
    (honly : ∀ x ∈ l, x.1 = none → ∀ ord coins, x.2.1 ≠ .processAll ord coins) (herr : s.err = none)
    (henc : ∀ m ∈ Spec.emitted (l.map Prod.snd), ∃ b, Message.marshalBinary m = .ok b) (m : Message G)
    (hm : m ∈ Spec.emitted (l.map Prod.snd)) : ∃ i out b, pc i = .returned (.ok out) ∧ b ∈ out ∧ Message.marshalBinary m = .ok b := by
  have hm' := hm
  unfold Spec.emitted at hm'
  rw [List.mem_flatMap] at hm'
  obtain ⟨⟨op, ret⟩, h1, h2⟩ := hm'
  cases ret with
  | handled | nothing => cases h2
  | messages out =>
    simp only at h2
    obtain ⟨⟨who, y⟩, h3, rfl⟩ := List.mem_map.mp h1
    obtain ⟨ord, coins, rfl⟩ := hist_messages (routines_inv h).1 h1
    cases who with
    | none => exact absurd rfl (honly _ h3 rfl ord coins)
    | some i =>
      have hmem : (Op.processAll ord coins, Ret.messages out) ∈ Spec.own i l :=
        List.mem_map.mpr ⟨_, List.mem_filter.mpr ⟨h3, by simp⟩, rfl⟩
      have key : ∀ {msgs}, Spec.Processed (ins i) (Spec.own i l) msgs → out = msgs := by
        rintro msgs ⟨ms, ord', coins', _, h5⟩
        rw [h5, List.mem_append, List.mem_singleton] at hmem
        rcases hmem with hmem | hmem
        · exact absurd hmem accepted_no_messages
        · simpa using (Prod.mk.inj hmem).2
      obtain ⟨r, hr⟩ := hret i
      cases r with
      | ok bs =>
        obtain ⟨⟨msgs, h4, h5⟩, _⟩ := C110_ok h i bs hr
        cases key h4
        obtain ⟨b, h6, h7⟩ := encode_mem h5 h2
        exact ⟨i, bs, b, hr, h6, h7⟩
      | error e =>
        rcases C110_error h i e hr with ⟨c, before, b, after, ms, _, _, _, _, h5⟩ | ⟨c, before, b, after, ms, m', _, _, _, _, h5⟩ |
          ⟨c, before, m', after, bs, _, h4, _, h6⟩ | ⟨c, msgs, bs, _, _, _, _, h6⟩
        · exact absurd (h5 ▸ hmem) accepted_no_messages
        · rw [h5, List.mem_append, List.mem_singleton] at hmem
          rcases hmem with hmem | hmem
          · exact absurd hmem accepted_no_messages
          · simp at hmem
        · obtain ⟨b, hb⟩ := henc m' (by
            unfold Spec.emitted
            rw [List.mem_flatMap]
            exact ⟨_, h1, by rw [key h4]; simp⟩)
          rw [hb] at h6
          cases h6
        · rw [herr] at h6
          cases h6

section Sessions

variable {sha : Sha512}

/-- Nothing of a key generation gets lost unless it fails: when all calls have returned, nobody else has called `ProcessAll` and the
session has no error, every message that the session ever sent is among the results of a call. -/
theorem C110_keygen_nothing_lost (me : ID) (ids : IDSlice) (t : UInt16) (timeout now : Nat) (s₀ : State G (Keygen.Round G))
    (h₀ : Keygen.newKeygenState sha me ids t timeout now = .ok s₀) (hnd : ids.Nodup) {ins : ι → List Bytes}
    {s : State G (Keygen.Round G)} {l : List (Option ι × Op G × Ret G)} {pc : ι → RoutinePC G}
    (h : Routines (Keygen.impl sha) ins s₀ l s pc) (hret : ∀ i, ∃ r, pc i = .returned r)
    (honly : ∀ x ∈ l, x.1 = none → ∀ ord coins, x.2.1 ≠ .processAll ord coins) (herr : s.err = none) (m : Message G)
    (hm : m ∈ Spec.emitted (l.map Prod.snd)) : ∃ i out b, pc i = .returned (.ok out) ∧ b ∈ out ∧ Message.marshalBinary m = .ok b :=
  nothing_lost h hret honly herr
    (fun m hm => (C64_keygen_encodes me ids t timeout now s₀ h₀ hnd (C110_history h) m hm).imp fun _ hb => hb.1) m hm

/-- The same for signing. -/
theorem C110_sign_nothing_lost (secret : SecretShare G) (shares : Public G) (ids : IDSlice) (message : Bytes) (timeout now : Nat)
    (s₀ : State G (Sign.Round G)) (h₀ : Sign.newSignState sha ids secret shares message timeout now = .ok s₀) (hnd : ids.Nodup)
    {ins : ι → List Bytes} {s : State G (Sign.Round G)} {l : List (Option ι × Op G × Ret G)} {pc : ι → RoutinePC G}
    (h : Routines (Sign.impl sha) ins s₀ l s pc) (hret : ∀ i, ∃ r, pc i = .returned r)
    (honly : ∀ x ∈ l, x.1 = none → ∀ ord coins, x.2.1 ≠ .processAll ord coins) (herr : s.err = none) (m : Message G)
    (hm : m ∈ Spec.emitted (l.map Prod.snd)) : ∃ i out b, pc i = .returned (.ok out) ∧ b ∈ out ∧ Message.marshalBinary m = .ok b :=
  nothing_lost h hret honly herr
    (fun m hm => (C64_sign_encodes secret shares ids message timeout now s₀ h₀ hnd (C110_history h) m hm).imp fun _ hb => hb.1) m hm

end Sessions

/-! A call on its own -/

omit [RGroup G] in
theorem hist_unique {s s₁ s₂ : State G R} {h : List (Op G × Ret G)} (h1 : Hist impl s h s₁) (h2 : Hist impl s h s₂) : s₁ = s₂ := by
  induction h generalizing s with
  | nil => rw [hist_nil.mp h1, hist_nil.mp h2]
  | cons x h ih =>
    obtain ⟨a, ha, h1⟩ := hist_cons.mp h1
    obtain ⟨b, hb, h2⟩ := hist_cons.mp h2
    rw [ha] at hb
    cases hb
    exact ih h1 h2

section Alone

variable {ins : List Bytes} {s₀ s s' : State G R} {l : List (Option Unit × Op G × Ret G)}

/-- Only the call does anything. -/
abbrev Alone (l : List (Option Unit × Op G × Ret G)) : Prop := ∀ x ∈ l, x.1 = some ()

theorem alone_step {pc p : RoutinePC G} {ev : Option (Op G × Ret G)} (h : Routines impl (fun _ : Unit => ins) s₀ l s (fun _ => pc))
    (ha : Alone l) (hs : RoutineStep impl s pc ev s' p) :
    ∃ l', Routines impl (fun _ : Unit => ins) s₀ l' s' (fun _ => p) ∧ Alone l' := by
  have := h.routine (i := ()) hs
  refine ⟨_, by convert this using 1; funext u; cases u; simp, fun x hx => ?_⟩
  rcases List.mem_append.mp hx with hx | hx
  · exact ha x hx
  · obtain ⟨y, _, rfl⟩ := List.mem_map.mp hx
    rfl

/-- Where a call stands after its inputs. -/
def afterInputs : Option RoutineErr → RoutinePC G
  | none => .processing
  | some e => .returned (.error e)

theorem alone_inputs {rest : List Bytes} {e : Option RoutineErr} (h : Routines impl (fun _ : Unit => ins) s₀ l s (fun _ => .decoding rest))
    (ha : Alone l) (hr : routineInputs impl rest s = some (s', e)) :
    ∃ l', Routines impl (fun _ : Unit => ins) s₀ l' s' (fun _ => afterInputs e) ∧
      Alone l' := by
  induction rest generalizing s l with
  | nil =>
    simp only [routineInputs, Option.some.injEq, Prod.mk.injEq] at hr
    obtain ⟨rfl, rfl⟩ := hr
    exact alone_step h ha .all
  | cons b rest ih =>
    unfold routineInputs at hr
    split at hr
    · cases hr
    · rename_i c hb
      cases hr
      exact alone_step h ha (.undecodable hb)
    · rename_i m hb
      obtain ⟨l₁, h1, ha1⟩ := alone_step h ha (.decoded hb)
      split at hr
      · rename_i s₁ c hx
        cases hr
        exact alone_step h1 ha1 (.refused hx)
      · rename_i s₁ hx
        obtain ⟨l₂, h2, ha2⟩ := alone_step h1 ha1 (.handled hx)
        exact ih h2 ha2 hr

omit [RGroup G] in
theorem alone_own (ha : Alone l) : Spec.own () l = l.map Prod.snd := by
  unfold Spec.own
  rw [List.filter_eq_self.mpr fun x hx => by simp [ha x hx]]

end Alone

/-- When nobody else does anything in between, a call does what `partyRoutine` says. -/
theorem C110_alone (ins : List Bytes) (s s' : State G R) (r : Except RoutineErr (List Bytes)) :
    (∃ ord coins, partyRoutine impl ord coins ins s = some (s', r)) ↔
      ∃ l, Routines impl (fun _ : Unit => ins) s l s' (fun _ => .returned r) ∧ ∀ x ∈ l, x.1 = some () := by
  constructor
  · rintro ⟨ord, coins, h⟩
    unfold partyRoutine at h
    split at h
    · cases h
    · rename_i s₁ e hin
      cases h
      exact alone_inputs .start (by simp [Alone]) hin
    · rename_i s₁ hin
      obtain ⟨l₁, h1, ha1⟩ := alone_inputs .start (by simp [Alone]) hin
      split at h
      · cases h
      · rename_i s₂ msgs hp
        obtain ⟨l₂, h2, ha2⟩ := alone_step h1 ha1 (.processed hp)
        split at h
        · cases h
        · rename_i c ho
          cases h
          exact alone_step h2 ha2 (.unencodable ho)
        · rename_i out ho
          obtain ⟨l₃, h3, ha3⟩ := alone_step h2 ha2 (.encoded ho)
          split at h
          · rename_i hf
            obtain ⟨l₄, h4, ha4⟩ := alone_step h3 ha3 (.finished hf)
            split at h
            · rename_i c hw
              cases h
              exact alone_step h4 ha4 (.failed hw)
            · rename_i hw
              cases h
              refine alone_step h4 ha4 (.succeeded ?_)
              have hd : s'.done = true := hf
              unfold waitForError at hw ⊢
              rw [if_neg (by simp [hd])] at hw ⊢
              cases he : s'.err with
              | none => rfl
              | some c => exact absurd (by rw [he]) (hw c)
          · rename_i hf
            cases h
            exact alone_step h3 ha3 (.running (by simpa using hf))
  · rintro ⟨l, h, ha⟩
    have hh := C110_history h
    cases r with
    | ok out =>
      obtain ⟨⟨msgs, ⟨ms, ord, coins, h1, h2⟩, h3⟩, h4⟩ := C110_ok h () out rfl
      rw [alone_own ha] at h2
      refine ⟨ord, coins, (C64_returns_iff ord coins ins s s' out).mpr ⟨ms, msgs, h1, h2 ▸ hh, h3, fun hd => ?_⟩⟩
      rcases h4 with ⟨l₁, l₂, s₁, rfl, h5, h6, h7⟩ | h4
      · rw [alone_own fun x hx => ha x (List.mem_append_right _ hx), List.map_eq_nil_iff] at h5
        subst h5
        rw [List.append_nil] at hh
        rw [hist_unique hh h6, h7] at hd
        cases hd
      · exact h4.2
    | error e =>
      rcases C110_error h () e rfl with ⟨c, before, b, after, ms, rfl, h1, h2, h3, h5⟩ | ⟨c, before, b, after, ms, m', rfl, h1, h2, h3, h5⟩ |
        ⟨c, before, m', after, bs, rfl, ⟨ms, ord, coins, h1, h2⟩, h3, h6⟩ | ⟨c, msgs, bs, rfl, ⟨ms, ord, coins, h1, h2⟩, h3, h4, h6⟩
      · rw [alone_own ha] at h5
        exact ⟨MapOrder.insertion, fun _ => 0, (C64_error_iff _ _ ins s s' _).mpr (Or.inl ⟨before, b, after, ms, s', h1, h2, h5 ▸ hh, Or.inl ⟨c, rfl, h3, rfl⟩⟩)⟩
      · rw [alone_own ha] at h5
        rw [h5] at hh
        obtain ⟨s₁, h6, h7⟩ := hist_split hh
        obtain ⟨s₂, h8, h9⟩ := hist_cons.mp h7
        cases hist_nil.mp h9
        exact ⟨MapOrder.insertion, fun _ => 0, (C64_error_iff _ _ ins s s' _).mpr (Or.inl ⟨before, b, after, ms, s₁, h1, h2, h6, Or.inr ⟨m', c, rfl, h3, h8⟩⟩)⟩
      · rw [alone_own ha] at h2
        exact ⟨ord, coins, (C64_error_iff ord coins ins s s' _).mpr (Or.inr ⟨ms, _, h1, h2 ▸ hh, Or.inl ⟨before, m', after, bs, c, rfl, rfl, h3, h6⟩⟩)⟩
      · rw [alone_own ha] at h2
        exact ⟨ord, coins, (C64_error_iff ord coins ins s s' _).mpr (Or.inr ⟨ms, _, h1, h2 ▸ hh, Or.inr ⟨bs, c, rfl, h3, h4, h6⟩⟩)⟩

/-- What a time-out leaves behind. -/
theorem callback_fails {s s' : State G R} {ret : Ret G} (hd : s.done = false) (he : s.err = none) (hf : s.timer.fired ≠ 0)
    (h : step impl s .callback = some (s', ret)) : s'.done = true ∧ s'.err = some ⟨0, s.roundNumber, .timeout⟩ := by
  simp only [step, hf, if_false, Option.map_eq_some_iff, timeoutCallback, reportError, hd, Bool.false_eq_true, he, finish] at h
  obtain ⟨x, hx, h⟩ := h
  cases hr : impl.reset s.round with
  | none => simp [hr] at hx
  | some r =>
    simp only [hr, Option.bind_eq_bind, Option.bind_some] at hx
    split at hx
    · cases hx
    · cases hx
      cases h
      exact ⟨rfl, rfl⟩

/-- The time-out and the test in line 44 race: with a callback waiting for the mutex, a call that is about to test whether the session is
finished may find that it has failed, and then the messages, which the session will not send again, are dropped; or it may return
them without an error although the session fails before it has returned. -/
theorem C110_timeout_race {ins : ι → List Bytes} {s₀ s s' : State G R} {l : List (Option ι × Op G × Ret G)} {pc : ι → RoutinePC G}
    (h : Routines impl ins s₀ l s pc) (i : ι) (out : List Bytes) (hc : pc i = .checking out) (hd : s.done = false) (he : s.err = none)
    (hf : s.timer.fired ≠ 0) {ret : Ret G} (hcb : step impl s .callback = some (s', ret)) :
    (∃ l' pc', Routines impl ins s₀ l' s' pc' ∧ pc' i = .returned (.error (.aborted ⟨0, s.roundNumber, .timeout⟩))) ∧
    (∃ l' pc', Routines impl ins s₀ l' s' pc' ∧ pc' i = .returned (.ok out) ∧ s'.err = some ⟨0, s.roundNumber, .timeout⟩) := by
  obtain ⟨h1, h2⟩ := callback_fails hd he hf hcb
  constructor
  · have r1 := (h.other hcb).routine (i := i) (p := .waiting out) (by rw [hc]; exact .finished h1)
    have r2 := r1.routine (i := i) (ev := none) (s' := s') (p := .returned (.error (.aborted ⟨0, s.roundNumber, .timeout⟩)))
      (by rw [Function.update_self]; exact .failed (by unfold waitForError; rw [if_neg (by simp [h1]), h2]))
    exact ⟨_, _, r2, Function.update_self ..⟩
  · have r1 := h.routine (i := i) (p := .returned (.ok out)) (by rw [hc]; exact .running hd)
    exact ⟨_, _, r1.other hcb, Function.update_self .., h2⟩

end Verif.Props
