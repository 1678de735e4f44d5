import Verif.Model.Helpers
import Verif.Props.SignBlame
import Verif.Props.KeygenAbort
import Verif.Props.Messages
import Verif.Lemmas.Forward

/-!
C64 and C67: what `PartyRoutine` reports, and what a key generation session sends in its lifetime.
-/

namespace Verif.Props

open Verif State Outcome

section Routine

variable {G R : Type} [RGroup G] {impl : RoundImpl G R}

/-- `ms` are the messages encoded by the byte strings `ins`. -/
def Spec.Decode (ins : List Bytes) (ms : List (Message G)) : Prop :=
  List.Forall₂ (fun b m => Message.unmarshalBinary (Message.fresh : Message G) b = .ok m) ins ms

/-- `out` are the encodings of `ms`. -/
def Spec.Encode (ms : List (Message G)) (out : List Bytes) : Prop :=
  List.Forall₂ (fun m b => Message.marshalBinary m = .ok b) ms out

/-- All of `ms` handed over and none refused. -/
def Spec.accepted (ms : List (Message G)) : List (Op G × Ret G) := ms.map fun m => (.handle m, .handled none)

/-- Why `PartyRoutine` refuses its inputs: those before were accepted, then one cannot be decoded or is refused. -/
def Spec.InputFails (impl : RoundImpl G R) (ins : List Bytes) (s s' : State G R) (e : RoutineErr) : Prop :=
  ∃ before bad after ms s₁, ins = before ++ bad :: after ∧ Spec.Decode before ms ∧ Hist impl s (Spec.accepted ms) s₁ ∧
    ((∃ c, e = .unmarshal c ∧ Message.unmarshalBinary (Message.fresh : Message G) bad = .err c ∧ s' = s₁) ∨
     ∃ m c, e = .handle c ∧ Message.unmarshalBinary (Message.fresh : Message G) bad = .ok m ∧
       State.step impl s₁ (.handle m) = some (s', .handled (some c)))

omit [RGroup G] in
theorem hist_nil {s s' : State G R} : Hist impl s [] s' ↔ s' = s := by
  constructor
  · intro hh
    generalize hl : ([] : List (Op G × Ret G)) = l at hh
    cases hh with
    | nil => rfl
    | snoc => simp at hl
  · rintro rfl; exact .nil

omit [RGroup G] in
theorem hist_cons {s s' : State G R} {x : Op G × Ret G} {h : List (Op G × Ret G)} :
    Hist impl s (x :: h) s' ↔ ∃ s₁, step impl s x.1 = some (s₁, x.2) ∧ Hist impl s₁ h s' := by
  constructor
  · intro hh
    generalize hl : x :: h = l at hh
    induction hh generalizing x h with
    | nil => cases hl
    | @snoc h' s₁ s₂ op ret h1 hs ih =>
      cases h' with
      | nil =>
        obtain ⟨rfl, rfl⟩ := List.cons.inj hl
        cases hist_nil.mp h1
        exact ⟨s₂, hs, .nil⟩
      | cons y h' =>
        obtain ⟨rfl, rfl⟩ := List.cons.inj hl
        obtain ⟨s₃, g1, g2⟩ := ih rfl
        exact ⟨s₃, g1, g2.snoc hs⟩
  · rintro ⟨s₁, h1, h2⟩
    exact (Hist.one h1).trans h2

omit [RGroup G] in
theorem hist_split {s s' : State G R} {h h' : List (Op G × Ret G)} (hh : Hist impl s (h ++ h') s') :
    ∃ s₁, Hist impl s h s₁ ∧ Hist impl s₁ h' s' := by
  induction h generalizing s with
  | nil => exact ⟨s, .nil, hh⟩
  | cons x h ih =>
    obtain ⟨s₁, h1, h2⟩ := hist_cons.mp hh
    obtain ⟨s₂, h3, h4⟩ := ih h2
    exact ⟨s₂, hist_cons.mpr ⟨s₁, h1, h3⟩, h4⟩

/-- The inputs are all accepted exactly if each decodes and is not refused. -/
theorem routineInputs_ok {ins : List Bytes} {s s' : State G R} :
    routineInputs impl ins s = some (s', none) ↔ ∃ ms, Spec.Decode ins ms ∧ Hist impl s (Spec.accepted ms) s' := by
  induction ins generalizing s with
  | nil =>
    simp only [routineInputs, Option.some.injEq, Prod.mk.injEq, and_true]
    constructor
    · rintro rfl; exact ⟨[], .nil, .nil⟩
    · rintro ⟨ms, h1, h2⟩
      cases h1
      exact (hist_nil.mp h2).symm
  | cons b ins ih =>
    unfold routineInputs
    cases hb : Message.unmarshalBinary (Message.fresh : Message G) b with
    | panic | err e =>
      simp only [reduceCtorEq, Option.some.injEq, Prod.mk.injEq, and_false, false_iff, not_exists, not_and]
      intro ms h1
      cases h1 with
      | cons h _ => rw [hb] at h; cases h
    | ok m =>
      simp only []
      rcases hx : handleMessage impl s m with ⟨s₁, e⟩
      have hstep : step impl s (.handle m) = some (s₁, .handled e) := by simp only [step, hx]
      cases e with
      | some c =>
        simp only [Option.some.injEq, Prod.mk.injEq, reduceCtorEq, and_false, false_iff, not_exists, not_and]
        intro ms h1 h2
        cases h1 with
        | cons h _ =>
          rw [hb] at h; cases h
          obtain ⟨s₂, g1, _⟩ := hist_cons.mp h2
          simp only [] at g1
          rw [hstep] at g1
          cases g1
      | none =>
        simp only []
        rw [ih]
        constructor
        · rintro ⟨ms, h1, h2⟩
          exact ⟨m :: ms, .cons hb h1, hist_cons.mpr ⟨s₁, hstep, h2⟩⟩
        · rintro ⟨ms, h1, h2⟩
          cases h1 with
          | cons h h1 =>
            rw [hb] at h; cases h
            obtain ⟨s₂, g1, g2⟩ := hist_cons.mp h2
            simp only [] at g1
            rw [hstep] at g1
            cases g1
            exact ⟨_, h1, g2⟩

theorem routineInputs_err {ins : List Bytes} {s s' : State G R} {e : RoutineErr} :
    routineInputs impl ins s = some (s', some e) ↔ Spec.InputFails impl ins s s' e := by
  induction ins generalizing s with
  | nil =>
    simp only [routineInputs, Option.some.injEq, Prod.mk.injEq, reduceCtorEq, and_false, false_iff]
    rintro ⟨before, bad, after, ms, s₁, h, _⟩
    simp at h
  | cons b ins ih =>
    unfold routineInputs
    constructor
    · intro h
      split at h
      · cases h
      · rename_i c hb
        cases h
        exact ⟨[], b, ins, [], s', rfl, .nil, .nil, Or.inl ⟨c, rfl, hb, rfl⟩⟩
      · rename_i m hb
        split at h
        · rename_i s₁ c hx
          cases h
          exact ⟨[], b, ins, [], s, rfl, .nil, .nil, Or.inr ⟨m, c, rfl, hb, by simp only [step, hx]⟩⟩
        · rename_i s₁ hx
          obtain ⟨before, bad, after, ms, s₂, h1, h2, h3, h4⟩ := ih.mp h
          exact ⟨b :: before, bad, after, m :: ms, s₂, by rw [h1]; rfl, .cons hb h2, hist_cons.mpr ⟨s₁, by simp only [step, hx], h3⟩, h4⟩
    · rintro ⟨before, bad, after, ms, s₂, h1, h2, h3, h4⟩
      cases before with
      | nil =>
        cases h2
        obtain ⟨rfl, rfl⟩ := List.cons.inj h1
        rw [hist_nil.mp h3] at h4
        rcases h4 with ⟨c, rfl, h5, rfl⟩ | ⟨m, c, rfl, h5, h6⟩
        · rw [h5]
        · rw [h5]
          simp only [step, Option.some.injEq, Prod.mk.injEq, Ret.handled.injEq] at h6
          have : handleMessage impl s m = (s', some c) := Prod.ext h6.1 h6.2
          simp only [this]
      | cons b' before =>
        obtain ⟨rfl, rfl⟩ := List.cons.inj h1
        cases h2 with
        | @cons _ m _ ms hb h2 =>
          rw [hb]
          obtain ⟨s₃, g1, g2⟩ := hist_cons.mp h3
          simp only [step, Option.some.injEq, Prod.mk.injEq, Ret.handled.injEq] at g1
          have : handleMessage impl s m = (s₃, none) := Prod.ext g1.1 g1.2
          simp only [this]
          exact ih.mpr ⟨before, bad, after, ms, s₂, rfl, h2, g2, h4⟩

theorem routineOutputs_ok {ms : List (Message G)} {acc out : List Bytes} :
    routineOutputs ms acc = .ok out ↔ ∃ bs, Spec.Encode ms bs ∧ out = acc ++ bs := by
  induction ms generalizing acc with
  | nil =>
    simp only [routineOutputs, Outcome.ok.injEq]
    constructor
    · rintro rfl; exact ⟨[], .nil, by simp⟩
    · rintro ⟨bs, h, rfl⟩; cases h; simp
  | cons m ms ih =>
    unfold routineOutputs
    cases hm : Message.marshalBinary m with
    | ok b =>
      simp only []
      rw [ih]
      constructor
      · rintro ⟨bs, h1, rfl⟩
        exact ⟨b :: bs, .cons hm h1, by simp⟩
      · rintro ⟨bs, h1, rfl⟩
        cases h1 with
        | cons h h1 => rw [hm] at h; cases h; exact ⟨_, h1, by simp⟩
    | err e | panic =>
      simp only [reduceCtorEq, false_iff, not_exists, not_and]
      intro bs h1
      cases h1 with
      | cons h _ => rw [hm] at h; cases h

theorem routineOutputs_err {ms : List (Message G)} {acc : List Bytes} {e : GoErr} :
    routineOutputs ms acc = .err e ↔ ∃ before m after bs, ms = before ++ m :: after ∧ Spec.Encode before bs ∧ Message.marshalBinary m = .err e := by
  induction ms generalizing acc with
  | nil => simp [routineOutputs]
  | cons m ms ih =>
    unfold routineOutputs
    constructor
    · intro h
      split at h
      · rename_i b hm
        obtain ⟨before, m', after, bs, h1, h2, h3⟩ := ih.mp h
        exact ⟨m :: before, m', after, b :: bs, by rw [h1]; rfl, .cons hm h2, h3⟩
      · rename_i e' hm
        cases h
        exact ⟨[], m, ms, [], rfl, .nil, hm⟩
      · cases h
    · rintro ⟨before, m', after, bs, h1, h2, h3⟩
      cases before with
      | nil => obtain ⟨rfl, rfl⟩ := List.cons.inj h1; rw [h3]
      | cons m'' before =>
        obtain ⟨rfl, rfl⟩ := List.cons.inj h1
        cases h2 with
        | cons hm h2 => rw [hm]; exact ih.mpr ⟨before, m', after, _, rfl, h2, h3⟩

/-! ### C64 -/

/-- `PartyRoutine` returns without error exactly if all inputs decode and none is refused, the one call of `ProcessAll` that follows
has messages that can be encoded, and the session has not ended with an error; the result is the encodings of exactly those messages,
in order. -/
theorem C64_returns_iff (ord : MapOrder) (coins : Coins) (ins : List Bytes) (s s' : State G R) (out : List Bytes) :
    partyRoutine impl ord coins ins s = some (s', .ok out) ↔
      ∃ ms msgs, Spec.Decode ins ms ∧ Hist impl s (Spec.accepted ms ++ [(.processAll ord coins, .messages msgs)]) s' ∧
        Spec.Encode msgs out ∧ (s'.done = true → s'.err = none) := by
  unfold partyRoutine
  constructor
  · intro h
    split at h
    · cases h
    · cases h
    · rename_i s₁ hin
      obtain ⟨ms, h1, h2⟩ := routineInputs_ok.mp hin
      split at h
      · cases h
      · rename_i s₂ msgs hp
        have hstep : step impl s₁ (.processAll ord coins) = some (s₂, .messages msgs) := by simp [step, hp]
        split at h
        · cases h
        · cases h
        · rename_i out' ho
          obtain ⟨bs, h3, h4⟩ := routineOutputs_ok.mp ho
          rw [List.nil_append] at h4
          subst h4
          split at h
          · rename_i hf
            split at h
            · cases h
            · rename_i hw
              cases h
              refine ⟨ms, msgs, h1, h2.snoc hstep, h3, fun hd => ?_⟩
              unfold waitForError at hw
              rw [if_neg (by simp [hd])] at hw
              cases he : s'.err with
              | none => rfl
              | some c => exact absurd (by rw [he]) (hw c)
          · rename_i hf
            cases h
            exact ⟨ms, msgs, h1, h2.snoc hstep, h3, fun hd => absurd hd hf⟩
  · rintro ⟨ms, msgs, h1, h2, h3, h4⟩
    obtain ⟨s₁, g1, g2⟩ := hist_split h2
    obtain ⟨s₂, g3, g4⟩ := hist_cons.mp g2
    cases hist_nil.mp g4
    rw [routineInputs_ok.mpr ⟨ms, h1, g1⟩]
    simp only []
    have hp : processAll impl ord coins s₁ = some (s', msgs) := by
      simp only [step, Option.map_eq_some_iff, Prod.mk.injEq, Ret.messages.injEq] at g3
      obtain ⟨x, hx, rfl, rfl⟩ := g3
      exact hx
    rw [hp]
    simp only []
    rw [routineOutputs_ok.mpr ⟨out, h3, rfl⟩, List.nil_append]
    simp only []
    by_cases hd : s'.done = true
    · rw [if_pos (show s'.isFinished = true from hd)]
      have : s'.waitForError = some none := by unfold waitForError; rw [if_neg (by simp [hd]), h4 hd]
      rw [this]
    · rw [if_neg (show ¬ s'.isFinished = true from hd)]

/-- `PartyRoutine` returns an error exactly in these cases, and then no messages: an input cannot be decoded or is refused (the inputs
before it have been handed over, `ProcessAll` is not called); or all were accepted and of the messages of `ProcessAll` one cannot be
encoded, or the session has ended with that error. -/
theorem C64_error_iff (ord : MapOrder) (coins : Coins) (ins : List Bytes) (s s' : State G R) (e : RoutineErr) :
    partyRoutine impl ord coins ins s = some (s', .error e) ↔
      Spec.InputFails impl ins s s' e ∨
      ∃ ms msgs, Spec.Decode ins ms ∧ Hist impl s (Spec.accepted ms ++ [(.processAll ord coins, .messages msgs)]) s' ∧
        ((∃ before m after bs c, e = .marshal c ∧ msgs = before ++ m :: after ∧ Spec.Encode before bs ∧ Message.marshalBinary m = .err c) ∨
         ∃ out c, e = .aborted c ∧ Spec.Encode msgs out ∧ s'.done = true ∧ s'.err = some c) := by
  unfold partyRoutine
  constructor
  · intro h
    split at h
    · cases h
    · rename_i s₁ e' hin
      cases h
      exact Or.inl (routineInputs_err.mp hin)
    · rename_i s₁ hin
      obtain ⟨ms, h1, h2⟩ := routineInputs_ok.mp hin
      split at h
      · cases h
      · rename_i s₂ msgs hp
        have hstep : step impl s₁ (.processAll ord coins) = some (s₂, .messages msgs) := by simp [step, hp]
        split at h
        · cases h
        · rename_i c ho
          cases h
          obtain ⟨before, m, after, bs, h3, h4, h5⟩ := routineOutputs_err.mp ho
          exact Or.inr ⟨ms, msgs, h1, h2.snoc hstep, Or.inl ⟨before, m, after, bs, c, rfl, h3, h4, h5⟩⟩
        · rename_i out' ho
          obtain ⟨bs, h3, h4⟩ := routineOutputs_ok.mp ho
          split at h
          · rename_i hf
            split at h
            · rename_i c hw
              cases h
              refine Or.inr ⟨ms, msgs, h1, h2.snoc hstep, Or.inr ⟨bs, c, rfl, h3, hf, ?_⟩⟩
              unfold waitForError at hw
              split at hw
              · cases hw
              · exact Option.some.inj hw
            · cases h
          · cases h
  · rintro (h | ⟨ms, msgs, h1, h2, h3⟩)
    · rw [routineInputs_err.mpr h]
    · obtain ⟨s₁, g1, g2⟩ := hist_split h2
      obtain ⟨s₂, g3, g4⟩ := hist_cons.mp g2
      cases hist_nil.mp g4
      rw [routineInputs_ok.mpr ⟨ms, h1, g1⟩]
      simp only []
      have hp : processAll impl ord coins s₁ = some (s', msgs) := by
        simp only [step, Option.map_eq_some_iff, Prod.mk.injEq, Ret.messages.injEq] at g3
        obtain ⟨x, hx, rfl, rfl⟩ := g3
        exact hx
      rw [hp]
      simp only []
      rcases h3 with ⟨before, m, after, bs, c, rfl, h3, h4, h5⟩ | ⟨out, c, rfl, h3, h4, h5⟩
      · rw [routineOutputs_err.mpr ⟨before, m, after, bs, h3, h4, h5⟩]
      · rw [routineOutputs_ok.mpr ⟨out, h3, rfl⟩]
        simp only []
        rw [if_pos (show s'.isFinished = true from h4)]
        have : s'.waitForError = some (some c) := by unfold waitForError; rw [if_neg (by simp [h4]), h5]
        rw [this]

/-- `PartyRoutine` crashes only if the call of `ProcessAll` does, or a message it returns makes `MarshalBinary` panic. -/
theorem C64_crash_iff (ord : MapOrder) (coins : Coins) (ins : List Bytes) (s : State G R) :
    partyRoutine impl ord coins ins s = none ↔
      ∃ ms s₁, Spec.Decode ins ms ∧ Hist impl s (Spec.accepted ms) s₁ ∧
        (State.step impl s₁ (.processAll ord coins) = none ∨
         ∃ s₂ msgs, State.step impl s₁ (.processAll ord coins) = some (s₂, .messages msgs) ∧ routineOutputs msgs [] = .panic) := by
  have hnp : routineInputs impl ins s ≠ none := by
    intro h
    induction ins generalizing s with
    | nil => cases h
    | cons b ins ih =>
      unfold routineInputs at h
      split at h
      · rename_i hb; exact (C22_unmarshal_no_panic_partial b (Message.fresh : Message G)).1 hb
      · cases h
      · split at h
        · cases h
        · exact ih _ h
  unfold partyRoutine
  constructor
  · intro h
    split at h
    · rename_i h0; exact absurd h0 hnp
    · cases h
    · rename_i s₁ hin
      obtain ⟨ms, h1, h2⟩ := routineInputs_ok.mp hin
      refine ⟨ms, s₁, h1, h2, ?_⟩
      split at h
      · rename_i hp; left; simp [step, hp]
      · rename_i s₂ msgs hp
        have hstep : step impl s₁ (.processAll ord coins) = some (s₂, .messages msgs) := by simp [step, hp]
        split at h
        · rename_i ho; exact Or.inr ⟨s₂, msgs, hstep, ho⟩
        · cases h
        · split at h
          · split at h <;> cases h
          · cases h
  · rintro ⟨ms, s₁, h1, h2, h3⟩
    rw [routineInputs_ok.mpr ⟨ms, h1, h2⟩]
    simp only []
    rcases h3 with h3 | ⟨s₂, msgs, h3, h4⟩
    · simp only [step, Option.map_eq_none_iff] at h3
      rw [h3]
    · simp only [step, Option.map_eq_some_iff, Prod.mk.injEq, Ret.messages.injEq] at h3
      obtain ⟨x, hx, rfl, rfl⟩ := h3
      rw [hx]
      simp only [h4]

end Routine

/-! ### C67 -/

section Sent

variable {G : Type} [RGroup G] {sha : Sha512}

/-- What has been sent by the time round `n` runs. -/
def KeygenSent (me : ID) (ids : IDSlice) (t : UInt16) (h : List (Op G × Ret G)) (n : Nat) : Prop :=
  match n with
  | 0 => Spec.emitted h = []
  | 1 => ∃ f : Poly, ∃ k, me ≠ 0 ∧ f.length = t.toNat + 1 ∧ t ≠ 65535 ∧ Spec.emitted h = [Message.newKeyGen1 me ⟨0, k⟩ (Exponent.ofPoly f)]
  | 2 => ∃ f : Poly, ∃ k, me ≠ 0 ∧ f.length = t.toNat + 1 ∧ t ≠ 65535 ∧ (∀ id ∈ ids, id ≠ 0) ∧
      Spec.emitted h = Message.newKeyGen1 me ⟨0, k⟩ (Exponent.ofPoly f) :: Keygen.dealt me f ids
  | _ => False

theorem KeygenSent.mono {me : ID} {ids : IDSlice} {t : UInt16} {h : List (Op G × Ret G)} {n : Nat} {x : Op G × Ret G}
    (hs : KeygenSent me ids t h n) (he : Spec.emitted (h ++ [x]) = Spec.emitted h) : KeygenSent me ids t (h ++ [x]) n := by
  match n, hs with
  | 0, hs => exact he.trans hs
  | 1, ⟨f, k, h1, h2, h3, h4⟩ => exact ⟨f, k, h1, h2, h3, he.trans h4⟩
  | 2, ⟨f, k, h1, h2, h3, h4, h5⟩ => exact ⟨f, k, h1, h2, h3, h4, he.trans h5⟩

theorem keygenSent {me : ID} {ids : IDSlice} {t : UInt16} {r₀ : Keygen.Round G} (hs : Keygen.Start r₀ me ids t) {timeout now : Nat}
    {h : List (Op G × Ret G)} {s : State G (Keygen.Round G)} (hh : Hist (Keygen.impl sha) (newBaseState (Keygen.impl sha) r₀ timeout now) h s) :
    ∃ n, KeygenSent me ids t h n ∧ (s.done = false → n = s.roundNumber) := by
  obtain ⟨heq, _, _, hc⟩ := hs.eq
  have hstage : r₀.stage = .r0 := by rw [heq]
  have e1 : r₀.selfID = me := by rw [heq]
  have e2 : r₀.partyIDs = ids := by rw [heq]
  have e3 : r₀.threshold = t := by rw [heq]
  induction hh with
  | nil => exact ⟨0, rfl, fun _ => rfl⟩
  | @snoc h s₁ s₂ op ret h1 hstep ih =>
    obtain ⟨n, ih1, ih2⟩ := ih
    have hrun₂ := (Keygen.running hs (h1.snoc hstep)).1
    rcases step_cases hstep with ⟨m, e, rfl, rfl, h2⟩ | ⟨ord, coins, out, rfl, rfl, h2⟩ | ⟨dt, rfl, rfl, rfl⟩ |
      ⟨rfl, rfl, rfl | ⟨t, _, _, rfl⟩⟩ | ⟨rfl, rfl, ⟨_, rfl⟩ | ⟨_, _, rfl⟩ | ⟨r, _, _, _, _, rfl⟩⟩
    · refine ⟨n, ih1.mono (emitted_snoc_other _ _ (by simp)), ?_⟩
      cases handle_cases _ h2 <;> exact ih2
    · cases h2 with
      | idle => exact ⟨n, ih1.mono (by rw [emitted_snoc]; simp), ih2⟩
      | processErr | generateErr => exact ⟨n, ih1.mono (by rw [emitted_snoc]; simp), fun h => (nomatch h)⟩
      | last t types r₁ r r' _ hd hf hpl hg ht hn hr =>
        refine ⟨n, ih1.mono ?_, fun h => (nomatch h)⟩
        suffices out = [] by rw [emitted_snoc, this]; simp
        simp only [Keygen.impl] at hg hn
        split at hg
        · rename_i hst
          obtain ⟨_, _, rfl, _⟩ := Keygen.generate0_ok.mp hg
          simp [hst] at hn
        · rename_i hst
          obtain ⟨_, _, _, rfl, _⟩ := Keygen.generate1_ok.mp hg
          simp [hst] at hn
        · obtain ⟨_, _, _, _, _, _, _, _, _, h⟩ := Keygen.generate2_ok.mp hg
          exact h
      | next t' types r₁ r r' _ hd hf hpl hg ht hn =>
        refine ⟨n + 1, ?_, fun _ => by rw [ih2 hd]⟩
        have hrun := (Keygen.running hs h1).1 hd
        have hlt := running_lt_three hrun
        have hfed := fed_of_processLoop hpl
        have hn' := ih2 hd
        have hrun₂ := hrun₂ hd
        rcases (by omega : s₁.roundNumber = 0 ∨ s₁.roundNumber = 1 ∨ s₁.roundNumber = 2) with hk | hk | hk <;> rw [hk] at hrun hn' <;> subst hn'
        · have hrun : s₁.round = r₀ := hrun
          rw [hrun, Keygen.loop0 hstage] at hpl
          cases hpl
          simp only [Keygen.impl, hstage] at hg
          obtain ⟨g1, g2, _, rfl⟩ := Keygen.generate0_ok.mp hg
          rw [e1, e3] at *
          refine ⟨Keygen.coinPoly t coins, coins (t.toNat + 1), g2, Keygen.coinPoly_length _ _, g1, ?_⟩
          rw [emitted_snoc, show Spec.emitted h = [] from ih1]
          rfl
        · obtain ⟨f, k, g1, g2, g3, g4⟩ := ih1
          obtain ⟨f', h0, h0', ⟨ord', coins', hf', hdr⟩, h3⟩ := hrun
          have hm := mem_emitted hdr List.mem_cons_self
          rw [g4, List.mem_singleton] at hm
          have hready := ready (Keygen.impl_stable sha) h1 (by rw [show (Keygen.impl sha).partyIDs r₀ = ids from e2]; exact hs.nodup)
            (by rw [show (Keygen.impl sha).partyIDs r₀ = ids from e2, show (Keygen.impl sha).selfID r₀ = me from e1]; exact IDSlice.contains_sound hc) hd hf ord
          rw [h3] at hpl
          obtain ⟨_, rfl⟩ := (Keygen.loop1 (r := Keygen.round1 r₀ f') rfl rfl (fun k v hkv => by
            obtain ⟨m, h1, h2, _⟩ := hready.later (by omega) k v hkv
            exact ⟨m, h1, h2⟩)).mp hpl
          have hg : Keygen.generate1 _ = _ := hg
          obtain ⟨poly, q1, q2, _, rfl⟩ := Keygen.generate1_ok.mp hg
          cases q1
          have q2 : ∀ id ∈ r₀.partyIDs, id ≠ r₀.selfID → id ≠ 0 := q2
          refine ⟨f', coins' (r₀.threshold.toNat + 1), g1, by rw [hf', Keygen.coinPoly_length, e3], g3, ?_, ?_⟩
          · intro id hid
            by_cases hme : id = me
            · rw [hme]; exact g1
            · exact q2 id (by rw [e2]; exact hid) (by rw [e1]; exact hme)
          · rw [emitted_snoc, g4, ← hm, ← e1, ← e2]
            rfl
        · exfalso
          have hrun₂ : Keygen.Running sha r₀ (s₁.roundNumber + 1) _ _ := hrun₂
          have := running_lt_three hrun₂
          omega
    all_goals first
      | exact ⟨n, ih1.mono (emitted_snoc_other _ _ (by simp)), ih2⟩
      | exact ⟨n, ih1.mono (emitted_snoc_other _ _ (by simp)), fun h => (nomatch h)⟩

/-- The shares dealt by party `me` with polynomial `f`: one for each other party. -/
def Spec.shares (me : ID) (f : List Scalar) (ids : List ID) : List (Message G) :=
  (ids.filter (· ≠ me)).map fun id => Message.newKeyGen2 me id (Spec.evalAt f id.val)

/-- In its whole lifetime a key generation session sends nothing; or one broadcast with commitments to a polynomial of degree `t`; or
that broadcast and then one share to each other party, namely the value there of the very polynomial it committed to. -/
theorem C67_keygen_sends (me : ID) (ids : IDSlice) (t : UInt16) (timeout now : Nat) (s₀ : State G (Keygen.Round G))
    (h₀ : Keygen.newKeygenState sha me ids t timeout now = .ok s₀) (hnd : ids.Nodup) {h : List (Op G × Ret G)}
    {s : State G (Keygen.Round G)} (hh : Hist (Keygen.impl sha) s₀ h s) :
    Spec.emitted h = [] ∨ ∃ (f : List Scalar) (π : Schnorr) (c : List G), f.length = t.toNat + 1 ∧ c = f.map (fun a => a • (base : G)) ∧
      (Spec.emitted h = [Message.newKeyGen1 me π c] ∨ Spec.emitted h = Message.newKeyGen1 me π c :: Spec.shares me f ids) := by
  obtain ⟨r₀, hs, rfl⟩ := start_of_new h₀ hnd
  obtain ⟨n, h1, _⟩ := keygenSent hs hh
  match n, h1 with
  | 0, h1 => exact Or.inl h1
  | 1, ⟨f, k, _, h2, _, h3⟩ => exact Or.inr ⟨f, _, _, h2, rfl, Or.inl h3⟩
  | 2, ⟨f, k, _, h2, _, _, h3⟩ => exact Or.inr ⟨f, _, _, h2, rfl, Or.inr h3⟩

/-- Every message of a key generation session can be encoded, so `PartyRoutine` never fails for that reason. -/
theorem C64_keygen_encodes (me : ID) (ids : IDSlice) (t : UInt16) (timeout now : Nat) (s₀ : State G (Keygen.Round G))
    (h₀ : Keygen.newKeygenState sha me ids t timeout now = .ok s₀) (hnd : ids.Nodup) {h : List (Op G × Ret G)}
    {s : State G (Keygen.Round G)} (hh : Hist (Keygen.impl sha) s₀ h s) :
    ∀ m ∈ Spec.emitted h, ∃ b, Message.marshalBinary m = .ok b ∧ Message.unmarshalBinary Message.fresh b = .ok m := by
  obtain ⟨r₀, hs, rfl⟩ := start_of_new h₀ hnd
  obtain ⟨n, h1, _⟩ := keygenSent hs hh
  have key : ∀ (f : Poly) (k : Scalar), me ≠ 0 → f.length = t.toNat + 1 → t ≠ 65535 →
      ∃ b, Message.marshalBinary (Message.newKeyGen1 me ⟨0, k⟩ (Exponent.ofPoly f) : Message G) = .ok b ∧
        Message.unmarshalBinary Message.fresh b = .ok (Message.newKeyGen1 me ⟨0, k⟩ (Exponent.ofPoly f) : Message G) := by
    intro f k h0 hl ht
    obtain ⟨b, h1, _, h2⟩ := C19_keyGen1 me h0 ⟨0, k⟩ (Exponent.ofPoly f : Exponent G) (by
      have : t.toNat ≠ 65535 := fun h => ht (UInt16.toNat_inj.mp h)
      have := t.toNat_lt
      simp [Exponent.ofPoly, hl]; omega)
    exact ⟨b, h1, h2⟩
  intro m hm
  match n, h1 with
  | 0, h1 => rw [show Spec.emitted h = [] from h1] at hm; cases hm
  | 1, ⟨f, k, h0, h2, ht, h3⟩ => rw [h3, List.mem_singleton] at hm; subst hm; exact key f k h0 h2 ht
  | 2, ⟨f, k, h0, h2, ht, hnz, h3⟩ =>
    rw [h3] at hm
    rcases List.mem_cons.mp hm with rfl | hm
    · exact key f k h0 h2 ht
    · obtain ⟨id, hid, rfl⟩ := List.mem_map.mp hm
      obtain ⟨b, h1, _, h2⟩ := C19_keyGen2 (G := G) me id h0 (hnz id (List.mem_of_mem_filter hid)) (Spec.evalAt f id.val)
      exact ⟨b, h1, h2⟩

/-- Every message of a signing session can be encoded. -/
theorem C64_sign_encodes (secret : SecretShare G) (shares : Public G) (ids : IDSlice) (message : Bytes) (timeout now : Nat)
    (s₀ : State G (Sign.Round G)) (h₀ : Sign.newSignState sha ids secret shares message timeout now = .ok s₀) (hnd : ids.Nodup)
    {h : List (Op G × Ret G)} {s : State G (Sign.Round G)} (hh : Hist (Sign.impl sha) s₀ h s) :
    ∀ m ∈ Spec.emitted h, ∃ b, Message.marshalBinary m = .ok b ∧ Message.unmarshalBinary Message.fresh b = .ok m := by
  have hz : secret.id ≠ 0 := by
    obtain ⟨r₀, hs, rfl⟩ := sign_start_of_new h₀ hnd
    obtain ⟨hstage, e1, e2, e3, e4, e5, _, _, hc, _, _, _, hnz⟩ := hs.eq
    exact (hnz _ (IDSlice.contains_sound hc)).1
  have k1 : ∀ D E : G, ∃ b, Message.marshalBinary (Message.newSign1 secret.id D E) = .ok b ∧
      Message.unmarshalBinary Message.fresh b = .ok (Message.newSign1 secret.id D E) := by
    intro D E
    obtain ⟨b, h1, _, h2⟩ := C19_sign1 secret.id hz D E
    exact ⟨b, h1, h2⟩
  intro m hm
  rcases C47_at_most_one_share secret shares ids message timeout now s₀ h₀ hnd hh with h1 | ⟨D, E, h1⟩ | ⟨D, E, z, h1⟩ <;> rw [h1] at hm
  · cases hm
  · rw [List.mem_singleton] at hm; subst hm; exact k1 D E
  · rcases List.mem_cons.mp hm with rfl | hm
    · exact k1 D E
    · rw [List.mem_singleton] at hm
      subst hm
      obtain ⟨b, h1, _, h2⟩ := C19_sign2 (G := G) secret.id hz z
      exact ⟨b, h1, h2⟩

end Sent

end Verif.Props
