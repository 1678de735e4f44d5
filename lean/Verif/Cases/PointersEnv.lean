import Verif.Props.PointersEnv
import Verif.Cases.Pointers

/-!
For each theorem of `Props/PointersEnv.lean` that has hypotheses, a concrete case that meets them.
-/

namespace Verif.Cases

open State Props Props.Demo Pointers

/-- `C117_written_keygen`: a program that decodes the messages of round 2 into the objects of round 1; the key generation succeeds. -/
example : ∃ h mem s, EnvHist (Keygen.impl toySha) keygenAfter (fun s p => ¬ Spec.Needed s p) (fun _ => Message.fresh)
    (Pointers.newBaseState (Keygen.impl toySha) (round0 ids 1 1) 10 0) h mem s ∧
    handed h = honest ∧ s.rest.done = true ∧ s.rest.err = none ∧ s.rest.round.output.secretKey = some ⟨1, 45, Toy.of 45⟩ := by
  obtain ⟨⟨mem, s, h⟩, h1, h2⟩ := Option.map_eq_some_iff.mp (show ((runEnv (fun s p => decide (p ∉ ptrs s.received ∧ p ∉ s.queue)) (fun _ => Message.fresh)
      (Pointers.newBaseState (Keygen.impl toySha) (round0 ids 1 1) 10 0)
      [(none, .processAll .insertion (coins [5, 6, 7])), (some (0, Message.newKeyGen1 2 ⟨0, 1⟩ [Toy.of 7, Toy.of 8]), .handle 0),
       (some (1, Message.newKeyGen1 3 ⟨0, 1⟩ [Toy.of 9, Toy.of 10]), .handle 1), (none, .processAll .insertion (coins [])),
       (some (0, Message.newKeyGen2 2 1 15), .handle 0), (some (1, Message.newKeyGen2 3 1 19), .handle 1), (none, .processAll .insertion (coins []))]).map
      fun x => decide (handed x.2.2 = honest ∧ x.2.1.rest.done = true ∧ x.2.1.rest.err = none ∧ x.2.1.rest.round.output.secretKey = some ⟨1, 45, Toy.of 45⟩)) = some true by decide +kernel)
  simp only [decide_eq_true_eq] at h2
  refine ⟨h, mem, s, of_runEnv (fun s p hp => ?_) .nil h1, h2⟩
  simp only [decide_eq_true_eq] at hp
  exact (free_iff s p).mp (.inr hp)

/-- The messages of a key generation in which 1 has polynomial `5 + 6 X`, 2 has `7 + 8 X` and 3 has `9 + 10 X`. -/
def objects : Mem Toy
  | 0 => Message.newKeyGen1 1 ⟨0, 1⟩ [Toy.of 5, Toy.of 6]
  | 1 => Message.newKeyGen1 2 ⟨0, 1⟩ [Toy.of 7, Toy.of 8]
  | 2 => Message.newKeyGen1 3 ⟨0, 1⟩ [Toy.of 9, Toy.of 10]
  | 3 => Message.newKeyGen2 2 1 15
  | 4 => Message.newKeyGen2 3 1 19
  | 5 => Message.newKeyGen2 1 2 17
  | _ => Message.newKeyGen2 3 2 29

/-- `C117_shared_keygen`: parties 1 and 2 in one program, which are both handed the same objects; both succeed. -/
example : ∃ h mem σ, (∀ i j, (cond i (round0 ids 1 1) (round0 ids 1 2)).selfID = (cond j (round0 ids 1 1) (round0 ids 1 2)).selfID → i = j) ∧
    (∀ p, Spec.Addressed (objects p)) ∧
    Shared (Keygen.impl toySha) keygenAfter (fun σ p m => Spec.Addressed m ∧ ∀ i, ¬ Spec.Needed (σ i) p) objects
      (fun i => Pointers.newBaseState (Keygen.impl toySha) (cond i (round0 ids 1 1) (round0 ids 1 2)) 10 0) h mem σ ∧
    (σ true).rest.round.output.secretKey = some ⟨1, 45, Toy.of 45⟩ ∧ (σ false).rest.round.output.secretKey = some ⟨2, 69, Toy.of 69⟩ ∧
    (mem 3).keyGen2 = some ⟨0⟩ ∧ (mem 6).keyGen2 = some ⟨0⟩ := by
  obtain ⟨⟨mem, σ, h⟩, h1, h2⟩ := Option.map_eq_some_iff.mp (show ((runTwo objects (fun i => Pointers.newBaseState (Keygen.impl toySha) (cond i (round0 ids 1 1) (round0 ids 1 2)) 10 0)
      [(true, .processAll .insertion (coins [5, 6, 7])), (false, .processAll .insertion (coins [7, 8, 9])), (true, .handle 0), (true, .handle 1), (true, .handle 2),
       (false, .handle 0), (false, .handle 1), (false, .handle 2), (true, .processAll .insertion (coins [])), (true, .handle 3), (true, .handle 4), (true, .handle 5), (true, .handle 6),
       (false, .processAll .insertion (coins [])), (false, .handle 3), (false, .handle 4), (false, .handle 5), (false, .handle 6),
       (true, .processAll .insertion (coins [])), (false, .processAll .insertion (coins []))]).map
      fun x => decide ((x.2.1 true).rest.round.output.secretKey = some ⟨1, 45, Toy.of 45⟩ ∧ (x.2.1 false).rest.round.output.secretKey = some ⟨2, 69, Toy.of 69⟩ ∧
        (x.1 3).keyGen2 = some ⟨0⟩ ∧ (x.1 6).keyGen2 = some ⟨0⟩)) = some true by decide +kernel)
  simp only [decide_eq_true_eq] at h2
  refine ⟨h, mem, σ, by decide +kernel, fun p => ?_, of_runTwo .nil h1, h2⟩
  match p with
  | 0 | 1 | 2 => exact fun hk => absurd rfl hk
  | 3 | 4 | 5 => exact fun _ => by decide
  | _ + 6 => exact fun _ => show (2 : ID) ≠ 0 by decide

theorem env_of_hist {G R : Type} {impl : RoundImpl G R} {after : After G R} {may : PState G R → Ptr → Prop} {mem₀ mem : Mem G} {s₀ s : PState G R} {h : List (Pointers.Op × Ret G)}
    (hh : Pointers.Hist impl after mem₀ s₀ h mem s) : ∃ h', EnvHist impl after may mem₀ s₀ h' mem s := by
  induction hh with
  | nil => exact ⟨_, .nil⟩
  | snoc _ hs ih =>
    obtain ⟨h', ih⟩ := ih
    exact ⟨_, .step ih hs⟩

theorem shared_of_hist {G R : Type} {impl : RoundImpl G R} {after : After G R} {may : (Unit → PState G R) → Ptr → Message G → Prop} {mem₀ mem : Mem G} {s₀ s : PState G R}
    {h : List (Pointers.Op × Ret G)} (hh : Pointers.Hist impl after mem₀ s₀ h mem s) : ∃ h', Shared impl after may mem₀ (fun _ => s₀) h' mem (fun _ => s) := by
  induction hh with
  | nil => exact ⟨_, .nil⟩
  | snoc _ hs ih =>
    rename_i s' _ _
    obtain ⟨h', ih⟩ := ih
    have h1 := Shared.step () ih hs
    have h2 : ∀ (f : Unit → PState G R) (x : PState G R), Function.update f () x = fun _ => x := fun f x => by
      funext u; cases u; simp
    rw [h2] at h1
    exact ⟨_, h1⟩

/-- `C117_written_sign`, `C117_shared_sign`: a signing session that succeeds. -/
example : ∃ (r : Sign.Round Toy) (mem₀ mem : Mem Toy) (h : List (State.Op Toy × Ret Toy)) (h' : List (Unit × State.Op Toy × Ret Toy)) (s : PState Toy (Sign.Round Toy)),
    (∀ i j : Unit, r.selfID = r.selfID → i = j) ∧
    EnvHist (Sign.impl toySha) signAfter (fun s p => ¬ Spec.Needed s p) mem₀ (Pointers.newBaseState (Sign.impl toySha) r 10 0) h mem s ∧
    Shared (Sign.impl toySha) signAfter (fun σ p m => Spec.Addressed m ∧ ∀ i : Unit, ¬ Spec.Needed (σ i) p) mem₀ (fun _ => Pointers.newBaseState (Sign.impl toySha) r 10 0) h' mem (fun _ => s) ∧
    s.rest.done = true ∧ s.rest.round.output.signature ≠ none := by
  obtain ⟨s₀, h, t, h1, h2, h3, _, h5⟩ := sign_succeeds
  obtain ⟨r, _, rfl⟩ := newSignState_ok.mp h1
  have h2' : State.Hist (Sign.impl toySha) (State.newBaseState (Sign.impl toySha) r 10 0) (Spec.Read (placed h) (place h)) t := by
    rw [read_place]; exact h2
  obtain ⟨mem, s, hh, e⟩ := (C116_same_sign r 10 0 (placed h) (place h)).2 t h2'
  obtain ⟨a, ha⟩ := env_of_hist (may := fun s p => ¬ Spec.Needed s p) hh
  obtain ⟨b, hb⟩ := shared_of_hist (may := fun σ p m => Spec.Addressed m ∧ ∀ i : Unit, ¬ Spec.Needed (σ i) p) hh
  exact ⟨r, _, mem, a, b, s, fun _ _ _ => rfl, ha, hb, e.2.2.2.2.2.1.trans h3, by rw [e.2.2.2.1]; exact h5⟩

/-- `C117_routine_keygen`, `C117_routine_sign`: there is an order in which the loop finds the messages. -/
example : ∃ pick : MapOrder → Mem Toy → GoMap (Option Ptr) → GoMap (Option Ptr), ∀ ord mem m, (pick ord mem m).Perm m ∧ viewMap mem (pick ord mem m) = ord.order _ (viewMap mem m) :=
  ⟨fun ord mem m => (exists_entries ord mem m).choose, fun ord mem m => (exists_entries ord mem m).choose_spec⟩

/-- The same: a program that calls `PartyRoutine` three times, and waits a little; the key generation succeeds, and all calls return nil. -/
example : ((Pointers.program (Keygen.impl toySha) keygenAfter (fun _ _ m => m) [.call [] .insertion (coins [5, 6, 7]), .advance 3,
    .call [enc (Message.newKeyGen1 2 ⟨0, 1⟩ [Toy.of 7, Toy.of 8]), enc (Message.newKeyGen1 3 ⟨0, 1⟩ [Toy.of 9, Toy.of 10])] .insertion (coins []),
    .call [enc (Message.newKeyGen2 3 1 19), enc (Message.newKeyGen2 2 1 15)] .insertion (coins [])] 0 (fun _ => Message.fresh)
    (Pointers.newBaseState (Keygen.impl toySha) (round0 ids 1 1) 10 0)).map fun x => decide ((x.1.map fun e => e.toOption.map List.length) = [some 1, some 2, some 0] ∧
    x.2.rest.done = true ∧ x.2.rest.err = none ∧ x.2.rest.round.output.secretKey = some ⟨1, 45, Toy.of 45⟩)) = some true := by
  decide +kernel

/-- `C117_decoded`: the share of 2 for 1. -/
example : ∃ b, Message.unmarshalBinary Message.fresh b = .ok (Message.newKeyGen2 2 1 15 : Message Toy) := by
  obtain ⟨b, _, _, h⟩ := C19_keyGen2 (G := Toy) 2 1 (by decide) (by decide) 15
  exact ⟨b, h⟩

/-- `C117_returned`: the messages of round 1. -/
example : ∃ out mem' s', Pointers.Step (Keygen.impl toySha) keygenAfter objects (Pointers.newBaseState (Keygen.impl toySha) (round0 ids 1 1) 10 0) (.processAll .insertion (coins [5, 6, 7]))
    (.messages out) mem' s' ∧ out ≠ [] := by
  obtain ⟨⟨mem, s, out⟩, h1, h2⟩ := Option.map_eq_some_iff.mp (show ((Pointers.processAll (Keygen.impl toySha) keygenAfter
    (Pointers.newBaseState (Keygen.impl toySha) (round0 ids 1 1) 10 0).received .insertion (coins [5, 6, 7]) objects (Pointers.newBaseState (Keygen.impl toySha) (round0 ids 1 1) 10 0)).map
      fun x => decide (x.2.2 ≠ [])) = some true by decide +kernel)
  exact ⟨out, mem, s, .processAll (.refl _) rfl h1, by simpa using h2⟩

end Verif.Cases
