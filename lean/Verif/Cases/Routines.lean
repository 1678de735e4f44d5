import Verif.Cases.Sign
import Verif.Props.Routines

/-!
For each theorem of `Props/Routines.lean` that has hypotheses, a concrete case that meets them.
-/

namespace Verif.Cases

open State Props Props.Demo

section Runs

variable {R : Type} (impl : RoundImpl Toy R)

/-- The next step of a call, if there is one. -/
def nextStep (ord : MapOrder) (c : Coins) (s : State Toy R) :
    RoutinePC Toy → Option (Option (Op Toy × Ret Toy) × State Toy R × RoutinePC Toy)
  | .decoding [] => some (none, s, .processing)
  | .decoding (m :: rest) =>
    match Message.unmarshalBinary (Message.fresh : Message Toy) m with
    | .ok msg => some (none, s, .handing msg rest)
    | .err c => some (none, s, .returned (.error (.unmarshal c)))
    | .panic => none
  | .handing msg rest =>
    match handleMessage impl s msg with
    | (s', none) => some (some (.handle msg, .handled none), s', .decoding rest)
    | (s', some c) => some (some (.handle msg, .handled (some c)), s', .returned (.error (.handle c)))
  | .processing =>
    match processAll impl ord c s with
    | some (s', msgs) => some (some (.processAll ord c, .messages msgs), s', .encoding msgs)
    | none => none
  | .encoding msgs =>
    match routineOutputs msgs [] with
    | .ok out => some (none, s, .checking out)
    | .err c => some (none, s, .returned (.error (.marshal c)))
    | .panic => none
  | .checking out => if s.isFinished then some (none, s, .waiting out) else some (none, s, .returned (.ok out))
  | .waiting out =>
    match s.waitForError with
    | some (some c) => some (none, s, .returned (.error (.aborted c)))
    | some none => some (none, s, .returned (.ok out))
    | none => none
  | .returned _ => none

theorem nextStep_sound {ord : MapOrder} {c : Coins} {s s' : State Toy R} {pc p : RoutinePC Toy}
    {ev : Option (Op Toy × Ret Toy)} (h : nextStep impl ord c s pc = some (ev, s', p)) : RoutineStep impl s pc ev s' p := by
  unfold nextStep at h
  split at h
  · cases h; exact .all
  · split at h
    · cases h; exact .decoded ‹_›
    · cases h; exact .undecodable ‹_›
    · cases h
  · split at h
    · cases h; exact .handled ‹_›
    · cases h; exact .refused ‹_›
  · split at h
    · cases h; exact .processed ‹_›
    · cases h
  · split at h
    · cases h; exact .encoded ‹_›
    · cases h; exact .unencodable ‹_›
    · cases h
  · split at h
    · cases h; exact .finished ‹_›
    · rename_i hf; cases h; exact .running (by simpa using hf)
  · split at h
    · cases h; exact .failed ‹_›
    · cases h; exact .succeeded ‹_›
    · cases h
  · cases h

/-- What happened, the session, and where the calls stand. -/
abbrev Conf (R : Type) := List (Option (Fin 3) × Op Toy × Ret Toy) × State Toy R × (Fin 3 → RoutinePC Toy)

/-- One step: of a call, or something else; unchanged if that is not possible. -/
def turn (c : Coins) (x : Conf R) : Fin 3 ⊕ Op Toy → Conf R
  | .inl i =>
    match nextStep impl .insertion c x.2.1 (x.2.2 i) with
    | some (ev, s', p) => (x.1 ++ ev.toList.map (Prod.mk (some i)), s', Function.update x.2.2 i p)
    | none => x
  | .inr op =>
    match step impl x.2.1 op with
    | some (s', ret) => (x.1 ++ [(none, op, ret)], s', x.2.2)
    | none => x

theorem turn_sound {ins : Fin 3 → List Bytes} {c : Coins} {s₀ : State Toy R} {x : Conf R} (t : Fin 3 ⊕ Op Toy)
    (h : Routines impl ins s₀ x.1 x.2.1 x.2.2) : Routines impl ins s₀ (turn impl c x t).1 (turn impl c x t).2.1 (turn impl c x t).2.2 := by
  cases t with
  | inl i =>
    simp only [turn]
    split
    · exact h.routine (nextStep_sound impl ‹_›)
    · exact h
  | inr op =>
    simp only [turn]
    split
    · exact h.other ‹_›
    · exact h

/-- The messages of the others as bytes. -/
def bytesOf (m : Message Toy) : Bytes := match Message.marshalBinary m with
  | .ok b => b
  | _ => []

/-- Three calls: the first without inputs, the others with the messages of a round each. -/
def callIns : Fin 3 → List Bytes := ![[], [bytesOf com2, bytesOf com3], [bytesOf share2, bytesOf share3]]

/-- All that happens when these take turns. -/
def turnsOf (ins : Fin 3 → List Bytes) (c : Coins) (s₀ : State Toy R) (ts : List (Fin 3 ⊕ Op Toy)) : Conf R :=
  ts.foldl (turn impl c) ([], s₀, fun i => .decoding (ins i))

theorem turnsOf_sound (ins : Fin 3 → List Bytes) (c : Coins) (s₀ : State Toy R) (ts : List (Fin 3 ⊕ Op Toy)) :
    Routines impl ins s₀ (turnsOf impl ins c s₀ ts).1 (turnsOf impl ins c s₀ ts).2.1 (turnsOf impl ins c s₀ ts).2.2 := by
  unfold turnsOf
  have : ∀ (ts : List (Fin 3 ⊕ Op Toy)) (x : Conf R), Routines impl ins s₀ x.1 x.2.1 x.2.2 →
      Routines impl ins s₀ (ts.foldl (turn impl c) x).1 (ts.foldl (turn impl c) x).2.1 (ts.foldl (turn impl c) x).2.2 := by
    intro ts
    induction ts with
    | nil => exact fun x h => h
    | cons t ts ih => exact fun x h => ih _ (turn_sound impl t h)
  exact this ts _ .start

end Runs

/-- The session of a key generation. -/
abbrev turns (ts : List (Fin 3 ⊕ Op Toy)) : Conf (Keygen.Round Toy) := turnsOf KI callIns (coins [5, 6, 7]) (session ids 1 1) ts

theorem turns_sound (ts : List (Fin 3 ⊕ Op Toy)) :
    Routines KI callIns (newBaseState KI (round0 ids 1 1) 10 0) (turns ts).1 (turns ts).2.1 (turns ts).2.2 := turnsOf_sound KI _ _ _ ts

/-- Where a call stands, as far as it can be compared. -/
def result : RoutinePC Toy → Option (Except RoutineErr (List Bytes))
  | .returned r => some r
  | _ => none

theorem result_eq {pc : RoutinePC Toy} {r : Except RoutineErr (List Bytes)} (h : result pc = some r) : pc = .returned r := by
  cases pc with
  | returned r' => exact congrArg _ (Option.some.inj h)
  | _ => cases h

/-- What a call returned. -/
def outOf (pc : RoutinePC Toy) : List Bytes := match pc with
  | .returned (.ok out) => out
  | _ => []

theorem outOf_eq {pc : RoutinePC Toy} (h : (result pc).any (fun r => match r with | .ok _ => true | _ => false) = true) : pc = .returned (.ok (outOf pc)) := by
  cases pc with
  | returned r => cases r with
    | ok => rfl
    | error => cases h
  | _ => cases h

/-- The first two calls overlap: the second decodes its inputs before the first has returned.  Then the third, with time passing. -/
def overlap : List (Fin 3 ⊕ Op Toy) :=
  [.inl 0, .inl 0, .inl 1, .inl 1, .inr (.advance 2), .inl 0, .inl 1, .inl 1, .inl 1, .inl 0, .inl 1, .inl 1, .inr (.advance 3),
    .inl 2, .inl 2, .inl 2, .inl 2, .inl 1, .inl 1, .inl 2, .inl 2, .inl 2, .inl 2, .inl 2]

/-- All three have returned; they hand out one broadcast, two shares, and nothing. -/
theorem overlap_results : (outOf ((turns overlap).2.2 0)).length = 1 ∧ (outOf ((turns overlap).2.2 1)).length = 2 ∧
    (outOf ((turns overlap).2.2 2)).length = 0 ∧ (turns overlap).2.1.done = true ∧ (turns overlap).2.1.err = none := by decide +kernel

theorem overlap_returned (i : Fin 3) : ∃ r, (turns overlap).2.2 i = .returned r := by
  refine ⟨_, outOf_eq ?_⟩
  revert i
  decide +kernel

/-- `C110_history`, `C110_ok`, `C110_never_waits`, `C110_keygen_nothing_lost`. -/
example := C110_history (turns_sound overlap)
example := C110_ok (turns_sound overlap) 1 _ (outOf_eq (by decide +kernel))
example := C110_never_waits (turns_sound (overlap.take 9)) 1 .insertion (coins [])
example := C110_keygen_nothing_lost 1 ids 1 10 0 _ session1 (by decide) (turns_sound overlap) overlap_returned
  (fun x hx hn ord c => by
    have h : ∀ x ∈ (turns overlap).1, x.1 = none → (match x.2.1 with | .processAll _ _ => false | _ => true) = true := by decide +kernel
    have := h x hx hn
    intro he
    rw [he] at this
    cases this)
  (by decide +kernel)
example : (Spec.emitted ((turns overlap).1.map Prod.snd)).length = 3 := by decide +kernel

/-- `C110_error`: the second call starts before the first has called `ProcessAll`, and its first message is refused. -/
example := C110_error (turns_sound [.inl 1, .inl 1]) 1 (.handle ⟨1, 2, some 0, .alreadyReceived⟩) (result_eq (by decide +kernel))

/-- The first call is about to test whether the session is finished, and the timer has fired. -/
def atCheck : List (Fin 3 ⊕ Op Toy) := [.inl 0, .inl 0, .inr (.advance 100), .inr .fire, .inl 0]

/-- Where it stands. -/
def checkingOut : RoutinePC Toy → Option (List Bytes)
  | .checking out => some out
  | _ => none

theorem checking_eq {pc : RoutinePC Toy} (h : (checkingOut pc).isSome = true) : pc = .checking ((checkingOut pc).getD []) := by
  cases pc <;> first | rfl | cases h

/-- `C110_timeout_race`. -/
example := C110_timeout_race (turns_sound atCheck) 0 _ (checking_eq (by decide +kernel)) (by decide +kernel) (by decide +kernel) (by decide +kernel)
  (step_eq (s := (turns atCheck).2.1) (op := .callback) (by decide +kernel))

/-- Three calls for a signing session, and where they end. -/
def signIns : Fin 3 → List Bytes :=
  ![[], [bytesOf n2, bytesOf n3], [bytesOf (Message.newSign2 2 (-19298)), bytesOf (Message.newSign2 3 33104)]]
abbrev sturns (ts : List (Fin 3 ⊕ Op Toy)) : Conf (Sign.Round Toy) := turnsOf SI signIns (coins [13, 14]) (start r1) ts

theorem soverlap_results : (outOf ((sturns overlap).2.2 0)).length = 1 ∧ (outOf ((sturns overlap).2.2 1)).length = 1 ∧
    (outOf ((sturns overlap).2.2 2)).length = 0 ∧ (sturns overlap).2.1.done = true ∧ (sturns overlap).2.1.err = none := by decide +kernel

/-- `C110_sign_nothing_lost`. -/
example := C110_sign_nothing_lost (skey 1) key ids [1, 2, 3] 10 0 _ new1 (by decide) (turnsOf_sound SI signIns (coins [13, 14]) (start r1) overlap)
  (fun i => ⟨_, outOf_eq (by revert i; decide +kernel)⟩)
  (fun x hx hn ord c => by
    have h : ∀ x ∈ (sturns overlap).1, x.1 = none → (match x.2.1 with | .processAll _ _ => false | _ => true) = true := by decide +kernel
    have := h x hx hn
    intro he
    rw [he] at this
    cases this)
  (by decide +kernel)

end Verif.Cases
