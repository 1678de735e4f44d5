import Verif.Props.SignNet
import Verif.Props.KeygenAbort
import Verif.Props.Order
import Verif.Props.Helpers
import Verif.Lemmas.Toy
import Mathlib.Tactic.FinCases

/-!
Concrete sessions over the small group `Toy`, computed by the kernel.  They meet the hypotheses of the theorems about sessions in
`State.lean`, `Keygen*.lean`, `Sign*.lean` and `Order.lean`, and refute claims that are false of the code.
-/

namespace Verif.Props.Demo

open State

variable {G R : Type}

/-- Runs a list of events. -/
def run (impl : RoundImpl G R) : State G R → List (Op G) → Option (List (Op G × Ret G) × State G R)
  | s, [] => some ([], s)
  | s, op :: ops =>
    match step impl s op with
    | none => none
    | some (s', ret) =>
      match run impl s' ops with
      | none => none
      | some (h, t) => some ((op, ret) :: h, t)

theorem run_hist {impl : RoundImpl G R} {s t : State G R} {ops : List (Op G)} {h : List (Op G × Ret G)} (hr : run impl s ops = some (h, t)) :
    Hist impl s h t := by
  induction ops generalizing s h with
  | nil => cases hr; exact Hist.nil
  | cons op ops ih =>
    unfold run at hr
    split at hr
    · cases hr
    · rename_i s' ret hstep
      split at hr
      · cases hr
      · rename_i h' t' hr'
        cases hr
        exact (Hist.one hstep).trans (ih hr')

/-- A run with a property that can be computed is a history with that property. -/
theorem of_run {impl : RoundImpl G R} {s : State G R} {ops : List (Op G)} {p : List (Op G × Ret G) → State G R → Bool}
    (hr : ((run impl s ops).map fun x => p x.1 x.2) = some true) : ∃ h t, Hist impl s h t ∧ p h t = true := by
  cases hrun : run impl s ops with
  | none => rw [hrun] at hr; cases hr
  | some x =>
    rw [hrun] at hr
    exact ⟨x.1, x.2, run_hist hrun, by simpa using hr⟩

/-- A run that crashes. -/
theorem crash_of_run {impl : RoundImpl G R} {s : State G R} {ops : List (Op G)} {op : Op G} (h1 : (run impl s ops).isSome = true)
    (h2 : (run impl s (ops ++ [op])).isSome = false) : ∃ h t, Hist impl s h t ∧ step impl t op = none := by
  induction ops generalizing s with
  | nil =>
    refine ⟨[], s, Hist.nil, ?_⟩
    rw [List.nil_append] at h2
    unfold run at h2
    split at h2
    · assumption
    · unfold run at h2; cases h2
  | cons o ops ih =>
    rw [List.cons_append] at h2
    unfold run at h1 h2
    split at h1
    · cases h1
    · rename_i s' ret hstep
      rw [hstep] at h2
      simp only [] at h2
      obtain ⟨h, t, g1, g2⟩ := ih (s := s') (by revert h1; cases run impl s' ops <;> simp) (by revert h2; cases run impl s' (ops ++ [op]) <;> simp)
      exact ⟨_, t, (Hist.one hstep).trans g1, g2⟩

/-- Whether the message was accepted. -/
def accepted [DecidableEq G] (m : Message G) (h : List (Op G × Ret G)) : Bool := h.any fun x => match x with
  | (.handle m', .handled none) => decide (m' = m)
  | _ => false

theorem mem_of_accepted [DecidableEq G] {m : Message G} {h : List (Op G × Ret G)} (ha : accepted m h = true) : (Op.handle m, Ret.handled none) ∈ h := by
  obtain ⟨x, hx, ha⟩ := List.any_eq_true.mp ha
  revert ha hx
  split
  · intro hx ha; rw [decide_eq_true_eq] at ha; subst ha; exact hx
  · intro _ ha; cases ha

/-- Coins from a list, then zeros. -/
def coins (l : List Scalar) : Coins := fun i => l.getD i 0

/-- Three parties, threshold 1. -/
def ids : IDSlice := [1, 2, 3]

/-- The round object of party `i` at the start. -/
def round0 (ids : IDSlice) (t : UInt16) (i : ID) : Keygen.Round Toy where
  stage := .r0
  selfID := i
  partyIDs := ids
  threshold := t
  secret := 0
  polynomial := none
  commitmentsSum := none
  commitments := []
  hasOutput := true
  output := {}

/-- A session of party `i`. -/
def session (ids : IDSlice) (t : UInt16) (i : ID) : State Toy (Keygen.Round Toy) := newBaseState (Keygen.impl toySha) (round0 ids t i) 10 0

theorem session_ok {ids : IDSlice} {t : UInt16} {i : ID} (h1 : t ≠ 0) (h2 : ¬ t > IDSlice.N ids - 1) (h3 : IDSlice.contains ids i = true) :
    Keygen.newKeygenState toySha i ids t 10 0 = .ok (session ids t i) := by
  unfold Keygen.newKeygenState Keygen.newRound Keygen.newBaseRound
  rw [Outcome.failIf_neg h1, Outcome.ok_bind, Outcome.failIf_neg h2, Outcome.ok_bind, Outcome.failIf_neg (by simp [h3])]
  rfl

theorem session1 : Keygen.newKeygenState toySha 1 ids 1 10 0 = .ok (session ids 1 1) := session_ok (by decide) (by decide) (by decide +kernel)

/-- Party 1 commits to `5 + 6 X`; the others to `7 + 8 X` and `9 + 10 X`.  The share of party 3 arrives before its commitments. -/
def keygenOps : List (Op Toy) :=
  [.processAll .insertion (coins [5, 6, 7]),
   .handle (Message.newKeyGen1 2 ⟨0, 1⟩ [Toy.of 7, Toy.of 8]),
   .advance 3,
   .handle (Message.newKeyGen2 3 1 19),
   .handle (Message.newKeyGen1 3 ⟨0, 1⟩ [Toy.of 9, Toy.of 10]),
   .processAll .reversed (coins []),
   .handle (Message.newKeyGen2 2 1 15),
   .processAll .reversed (coins [])]

/-- A key generation that succeeds; meets the hypotheses of C27, C28, C29, C38, C39, C41 and C66. -/
theorem keygen_succeeds : ∃ h s, Hist (Keygen.impl toySha) (session ids 1 1) h s ∧ s.done = true ∧ s.err = none ∧
    s.round.output.secretKey = some ⟨1, 45, Toy.of 45⟩ ∧
    s.round.output.pub = some ⟨ids, 1, [(1, Toy.of 45), (2, Toy.of 69), (3, Toy.of 93)], Toy.of 21⟩ := by
  obtain ⟨h, s, h1, h2⟩ := of_run (impl := Keygen.impl toySha) (s := session ids 1 1) (ops := keygenOps) (p := fun _ s => decide (s.done = true ∧ s.err = none ∧
    s.round.output.secretKey = some ⟨1, 45, Toy.of 45⟩ ∧
    s.round.output.pub = some ⟨ids, 1, [(1, Toy.of 45), (2, Toy.of 69), (3, Toy.of 93)], Toy.of 21⟩)) (by decide +kernel)
  exact ⟨h, s, h1, by simpa using h2⟩

/-- In the middle of round 1, with one message stored and one queued; meets the hypotheses of C25, C26, C32 and C31 (below). -/
theorem keygen_midway : ∃ h s, Hist (Keygen.impl toySha) (session ids 1 1) h s ∧ s.done = false ∧ s.roundNumber = 1 ∧
    s.acceptedTypes = [1, 2] ∧ s.received = [(2, some (Message.newKeyGen1 2 ⟨0, 1⟩ [Toy.of 7, Toy.of 8]))] ∧ s.queue = [Message.newKeyGen2 3 1 19] := by
  obtain ⟨h, s, h1, h2⟩ := of_run (impl := Keygen.impl toySha) (s := session ids 1 1) (ops := keygenOps.take 4) (p := fun _ s => decide (s.done = false ∧ s.roundNumber = 1 ∧
    s.acceptedTypes = [1, 2] ∧ s.received = [(2, some (Message.newKeyGen1 2 ⟨0, 1⟩ [Toy.of 7, Toy.of 8]))] ∧ s.queue = [Message.newKeyGen2 3 1 19])) (by decide +kernel)
  exact ⟨h, s, h1, by simpa using h2⟩

/-- Two messages of round 1 in either order; meets the hypotheses of `C31_keygen_order`. -/
theorem keygen_round1 : ∃ h s, Hist (Keygen.impl toySha) (session ids 1 1) h s ∧ s.done = false ∧
    (∃ u out, processAll (Keygen.impl toySha) .insertion (coins []) (deliver (Keygen.impl toySha) s
      [Message.newKeyGen1 2 ⟨0, 1⟩ [Toy.of 7, Toy.of 8], Message.newKeyGen1 3 ⟨0, 1⟩ [Toy.of 9, Toy.of 10]]) = some (u, out) ∧ u.err = none) ∧
    Spec.RoundMessages (Keygen.impl toySha) s [Message.newKeyGen1 2 ⟨0, 1⟩ [Toy.of 7, Toy.of 8], Message.newKeyGen1 3 ⟨0, 1⟩ [Toy.of 9, Toy.of 10]] := by
  obtain ⟨h, s, h1, h2⟩ := of_run (impl := Keygen.impl toySha) (s := session ids 1 1) (ops := keygenOps.take 1) (p := fun _ s => decide (s.done = false ∧
    s.acceptedTypes = [1, 2] ∧ s.received = [] ∧ s.round.selfID = 1 ∧ s.round.partyIDs = ids ∧
    ((processAll (Keygen.impl toySha) .insertion (coins []) (deliver (Keygen.impl toySha) s
      [Message.newKeyGen1 2 ⟨0, 1⟩ [Toy.of 7, Toy.of 8], Message.newKeyGen1 3 ⟨0, 1⟩ [Toy.of 9, Toy.of 10]])).map fun x => x.1.err) = some none)) (by decide +kernel)
  simp only [decide_eq_true_eq] at h2
  obtain ⟨g1, g2, g3, g4, g5, g6⟩ := h2
  refine ⟨h, s, h1, g1, ?_, ⟨?_, ?_, by decide, by rw [g3]; simp [GoMap.keys]⟩⟩
  · rw [Option.map_eq_some_iff] at g6
    obtain ⟨x, hx, hx'⟩ := g6
    exact ⟨x.1, x.2, hx, hx'⟩
  · have e1 : (Keygen.impl toySha).selfID s.round = 1 := g4
    have e2 : (Keygen.impl toySha).partyIDs s.round = ids := g5
    rw [e1, e2]
    intro m hm
    fin_cases hm <;> exact ⟨by decide, Or.inl rfl, by decide +kernel⟩
  · rw [g2]
    intro m hm
    fin_cases hm <;> rfl

/-- A share that does not match its commitments: party 3 is blamed.  The state before meets the hypotheses of `C38_mismatch_aborts`, the
state after those of `C30_keygen_blame` and of C66 for an aborted session. -/
theorem keygen_blames : ∃ h s, Hist (Keygen.impl toySha) (session ids 1 1) h s ∧ s.done = true ∧ s.err = some ⟨3, 2, .vssFailed⟩ ∧
    s.round.output.secretKey = none := by
  obtain ⟨h, s, h1, h2⟩ := of_run (impl := Keygen.impl toySha) (s := session ids 1 1) (ops := [.processAll .insertion (coins [5, 6, 7]),
    .handle (Message.newKeyGen1 2 ⟨0, 1⟩ [Toy.of 7, Toy.of 8]), .handle (Message.newKeyGen1 3 ⟨0, 1⟩ [Toy.of 9, Toy.of 10]),
    .processAll .reversed (coins []), .handle (Message.newKeyGen2 2 1 15), .handle (Message.newKeyGen2 3 1 20), .processAll .insertion (coins [])])
    (p := fun _ s => decide (s.done = true ∧ s.err = some ⟨3, 2, .vssFailed⟩ ∧ s.round.output.secretKey = none)) (by decide +kernel)
  exact ⟨h, s, h1, by simpa using h2⟩

/-- A timeout in round 1, after the last message was accepted at time 3 and the timer was set to 13: C33. -/
theorem keygen_times_out : ∃ h s, Hist (Keygen.impl toySha) (session ids 1 1) h s ∧ s.done = true ∧ s.err = some ⟨0, 1, .timeout⟩ := by
  obtain ⟨h, s, h1, h2⟩ := of_run (impl := Keygen.impl toySha) (s := session ids 1 1) (ops := [.processAll .insertion (coins [5, 6, 7]), .advance 3,
    .handle (Message.newKeyGen1 2 ⟨0, 1⟩ [Toy.of 7, Toy.of 8]), .advance 9, .fire, .callback, .advance 1, .fire, .callback])
    (p := fun _ s => decide (s.done = true ∧ s.err = some ⟨0, 1, .timeout⟩)) (by decide +kernel)
  exact ⟨h, s, h1, by simpa using h2⟩

/-- The bytes of a message, empty if it cannot be encoded. -/
def enc (m : Message Toy) : Bytes := match Message.marshalBinary m with
  | .ok b => b
  | _ => []

/-- Runs `PartyRoutine` several times, stopping at the first error; `none` if it crashes. -/
def routines : List (List Bytes × Coins) → State Toy (Keygen.Round Toy) → Option (State Toy (Keygen.Round Toy) × List (List Bytes) × Option RoutineErr)
  | [], s => some (s, [], none)
  | (ins, c) :: rest, s => match partyRoutine (Keygen.impl toySha) .insertion c ins s with
    | none => none
    | some (s, .error e) => some (s, [], some e)
    | some (s, .ok out) => (routines rest s).map fun x => (x.1, out :: x.2.1, x.2.2)

/-- A key generation run by `PartyRoutine`: the broadcast, the two shares, and the end: C64. -/
theorem routine_succeeds : ((routines [([], coins [5, 6, 7]), ([enc (Message.newKeyGen1 2 ⟨0, 1⟩ [Toy.of 7, Toy.of 8]), enc (Message.newKeyGen1 3 ⟨0, 1⟩ [Toy.of 9, Toy.of 10])], coins []),
    ([enc (Message.newKeyGen2 3 1 19), enc (Message.newKeyGen2 2 1 15)], coins [])] (session ids 1 1)).map fun x => (x.1.done, x.2)) =
    some (true, [[enc (Message.newKeyGen1 1 ⟨0, 7⟩ [Toy.of 5, Toy.of 6])], [enc (Message.newKeyGen2 1 2 17), enc (Message.newKeyGen2 1 3 23)], []], none) := by
  decide +kernel

/-- A bad share, a message sent twice and bytes that do not decode are reported: C64. -/
theorem routine_fails : ((routines [([], coins [5, 6, 7]), ([enc (Message.newKeyGen1 2 ⟨0, 1⟩ [Toy.of 7, Toy.of 8]), enc (Message.newKeyGen1 3 ⟨0, 1⟩ [Toy.of 9, Toy.of 10])], coins []),
      ([enc (Message.newKeyGen2 3 1 20), enc (Message.newKeyGen2 2 1 15)], coins [])] (session ids 1 1)).map fun x => x.2.2) = some (some (.aborted ⟨3, 2, .vssFailed⟩)) ∧
    ((routines [([], coins [5, 6, 7]), ([enc (Message.newKeyGen1 2 ⟨0, 1⟩ [Toy.of 7, Toy.of 8]), enc (Message.newKeyGen1 2 ⟨0, 1⟩ [Toy.of 7, Toy.of 8])], coins [])]
      (session ids 1 1)).map fun x => (x.1.received.keys, x.2.2)) = some ([2], some (.handle ⟨1, 2, some 1, .alreadyReceived⟩)) ∧
    ((routines [([], coins [5, 6, 7]), ([[9, 9]], coins [])] (session ids 1 1)).map fun x => x.2.2) = some (some (.unmarshal .tooShort)) := by
  decide +kernel

/-! ### Signing: parties 1 and 3 of the key of `keygen_succeeds` -/

/-- The public part of the key. -/
def key : Public Toy := ⟨ids, 1, [(1, Toy.of 45), (2, Toy.of 69), (3, Toy.of 93)], Toy.of 21⟩

/-- The weighted share of party 1 is `3/2 * 45`, that of party 3 is `-1/2 * 93`. -/
def signRound0 : Option (Sign.Round Toy) := match Sign.newRound [1, 3] ⟨1, 45, Toy.of 45⟩ key [1, 2, 3] with
  | .ok r => some r
  | _ => none

theorem signRound_ok : ∃ r, Sign.newRound [1, 3] ⟨1, 45, Toy.of 45⟩ key [1, 2, 3] = .ok r ∧ signRound0 = some r := by
  have h : signRound0.isSome = true := by decide +kernel
  unfold signRound0 at h ⊢
  split at h
  · rename_i r hr
    exact ⟨r, hr, by simp [hr]⟩
  · cases h

/-- A signing session of party 1. -/
theorem sign_of_run (ops : List (Op Toy)) (p : List (Op Toy × Ret Toy) → State Toy (Sign.Round Toy) → Bool)
    (h : (signRound0.bind fun r => (run (Sign.impl toySha) (newBaseState (Sign.impl toySha) r 10 0) ops).map fun x => p x.1 x.2) = some true) :
    ∃ s₀ h s, Sign.newSignState toySha [1, 3] ⟨1, 45, Toy.of 45⟩ key [1, 2, 3] 10 0 = .ok s₀ ∧ Hist (Sign.impl toySha) s₀ h s ∧ p h s = true := by
  obtain ⟨r, h1, h2⟩ := signRound_ok
  rw [h2] at h
  obtain ⟨hh, s, h3, h4⟩ := of_run h
  exact ⟨_, hh, s, newSignState_ok.mpr ⟨r, h1, rfl⟩, h3, h4⟩

/-- The share of party 3, computed by hand: `d + e * 5 + (-1/2 * 93) * 5` with `d = 11`, `e = 12` (the toy hash is constant 5). -/
def share3 : Scalar := 11 + 12 * 5 + (-(2 : Scalar)⁻¹ * 93) * 5

/-- A signing session that succeeds: C43 to C48, C66. -/
theorem sign_succeeds : ∃ s₀ h s, Sign.newSignState toySha [1, 3] ⟨1, 45, Toy.of 45⟩ key [1, 2, 3] 10 0 = .ok s₀ ∧
    Hist (Sign.impl toySha) s₀ h s ∧ s.done = true ∧ s.err = none ∧ s.round.output.signature ≠ none := by
  obtain ⟨s₀, h, s, h1, h2, h3⟩ := sign_of_run [.processAll .insertion (coins [13, 14]), .handle (Message.newSign1 3 (Toy.of 11) (Toy.of 12)),
    .processAll .reversed (coins []), .handle (Message.newSign2 3 share3), .processAll .insertion (coins [])]
    (fun _ s => decide (s.done = true ∧ s.err = none ∧ s.round.output.signature ≠ none)) (by decide +kernel)
  exact ⟨s₀, h, s, h1, h2, by simpa using h3⟩

/-- A bad share is blamed on its sender: C30, C45. -/
theorem sign_blames : ∃ s₀ h s, Sign.newSignState toySha [1, 3] ⟨1, 45, Toy.of 45⟩ key [1, 2, 3] 10 0 = .ok s₀ ∧
    Hist (Sign.impl toySha) s₀ h s ∧ s.done = true ∧ s.err = some ⟨3, 2, .badSigShare⟩ ∧ s.round.output.signature = none := by
  obtain ⟨s₀, h, s, h1, h2, h3⟩ := sign_of_run [.processAll .insertion (coins [13, 14]), .handle (Message.newSign1 3 (Toy.of 11) (Toy.of 12)),
    .processAll .reversed (coins []), .handle (Message.newSign2 3 (share3 + 1)), .processAll .insertion (coins [])]
    (fun _ s => decide (s.done = true ∧ s.err = some ⟨3, 2, .badSigShare⟩ ∧ s.round.output.signature = none)) (by decide +kernel)
  exact ⟨s₀, h, s, h1, h2, by simpa using h3⟩

/-- A commitment to zero is refused: C49. -/
theorem sign_identity : ∃ s₀ h s, Sign.newSignState toySha [1, 3] ⟨1, 45, Toy.of 45⟩ key [1, 2, 3] 10 0 = .ok s₀ ∧
    Hist (Sign.impl toySha) s₀ h s ∧ s.done = true ∧ s.err = some ⟨3, 1, .identityCommitment⟩ := by
  obtain ⟨s₀, h, s, h1, h2, h3⟩ := sign_of_run [.processAll .insertion (coins [13, 14]), .handle (Message.newSign1 3 (Toy.of 11) (Toy.of 0)),
    .processAll .reversed (coins [])]
    (fun _ s => decide (s.done = true ∧ s.err = some ⟨3, 1, .identityCommitment⟩)) (by decide +kernel)
  exact ⟨s₀, h, s, h1, h2, by simpa using h3⟩

/-- In round 2, waiting for the share: C45, C47. -/
theorem sign_midway : ∃ s₀ h s, Sign.newSignState toySha [1, 3] ⟨1, 45, Toy.of 45⟩ key [1, 2, 3] 10 0 = .ok s₀ ∧
    Hist (Sign.impl toySha) s₀ h s ∧ s.done = false ∧ s.roundNumber = 2 ∧ (Op.handle (Message.newSign1 3 (Toy.of 11) (Toy.of 12)), Ret.handled none) ∈ h := by
  obtain ⟨s₀, h, s, h1, h2, h3⟩ := sign_of_run [.processAll .insertion (coins [13, 14]), .handle (Message.newSign1 3 (Toy.of 11) (Toy.of 12)),
    .processAll .reversed (coins [])]
    (fun h s => decide (s.done = false ∧ s.roundNumber = 2 ∧ accepted (Message.newSign1 3 (Toy.of 11) (Toy.of 12)) h = true)) (by decide +kernel)
  simp only [decide_eq_true_eq] at h3
  exact ⟨s₀, h, s, h1, h2, h3.1, h3.2.1, mem_of_accepted h3.2.2⟩

/-! ### Networks -/

/-- Three honest parties: C35, C36, C37. -/
theorem keygen_setup : Spec.KeygenSetup toySha ids 1 (fun _ => 10) (fun _ => 0) (session ids 1) where
  sorted := by decide
  nodup := by decide
  zero := by decide
  start := by
    intro i hi
    have hi : i ∈ [(1 : ID), 2, 3] := hi
    fin_cases hi <;> exact session_ok (by decide) (by decide) (by decide +kernel)

/-- There is an execution in which all finish, and two of them can go on to sign; so the hypotheses of C37 and C43 can be met. -/
theorem network (kcoins scoins : ID → Coins) (hs : ∀ i ∈ [(1 : ID), 3], scoins i 0 ≠ 0 ∧ scoins i 1 ≠ 0) (message : Bytes) :
    ∃ K, Spec.Path (Keygen.impl toySha) ids kcoins (Spec.Net.start (session ids 1)) K ∧ (∀ i ∈ ids, (K.state i).done = true) ∧
      ∃ (secret : ID → SecretShare Toy) (pub : ID → Public Toy) (init : ID → State Toy (Sign.Round Toy)),
        Spec.SignSetup toySha [1, 3] 1 (Spec.jointPoly ids 1 kcoins) message secret pub (fun _ => 10) (fun _ => 0) init ∧
        ∃ N, Spec.Path (Sign.impl toySha) [1, 3] scoins (Spec.Net.start init) N ∧ ∀ i ∈ [(1 : ID), 3], (N.state i).done = true ∧ (N.state i).err = none := by
  obtain ⟨K, hK, hd⟩ := C36_honest_keygen_completes keygen_setup kcoins _ (.refl _)
  have hsub : ∀ i ∈ [(1 : ID), 3], i ∈ ids := by decide
  let secret : ID → SecretShare Toy := fun i => (K.state i).round.output.secretKey.getD ⟨0, 0, Toy.of 0⟩
  let pub : ID → Public Toy := fun i => (K.state i).round.output.pub.getD key
  obtain ⟨⟨init, hinit⟩, h2⟩ := C43_keygen_then_sign (ids := [1, 3]) (secret := secret) (pub := pub) keygen_setup kcoins K hK (by decide) (by decide) hsub (by decide)
    (fun i hi => (hd i (hsub i hi)).1) (fun i hi => by rw [(hd i (hsub i hi)).2.2.1]; simp [secret, (hd i (hsub i hi)).2.2.1])
    (fun i hi => by obtain ⟨p, hp, _⟩ := (hd i (hsub i hi)).2.2.2; rw [hp]; simp [pub, hp]) message (fun _ => 10) (fun _ => 0)
  have hset := h2 init hinit
  obtain ⟨sig, _, hsig⟩ := C43_honest_sign hset scoins hs
  obtain ⟨_, _, _, N', h3, h4⟩ := hsig _ (.refl _)
  exact ⟨K, hK, fun i hi => (hd i hi).1, secret, pub, init, hset, N', h3, fun i hi => ⟨(h4 i hi).1, (h4 i hi).2.1⟩⟩

end Verif.Props.Demo

namespace Verif.Props

open State Demo

/-- C39 is refuted: there are messages of one malicious party with which an honest party's key generation succeeds although its
secret share does not match its own public share.  (Party 2 commits to a polynomial of degree 2 instead of 1; its commitments are left
out of the sum without an error.) -/
theorem C39_own_share_refuted : ∃ (h : List (Op Toy × Ret Toy)) (s s₀ : State Toy (Keygen.Round Toy)) (sk : SecretShare Toy) (pub : Public Toy) (X : Toy),
    Keygen.newKeygenState toySha 1 [1, 2] 1 10 0 = .ok s₀ ∧ Hist (Keygen.impl toySha) s₀ h s ∧ s.done = true ∧ s.err = none ∧
    s.round.output.secretKey = some sk ∧ s.round.output.pub = some pub ∧ pub.shares.get? 1 = some X ∧ sk.secret • (base : Toy) ≠ X := by
  obtain ⟨h, s, h1, h2⟩ := of_run (impl := Keygen.impl toySha) (s := session [1, 2] 1 1) (ops := [.processAll .insertion (coins [5, 6, 7]),
    .handle (Message.newKeyGen1 2 ⟨0, 1⟩ [Toy.of 7, Toy.of 8, Toy.of 9]), .processAll .insertion (coins []),
    .handle (Message.newKeyGen2 2 1 24), .processAll .insertion (coins [])])
    (p := fun _ s => decide (s.done = true ∧ s.err = none ∧ s.round.output.secretKey = some ⟨1, 35, Toy.of 35⟩ ∧
      s.round.output.pub = some ⟨[1, 2], 1, [(1, Toy.of 11), (2, Toy.of 17)], Toy.of 5⟩)) (by decide +kernel)
  simp only [decide_eq_true_eq] at h2
  obtain ⟨g1, g2, g3, g4⟩ := h2
  exact ⟨h, s, session [1, 2] 1 1, _, _, Toy.of 11, session_ok (by decide) (by decide) (by decide +kernel), h1, g1, g2, g3, g4, rfl, by decide +kernel⟩

end Verif.Props
