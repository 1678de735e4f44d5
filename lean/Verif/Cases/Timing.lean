import Verif.Cases.Sign
import Verif.Props.Timing

/-!
For each theorem of `Props/Timing.lean` that has hypotheses, a concrete case that meets them.
-/

namespace Verif.Cases

open State Props Props.Demo

/-- The session of party 1 with the log. -/
def timedSign : State Toy (Sign.Round Toy × List (VarTime Toy)) := newBaseState (Sign.timedImpl sumSha) (r1, []) 10 0

/-- What happens in it. -/
def timedAfter (ops : List (Op Toy)) : List (Op Toy × Ret Toy) × State Toy (Sign.Round Toy × List (VarTime Toy)) :=
  (run (Sign.timedImpl sumSha) timedSign ops).getD ([], timedSign)

theorem timedHist (ops : List (Op Toy)) (h : (run (Sign.timedImpl sumSha) timedSign ops).isSome = true) :
    Hist (Sign.timedImpl sumSha) timedSign (timedAfter ops).1 (timedAfter ops).2 := by
  obtain ⟨x, hx⟩ := Option.isSome_iff_exists.mp h
  refine run_hist (ops := ops) (hx.trans ?_)
  simp [timedAfter, hx]

/-- The calls of a session that succeeds: one for each share of the others, one for the signature. -/
example : (timedAfter sops4).2.round.2.length = 3 ∧ (timedAfter sops4).2.done = true ∧ (timedAfter sops4).2.err = none := by decide +kernel

/-- The last of them. -/
def lastCall : VarTime Toy := (timedAfter sops4).2.round.2.getD 2 (.multi [] [])

/-- `C99_sign`: the verification of the signature, which gets the sum of the three shares. -/
example : ∃ D E, Spec.Commitments 1 ids (timedAfter sops4).1 D E ∧ Spec.SignCall sumSha 1 key ids [1, 2, 3] (timedAfter sops4).1 D E lastCall :=
  C99_sign (skey 1) key ids [1, 2, 3] 10 0 r1 (sround_some 1 _) (by decide) (timedHist sops4 (by decide +kernel)) lastCall (by decide +kernel)

example : (match lastCall with
    | .double _ A b => decide (A = -key.groupKey ∧ b = 18190 + -19298 + 33104)
    | .multi _ _ => false) = true := by decide +kernel

/-- The key generation of party 1 with the log. -/
def timedKeygen : State Toy (Keygen.Round Toy × List (VarTime Toy)) := newBaseState (Keygen.timedImpl toySha) (round0 ids 1 1, []) 10 0

/-- What happens in it. -/
def timedMore (ops : List (Op Toy)) : List (Op Toy × Ret Toy) × State Toy (Keygen.Round Toy × List (VarTime Toy)) :=
  (run (Keygen.timedImpl toySha) timedKeygen ops).getD ([], timedKeygen)

theorem timedHist' (ops : List (Op Toy)) (h : (run (Keygen.timedImpl toySha) timedKeygen ops).isSome = true) :
    Hist (Keygen.timedImpl toySha) timedKeygen (timedMore ops).1 (timedMore ops).2 := by
  obtain ⟨x, hx⟩ := Option.isSome_iff_exists.mp h
  refine run_hist (ops := ops) (hx.trans ?_)
  simp [timedMore, hx]

/-- The calls of a key generation that succeeds: the proofs of parties 2 and 3, the checks of their shares, the public shares of all. -/
example : (timedMore ops3).2.round.2 = [.double 0 (-Toy.of 9) 1, .double 0 (-Toy.of 7) 1, .multi [1, 1] [Toy.of 7, Toy.of 8], .multi [1, 1] [Toy.of 9, Toy.of 10],
    .multi [1, 1] [Toy.of 21, Toy.of 24], .multi [1, 2] [Toy.of 21, Toy.of 24], .multi [1, 3] [Toy.of 21, Toy.of 24]] := by decide +kernel

theorem round0_new : Keygen.newRound 1 ids 1 = .ok (round0 ids 1 1) := by
  unfold Keygen.newRound Keygen.newBaseRound
  rw [Outcome.failIf_neg (by decide), Outcome.ok_bind, Outcome.failIf_neg (by decide), Outcome.ok_bind, Outcome.failIf_neg (by decide +kernel)]
  rfl

/-- `C99_keygen`: the computation of the public share of party 3. -/
example : Spec.KeygenCall 1 ids (timedMore ops3).1 (.multi [1, 3] [Toy.of 21, Toy.of 24]) :=
  C99_keygen 1 ids 1 10 0 _ round0_new (by decide) (timedHist' ops3 (by decide +kernel)) _ (by decide +kernel)

/-- A message of party 2 with the three payloads the theorem speaks of. -/
def loggedMsg : Message Toy where
  header := ⟨.keyGen1, 2, 0⟩
  keyGen1 := some ⟨⟨5, 6⟩, [Toy.of 7, Toy.of 8]⟩
  keyGen2 := some ⟨15⟩
  sign2 := some ⟨9⟩

/-- A round of key generation in which the commitments of party 2 are known. -/
def loggedRound : Keygen.Round Toy :=
  { round0 ids 1 1 with commitmentsSum := some [Toy.of 21, Toy.of 24], commitments := [(2, [Toy.of 7, Toy.of 8])] }

/-- A round of signing. -/
def loggedSign : Sign.Round Toy := { r1 with parties := [(2, ⟨Toy.of 69, none, none, none, 1, 4⟩)], C := 3 }

/-- `C99_every_call_logged`: its hypotheses are met, and what it says about the last two functions. -/
example (ord : MapOrder) : (Sign.process2Timed loggedSign (some loggedMsg)).log = [.double 3 (-Toy.of 69) 9] ∧
    (Sign.generate2Timed sumSha ord loggedSign).log = [.double (Spec.challenge sumSha loggedSign.R loggedSign.groupKey loggedSign.message)
      (-loggedSign.groupKey) ((ord.order _ loggedSign.parties).map fun e => e.2.Zi).sum] :=
  (C99_every_call_logged sumSha loggedRound loggedMsg ⟨⟨5, 6⟩, [Toy.of 7, Toy.of 8]⟩ ⟨15⟩ (Toy.of 7) [Toy.of 7, Toy.of 8] [Toy.of 21, Toy.of 24]
    loggedSign ⟨Toy.of 69, none, none, none, 1, 4⟩ ⟨9⟩ ord rfl rfl rfl rfl (by decide) rfl (by decide) rfl rfl).2.2.2

end Verif.Cases
