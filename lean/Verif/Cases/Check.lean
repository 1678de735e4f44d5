import Verif.Props.Check
import Verif.Props.Demo

/-!
The theorems of `Props/Check` applied to parties 1 and 2 of a key generation with three parties, and to a signer with a wrong share.
-/

namespace Verif.Cases

open Verif State Props Props.Demo

/-- What parties 1 and 2 have in the end. -/
def goodPub : Public Toy := ⟨ids, 1, [(1, Toy.of 45), (2, Toy.of 69), (3, Toy.of 93)], Toy.of 21⟩

theorem good2 : ∃ h s, Hist (Keygen.impl toySha) (session ids 1 2) h s ∧ s.done = true ∧ s.err = none ∧
    s.round.output.secretKey = some ⟨2, 69, Toy.of 69⟩ ∧ s.round.output.pub = some goodPub := by
  obtain ⟨h, s, h1, h2⟩ := of_run (impl := Keygen.impl toySha) (s := session ids 1 2) (ops := [.processAll .insertion (coins [7, 8, 9]),
    .handle (Message.newKeyGen1 1 ⟨0, 1⟩ [Toy.of 5, Toy.of 6]), .handle (Message.newKeyGen1 3 ⟨0, 1⟩ [Toy.of 9, Toy.of 10]), .processAll .insertion (coins []),
    .handle (Message.newKeyGen2 1 2 17), .handle (Message.newKeyGen2 3 2 29), .processAll .reversed (coins [])])
    (p := fun _ s => decide (s.done = true ∧ s.err = none ∧ s.round.output.secretKey = some ⟨2, 69, Toy.of 69⟩ ∧
      s.round.output.pub = some goodPub)) (by decide +kernel)
  exact ⟨h, s, h1, by simpa using h2⟩

/-- The results pass the checks, so the two can sign. -/
example (message : Bytes) : ∃ (sk : ID → SecretShare Toy) (F : Polynomial Scalar) (T : UInt16) (init : ID → State Toy (Sign.Round Toy)),
    Spec.SignSetup toySha [1, 2] T F message sk (fun _ => goodPub) (fun _ => 10) (fun _ => 0) init := by
  obtain ⟨h1, s1, a1, a2, a3, a4, a5⟩ := keygen_succeeds
  obtain ⟨h2, s2, b1, b2, b3, b4, b5⟩ := good2
  have two : ∀ {P : ID → Prop}, P 1 → P 2 → ∀ j ∈ ([1, 2] : List ID), P j := by
    intro P p1 p2 j hj
    have : j = 1 ∨ j = 2 := by simpa using hj
    rcases this with rfl | rfl
    · exact p1
    · exact p2
  let sk : ID → SecretShare Toy := fun j => if j = 1 then ⟨1, 45, Toy.of 45⟩ else ⟨2, 69, Toy.of 69⟩
  have hc : Spec.Checked [1, 2] sk fun _ => goodPub :=
    ⟨fun _ _ _ _ => by decide +kernel, two (by decide +kernel) (by decide +kernel)⟩
  obtain ⟨⟨init, hi⟩, F, T, hF⟩ := C124_can_sign (sha := toySha) [1, 2] (fun _ => ids) (fun _ => 1) (fun _ => 10) (fun _ => 0) (fun j => session ids 1 j)
    (fun j => if j = 1 then s1 else s2) (fun j => if j = 1 then h1 else h2) (fun _ _ => by decide)
    (two (session_ok (by decide) (by decide) (by decide +kernel)) (session_ok (by decide) (by decide) (by decide +kernel)))
    (two a1 b1) (two ⟨a2, a3⟩ ⟨b2, b3⟩) sk (fun _ => goodPub) (two a4 b4) (two a5 b5) hc [1, 2] (by decide) (fun _ h => h) (by decide) (by decide) message
    (fun _ => 10) (fun _ => 0)
  exact ⟨sk, F, T, init, hF init hi⟩

/-- Party 1 with a share that is not the one of its public share. -/
def wrong1 : SecretShare Toy := ⟨1, 46, Toy.of 46⟩

def wrongRound : Option (Sign.Round Toy) := match Sign.newRound ids wrong1 key [1, 2, 3] with
  | .ok r => some r
  | _ => none

theorem wrong_of_run (ops : List (Op Toy)) (p : List (Op Toy × Ret Toy) → State Toy (Sign.Round Toy) → Bool)
    (h : (wrongRound.bind fun r => (run (Sign.impl sumSha) (newBaseState (Sign.impl sumSha) r 10 0) ops).map fun x => p x.1 x.2) = some true) :
    ∃ s₀ h s, Sign.newSignState sumSha ids wrong1 key [1, 2, 3] 10 0 = .ok s₀ ∧ Hist (Sign.impl sumSha) s₀ h s ∧ p h s = true := by
  unfold wrongRound at h
  split at h
  · rename_i r hr
    obtain ⟨hh, s, h3, h4⟩ := of_run h
    exact ⟨_, hh, s, newSignState_ok.mpr ⟨r, hr, rfl⟩, h3, h4⟩
  · cases h

/-- Its share is refused by party 2, unless the challenge is 0. -/
example : ∃ s₁ h₁ t₁ s₂ h₂ t₂ m D E, Sign.newSignState sumSha ids wrong1 key [1, 2, 3] 10 0 = .ok s₁ ∧
    Sign.newSignState sumSha ids (skey 2) key [1, 2, 3] 10 0 = .ok s₂ ∧ Hist (Sign.impl sumSha) s₁ h₁ t₁ ∧ Hist (Sign.impl sumSha) s₂ h₂ t₂ ∧
    m ∈ Spec.emitted h₁ ∧ Spec.Commitments 1 ids h₁ D E ∧ (Spec.chal sumSha ids [1, 2, 3] key.groupKey D E ≠ 0 →
      ∃ e, (Sign.impl sumSha).processMessage t₂.round (some m) = .err (e, t₂.round) ∧ e.partyID = 1) := by
  obtain ⟨s₁, h₁, t₁, a1, a2, a3⟩ := wrong_of_run [.processAll .insertion (coins [13, 14]), .handle (Message.newSign1 2 (Toy.of 15) (Toy.of 16)),
    .handle (Message.newSign1 3 (Toy.of 11) (Toy.of 99)), .processAll .insertion (coins [])]
    (fun h _ => decide (inTable 1 h = true) && (Spec.emitted h).any fun m => m.sign2.isSome) (by decide +kernel)
  obtain ⟨s₂, h₂, t₂, b1, b2, b3⟩ := sign3_of_run 2 [.processAll .insertion (coins [15, 16]), .handle (Message.newSign1 3 (Toy.of 11) (Toy.of 99)),
    .handle (Message.newSign1 1 (Toy.of 13) (Toy.of 14)), .processAll .insertion (coins [])]
    (fun h s => decide ((s.done = false ∧ s.roundNumber = 2) ∧ inTable 2 h = true)) (by decide +kernel)
  simp only [Bool.and_eq_true, decide_eq_true_eq, List.any_eq_true] at a3 b3
  obtain ⟨a3, m, hm, hz⟩ := a3
  obtain ⟨z, hz⟩ := Option.isSome_iff_exists.mp hz
  obtain ⟨D, E, h1, h2⟩ := C124_own_needed a1 b1 (by decide) _ (show key.shares.get? 1 = some (Toy.of 45) by decide +kernel) (by decide +kernel) a2 b2
    (fun D E D' E' hc hc' id hid => by
      obtain ⟨g1, g2⟩ := of_inTable a3 hc id hid
      obtain ⟨g3, g4⟩ := of_inTable b3.2 hc' id hid
      exact ⟨g1.trans g3.symm, g2.trans g4.symm⟩) m z hm hz b3.1.1 b3.1.2
  exact ⟨s₁, h₁, t₁, s₂, h₂, t₂, m, D, E, a1, b1, a2, b2, hm, h1, fun hch => h2 hch [] _ (by constructor)⟩

end Verif.Cases
