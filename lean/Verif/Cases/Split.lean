import Verif.Props.Split
import Verif.Props.SplitRest
import Verif.Props.Demo

/-!
The theorem of `Props/Split` applied to the key generation of three parties.
-/

namespace Verif.Cases

open Verif State Props Props.Demo

/-- Party 3 cheats party 2.  Party 1 finishes with a key that nobody but itself and the cheater holds a share of. -/
example (kcoins : ID → Coins) : (∃ h s, Hist (Keygen.impl toySha) (session ids 1 1) h s ∧ Spec.SplitRun ids 1 3 kcoins [2] 1 h ∧ s.done = true ∧ s.err = none) ∧
    ∃ h s, Hist (Keygen.impl toySha) (session ids 1 2) h s ∧ Spec.SplitRun ids 1 3 kcoins [2] 2 h ∧ s.done = true ∧ s.err = some ⟨3, 2, .vssFailed⟩ := by
  obtain ⟨h, s, h1, h2, h3, _, h5⟩ := C126_split_refuted (sha := toySha) (G := Toy) ids (by decide) (by decide) 1 3 (by decide) kcoins [2] 1 (by decide) 10 0 _
    (keygen_setup.start 1 (by decide))
  obtain ⟨h', s', h1', h2', h3', h4', _⟩ := C126_split_refuted (sha := toySha) (G := Toy) ids (by decide) (by decide) 1 3 (by decide) kcoins [2] 2 (by decide) 10 0 _
    (keygen_setup.start 2 (by decide))
  exact ⟨⟨h, s, h1, h2, h3, (h5 (by decide)).1⟩, h', s', h1', h2', h3', (h4' (by decide)).1⟩

/-- The wrong share is a different one. -/
example : (Spec.cheatShare 1 3 2 (coins [9, 10]) [2] : Message Toy) ≠ Spec.honestShare 1 3 2 (coins [9, 10]) := by decide +kernel

/-- `C126_rest_key`, `C126_rest_can_sign`: of four parties 4 cheats 3; then 1 and 2 can sign. -/
example (kcoins : ID → Coins) (message : Bytes) : ∃ (secret : ID → SecretShare Toy) (pub : ID → Public Toy) (init : ID → State Toy (Sign.Round Toy)),
    Spec.SignSetup toySha [1, 2] 1 (Spec.jointPoly [1, 2, 3, 4] 1 kcoins) message secret pub (fun _ => 10) (fun _ => 0) init := by
  have hall : ∀ j : ID, ∃ (s₀ s : State Toy (Keygen.Round Toy)) (h : List (Op Toy × Ret Toy)), j ∈ ([1, 2] : IDSlice) →
      Keygen.newKeygenState toySha j [1, 2, 3, 4] 1 10 0 = .ok s₀ ∧ Hist (Keygen.impl toySha) s₀ h s ∧ Spec.SplitRun [1, 2, 3, 4] 1 4 kcoins [3] j h ∧
      s.done = true ∧ s.err = none := by
    intro j
    by_cases hj : j ∈ ([1, 2] : IDSlice)
    · have hj' : j ∈ ([1, 2, 3, 4] : IDSlice) ∧ j ≠ 4 ∧ j ∉ ([3] : IDSlice) := by
        have : j = 1 ∨ j = 2 := by simpa using hj
        rcases this with rfl | rfl <;> decide
      obtain ⟨s₀, h0⟩ := C34_accepts (G := Toy) (sha := toySha) j [1, 2, 3, 4] 1 10 0 (by decide) (by decide) hj'.1 (by decide) (by decide)
      obtain ⟨h, s, h1, h2, h3, _, h5⟩ := C126_split_refuted (sha := toySha) (G := Toy) [1, 2, 3, 4] (by decide) (by decide) 1 4 (by decide) kcoins [3] j hj'.2.1 10 0 s₀ h0
      exact ⟨s₀, s, h, fun _ => ⟨h0, h1, h2, h3, (h5 hj'.2.2).1⟩⟩
    · exact ⟨session ids 1 1, session ids 1 1, [], fun h => absurd h hj⟩
  choose s₀ s h hall using hall
  obtain ⟨secret, pub, init, _, hset⟩ := C126_rest_can_sign (sha := toySha) [1, 2, 3, 4] (by decide) (by decide) 1 4 kcoins [3] (fun _ => 10) (fun _ => 0) s₀ s h [1, 2]
    (by decide) (by decide) (by decide) (fun j hj => (hall j hj).1) (fun j hj => (hall j hj).2.1) (fun j hj => (hall j hj).2.2.1)
    (fun j hj => (hall j hj).2.2.2) message (fun _ => 10) (fun _ => 0)
  exact ⟨secret, pub, init, hset⟩

end Verif.Cases
