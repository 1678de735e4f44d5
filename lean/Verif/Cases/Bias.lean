import Verif.Props.Bias
import Verif.Props.Demo

/-!
The theorems of `Props/Bias` applied to the key generation of three parties.
-/

namespace Verif.Cases

open Verif State Props Props.Demo
open Verif.Spec (prob)

/-- Party 3 waits for the others, and makes all of them finish with the group key that it has fixed beforehand: here `1000 • base`. -/
example (kcoins : ID → Coins) : ∃ (κ : Coins) (N : Spec.Net Toy (Keygen.Round Toy)),
    Spec.Path (Keygen.impl toySha) ids (Function.update kcoins 3 κ) (Spec.Net.start (session ids 1)) N ∧
      ∀ i ∈ ids, (N.state i).done = true ∧ (N.state i).err = none ∧ ∃ pub, (N.state i).round.output.pub = some pub ∧ pub.groupKey = Toy.of 1000 := by
  obtain ⟨κ, hκ⟩ := C125_every_key_refuted (ids := ids) 3 kcoins (Toy.of 1000)
  obtain ⟨N, h1, _, _, h2⟩ := C125_last_mover keygen_setup 3 (by decide) kcoins
  obtain ⟨N', h3, h4⟩ := h2 κ
  refine ⟨κ, N', State.Path.trans (h1 κ) h3, fun i hi => ?_⟩
  obtain ⟨a1, a2, pub, a3, a4⟩ := h4 i hi
  exact ⟨a1, a2, pub, a3, a4.trans hκ⟩

/-- What party 3 has seen before it chooses, when the others drew 5 and 7. -/
example : (Spec.seen ids 3 (fun i => if i = 1 then coins [5, 6] else coins [7, 8]) : Toy) = Toy.of 12 := by decide +kernel

/-- The hypothesis of `C125_ten_tries_refuted` is met by every property or by its opposite. -/
example (want : Toy → Prop) : (1 / 2 ≤ prob fun x : Scalar => want (x • (base : Toy))) ∨ 1 / 2 ≤ prob fun x : Scalar => ¬want (x • (base : Toy)) := by
  have : NeZero q := ⟨Random.q_pos.ne'⟩
  have : Fintype Scalar := inferInstanceAs (Fintype (ZMod q))
  rw [prob_not]
  by_contra h
  push Not at h
  linarith [h.1, h.2]

end Verif.Cases
