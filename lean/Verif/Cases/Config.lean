import Verif.Props.Config
import Verif.Props.Demo

/-!
The theorems of `Props/Config` applied to parties 1 to 3, of which party 3 was given another threshold, and to parties with different lists.
-/

namespace Verif.Cases

open Verif State Props Props.Demo

/-- Parties 1 and 2 have the threshold 1, party 3 has 2. -/
def mixedT (j : ID) : UInt16 := if j = 3 then 2 else 1

/-- The coins of party `j`; it contributes `10 j²`. -/
def mixedCoins (j : ID) : Coins := fun n => (10 * j.toNat * j.toNat + n : Nat)

theorem mixedT_sessions : ∀ j ∈ ids, Keygen.newKeygenState toySha j ids (mixedT j) 10 0 = .ok (session ids (mixedT j) j) := by
  intro j hj
  have : j = 1 ∨ j = 2 ∨ j = 3 := by simpa [ids] using hj
  rcases this with rfl | rfl | rfl <;> exact session_ok (by decide) (by decide) (by decide +kernel)

/-- All three finish without error; parties 1 and 2 with the key of secret 50 = 10 + 40, party 3 with that of the secret 90, which is its own contribution. -/
theorem mixedT_runs : ∃ (h : ID → List (Op Toy × Ret Toy)) (s : ID → State Toy (Keygen.Round Toy)),
    (∀ j ∈ ids, Hist (Keygen.impl toySha) (session ids (mixedT j) j) (h j) (s j)) ∧
    (∀ i ∈ ids, ∀ j ∈ ids, j ≠ i → Spec.Authentic j (h i) (h j)) ∧
    ∀ i ∈ ids, (s i).done = true ∧ (s i).err = none ∧ ∃ pub, (s i).round.output.pub = some pub ∧
      pub.groupKey = ((ids.filter fun j => mixedT j = mixedT i).map fun j => mixedCoins j 0).sum • (RGroup.base : Toy) :=
  C122_undetected ids (fun _ => ids) mixedT (fun _ => 10) (fun _ => 0) _ mixedCoins (fun _ _ => by decide) (fun _ _ => by decide)
    (by decide) (fun _ hi _ hj => ⟨hj, hi⟩) mixedT_sessions

/-- So parties 1 and 3 hold different keys, and `Equal` says so. -/
example : ∃ (h : ID → List (Op Toy × Ret Toy)) (s : ID → State Toy (Keygen.Round Toy)) (p1 p3 : Public Toy),
    (∀ j ∈ ids, Hist (Keygen.impl toySha) (session ids (mixedT j) j) (h j) (s j) ∧ (s j).done = true ∧ (s j).err = none) ∧
    (s 1).round.output.pub = some p1 ∧ (s 3).round.output.pub = some p3 ∧ p1.groupKey = Toy.of 50 ∧ p3.groupKey = Toy.of 90 ∧
    Public.equal p1 p3 = .ok false := by
  obtain ⟨h, s, h1, h2, h3⟩ := mixedT_runs
  have m1 : (1 : ID) ∈ ids := by decide
  have m3 : (3 : ID) ∈ ids := by decide
  obtain ⟨d1, e1, p1, a1, b1⟩ := h3 1 m1
  obtain ⟨d3, e3, p3, a3, b3⟩ := h3 3 m3
  obtain ⟨q1, q3, c1, c3, c4⟩ := C122_equal (mixedT_sessions 1 m1) (mixedT_sessions 3 m3) (by decide) (by decide) (h1 1 m1) (h1 3 m3) ⟨d1, e1⟩ ⟨d3, e3⟩
    (Or.inr (by decide))
  rw [a1] at c1
  rw [a3] at c3
  cases c1
  cases c3
  exact ⟨h, s, p1, p3, fun j hj => ⟨h1 j hj, (h3 j hj).1, (h3 j hj).2.1⟩, a1, a3, b1.trans (by decide +kernel), b3.trans (by decide +kernel), c4⟩

/-- Their secrets include the contributions of all three. -/
example : ∃ (h : ID → List (Op Toy × Ret Toy)) (s : ID → State Toy (Keygen.Round Toy)) (F : ID → List Scalar),
    (∀ j ∈ ids, (F j).length = (mixedT j).toNat + 1) ∧ ∀ i ∈ ids, Hist (Keygen.impl toySha) (session ids (mixedT i) i) (h i) (s i) ∧
    ∃ sk, (s i).round.output.secretKey = some sk ∧ sk.secret = (ids.map fun j => Spec.evalAt (F j) i.val).sum := by
  obtain ⟨h, s, h1, h2, h3⟩ := mixedT_runs
  obtain ⟨F, hF, hr⟩ := C122_result ids (fun _ => ids) mixedT (fun _ => 10) (fun _ => 0) _ s h (fun _ _ => by decide) (fun _ _ _ hj => hj) mixedT_sessions h1 h2
  refine ⟨h, s, F, fun j hj => (hF j hj).1, fun i hi => ⟨h1 i hi, ?_⟩⟩
  obtain ⟨sk, _, g1, _, _, _, _, g2, _⟩ := hr i hi ⟨(h3 i hi).1, (h3 i hi).2.1⟩
  exact ⟨sk, g1, g2⟩

/-- Party 2 knows 1 and 3, which do not know each other. -/
def chain (j : ID) : IDSlice := if j = 1 then [1, 2] else if j = 3 then [2, 3] else [1, 2, 3]

theorem chain_sessions : ∀ j ∈ ids, Keygen.newKeygenState toySha j (chain j) 1 10 0 = .ok (session (chain j) 1 j) := by
  intro j hj
  have : j = 1 ∨ j = 2 ∨ j = 3 := by simpa [ids] using hj
  rcases this with rfl | rfl | rfl <;> exact session_ok (by decide) (by decide) (by decide +kernel)

/-- All three finish without error, with the keys of three different secrets; and whoever finishes is in the other's list. -/
example : ∃ (h : ID → List (Op Toy × Ret Toy)) (s : ID → State Toy (Keygen.Round Toy)) (p : ID → Public Toy),
    (∀ j ∈ ids, Hist (Keygen.impl toySha) (session (chain j) 1 j) (h j) (s j) ∧ (s j).done = true ∧ (s j).err = none ∧
      (s j).round.output.pub = some (p j)) ∧
    (p 1).groupKey = Toy.of 50 ∧ (p 2).groupKey = Toy.of 140 ∧ (p 3).groupKey = Toy.of 130 ∧ (1 : ID) ∈ chain 2 := by
  obtain ⟨h, s, h1, h2, h3⟩ := C122_undetected (sha := toySha) ids chain (fun _ => 1) (fun _ => 10) (fun _ => 0) _ mixedCoins (by decide) (by decide)
    (by decide) (by decide) chain_sessions
  have m1 : (1 : ID) ∈ ids := by decide
  have m2 : (2 : ID) ∈ ids := by decide
  obtain ⟨d1, e1, p1, a1, b1⟩ := h3 1 m1
  obtain ⟨_, _, p2, a2, b2⟩ := h3 2 m2
  obtain ⟨_, _, p3, a3, b3⟩ := h3 3 (by decide)
  refine ⟨h, s, fun j => if j = 1 then p1 else if j = 2 then p2 else p3, ?_, b1.trans (by decide +kernel), b2.trans (by decide +kernel),
    b3.trans (by decide +kernel), ?_⟩
  · intro j hj
    refine ⟨h1 j hj, (h3 j hj).1, (h3 j hj).2.1, ?_⟩
    have : j = 1 ∨ j = 2 ∨ j = 3 := by simpa [ids] using hj
    rcases this with rfl | rfl | rfl
    · exact a1
    · exact a2
    · exact a3
  · exact C122_lists (chain_sessions 1 m1) (chain_sessions 2 m2) (by decide) (by decide) (h1 1 m1) (h1 2 m2) ⟨d1, e1⟩ (by decide) (by decide)
      (h2 1 m1 2 (by decide) (by decide))

end Verif.Cases
