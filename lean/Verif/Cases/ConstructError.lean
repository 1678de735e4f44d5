import Verif.Props.ConstructError
import Verif.Props.Demo

/-!
Cases for C127.
-/

namespace Verif.Cases

open Verif Verif.Props Verif.Props.Demo

/-- The shares of three parties. -/
def cePublic : GoMap (Option Toy) := [(1, some (Toy.of 45)), (2, some (Toy.of 69)), (3, some (Toy.of 93))]

/-- A threshold of 3 for 3 participants, a caller who is not among them, and a threshold of 0. -/
example (lib : Bytes) :
    Props.Spec.Refuses lib (Keygen.newKeygenStateE toySha 1 [1, 2, 3] 3 10 0 : Outcome ErrVal (State Toy (Keygen.Round Toy)))
      "threshold must be at most N-1, or a maximum of T+1=N signers" ∧
    Props.Spec.Refuses lib (Keygen.newKeygenStateE toySha 7 [1, 2, 3] 2 10 0 : Outcome ErrVal (State Toy (Keygen.Round Toy)))
      "PartyIDs should contain selfID" ∧
    Props.Spec.Refuses lib (Keygen.newKeygenStateE toySha 7 [1, 2, 3] 0 10 0 : Outcome ErrVal (State Toy (Keygen.Round Toy)))
      "threshold must be at least 1, or a minimum of T+1=2 signers" :=
  ⟨(C127_keygen lib 1 [1, 2, 3] 3 10 0 (by decide) (by decide) (by decide)).2.1.mpr (by decide),
    (C127_keygen lib 7 [1, 2, 3] 2 10 0 (by decide) (by decide) (by decide)).2.2.1.mpr (by decide),
    (C127_keygen lib 7 [1, 2, 3] 0 10 0 (by decide) (by decide) (by decide)).1.mpr (by decide)⟩

/-- A caller who is not a signer, a signer without a share. -/
example (lib : Bytes) :
    Props.Spec.Refuses lib (Sign.newSignStateE toySha [2, 3] ⟨1, 45, Toy.of 45⟩ key [1, 2, 3] 10 0)
      "base.NewRound: owner of SecretShare is not contained in partyIDs" ∧
    Props.Spec.Refuses lib (Sign.newSignStateE toySha [1, 9] ⟨1, 45, Toy.of 45⟩ key [1, 2, 3] 10 0)
      "base.NewRound: not all parties of partyIDs are contained in shares" :=
  ⟨(C127_sign lib [2, 3] ⟨1, 45, Toy.of 45⟩ key [1, 2, 3] 10 0 (by decide) (by decide +kernel)).1.mpr (by decide),
    (C127_sign lib [1, 9] ⟨1, 45, Toy.of 45⟩ key [1, 2, 3] 10 0 (by decide) (by decide +kernel)).2.1.mpr (by decide +kernel)⟩

/-- A key with a share for the ID 0 that was not made by `NewPublic`. -/
example (lib : Bytes) :
    Props.Spec.Refuses lib (Sign.newSignStateE toySha [0, 1] ⟨1, 45, Toy.of 45⟩ { key with partyIDs := [0, 1, 2] } [1, 2, 3] 10 0)
      "base.NewRound: id 0 is not valid" :=
  (C127_sign lib [0, 1] ⟨1, 45, Toy.of 45⟩ { key with partyIDs := [0, 1, 2] } [1, 2, 3] 10 0 (by decide) (by decide)).2.2.mpr
    (by decide +kernel)

/-- The hypotheses of the theorems on `NewPublic`. -/
example : cePublic.WF ∧ (0 : ID) ∉ cePublic.keys ∧ (∀ i ∈ cePublic.keys, cePublic.get? i ≠ some none) ∧ (2 : UInt16).toNat + 1 = cePublic.length ∧
    ∃ p, newPublic MapOrder.insertion cePublic 2 = .ok p :=
  ⟨by unfold GoMap.WF GoMap.keys; decide, by decide, by decide +kernel, by decide,
    (C54_newPublic_iff_partial _ _ (by unfold GoMap.WF GoMap.keys; decide) 2 (by decide)).mpr ⟨by decide, by decide +kernel, by decide⟩⟩

/-- The key is refused with a threshold of 3. -/
example (lib : Bytes) : Props.Spec.Refuses lib (newPublicE MapOrder.insertion cePublic 3) "PublicShares: Threshold should be < N - 1" :=
  (C127_public lib _ _ (by unfold GoMap.WF GoMap.keys; decide) 3 (by decide) (by decide) (by decide +kernel)).mpr (by decide)

/-- The shares with a group key that is not theirs. -/
example (lib : Bytes) : Props.Spec.Refuses lib (Public.unmarshalJSONE MapOrder.insertion ⟨2, some (Toy.of 5), cePublic⟩)
    "PublicShares: inconsistent group key" := by
  obtain ⟨p, hp⟩ := (C54_newPublic_iff_partial MapOrder.insertion cePublic (by unfold GoMap.WF GoMap.keys; decide) 2 (by decide)).mpr
    ⟨by decide, by decide +kernel, by decide⟩
  refine (C127_json lib _ _).mpr ⟨p, _, hp, rfl, ?_⟩
  have h : (newPublic MapOrder.insertion cePublic 2).bind (fun p => .ok (decide (Toy.of 5 = p.groupKey))) = .ok false := by decide +kernel
  rw [hp] at h
  have : decide (Toy.of 5 = p.groupKey) = false := Outcome.ok.inj h
  exact of_decide_eq_false this

end Verif.Cases
