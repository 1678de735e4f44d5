import Verif.Props.Eddsa
import Verif.Props.Schnorr

/-!
The theorems of `Props/Eddsa` and `Props/Schnorr` that have hypotheses, applied to concrete keys and proofs.
-/

namespace Verif.Cases

open Verif Verif.Props

instance {V : Type} (m : GoMap V) : Decidable m.WF := inferInstanceAs (Decidable m.keys.Nodup)

/-! ### Dealt keys -/

example := C14_any_subset_reconstructs (G := Toy) [4, 1, 9] (by decide) (by decide) 1 (by decide) (fun i => i + 3)

example := C14_public_consistent (G := Toy) MapOrder.insertion [4, 1, 9] (by decide) (by decide) 1 (by decide) (fun i => i + 3)

example : (generateSecrets [4, 1, 9] 3 (fun i => i + 3) : GoRes (Scalar × GoMap (SecretShare Toy))) = .panic :=
  C14_threshold_too_large_panics [4, 1, 9] (by decide) (by decide) 3 (by decide) _

/-- With this hash function every challenge is the same, so the signature is good for every message. -/
example : PublicKey.verify toySha (Toy.of 7) [9] ⟨Toy.of 10, 10 + 5 * 7⟩ = .ok true :=
  (C50_message_bound toySha (Toy.of 7) (by decide) [1, 2, 3] [9] ⟨Toy.of 10, 10 + 5 * 7⟩ (by decide +kernel)).mpr rfl

/-! ### Secret shares -/

/-- A share as bytes. -/
abbrev shareBytes : Bytes := SecretShare.marshalBinary (SecretShare.new 258 77 : SecretShare Toy)

example : shareBytes.length = 34 ∧ SecretShare.marshalBinary (SecretShare.new 258 77 : SecretShare Toy) = shareBytes ∧
    (SecretShare.new 258 77 : SecretShare Toy).pub = (77 : Scalar) • base :=
  C52_strict shareBytes (SecretShare.new 258 77) (C52_roundtrip_new 258 77)

example := C53_json_id_kept_partial (G := Toy) (SecretShare.marshalJSON (SecretShare.new 258 77 : SecretShare Toy)) _ (C53_json_roundtrip 258 77) (by decide)

/-! ### Public data -/

/-- Two public shares. -/
abbrev two : GoMap Toy := [((7 : ID), Toy.of 3), (2, Toy.of 4)]

theorem two_public : ∃ p, newPublic MapOrder.insertion (two.map fun e => (e.1, some e.2)) 1 = .ok p :=
  (C54_newPublic_iff_partial MapOrder.insertion _ (by decide) 1 (by decide)).mpr (by decide)

example : ∃ p : Public Toy, p.partyIDs.Pairwise (· < ·) ∧ (∀ id, id ∈ p.partyIDs ↔ ∃ g, two.get? id = some g) ∧ p.threshold = 1 ∧ p.shares = two ∧
    p.groupKey = Spec.interpolate two :=
  let ⟨p, h⟩ := two_public
  ⟨p, C54_newPublic_result MapOrder.insertion two (by decide) 1 p h⟩

example : newPublic MapOrder.insertion [((7 : ID), some (Toy.of 3)), (2, none)] 1 = .panic :=
  (C54_newPublic_panics_iff MapOrder.insertion _ (by decide) 1).mpr (Or.inr ⟨2, by decide, by decide⟩)

example : newPublic MapOrder.insertion [((7 : ID), some (Toy.of 3)), (0, some (Toy.of 4))] 1 = .panic :=
  (C54_newPublic_panics_iff MapOrder.insertion _ (by decide) 1).mpr (Or.inl (by decide))

example : Public.unmarshalJSON MapOrder.insertion (Public.marshalJSON ⟨IDSlice.new two.keys, 1, two, Spec.interpolate two⟩) =
    .ok ⟨IDSlice.new two.keys, 1, two, Spec.interpolate two⟩ :=
  C55_roundtrip_consistent MapOrder.insertion ⟨IDSlice.new two.keys, 1, two, Spec.interpolate two⟩ (by decide) (by decide) rfl (by decide) rfl

example (ord' : MapOrder) : ∃ p : Public Toy, p.shares = two ∧ Public.unmarshalJSON ord' (Public.marshalJSON p) = .ok p :=
  let ⟨p, h⟩ := two_public
  ⟨p, (C54_newPublic_result MapOrder.insertion two (by decide) 1 p h).2.2.2.1,
    C55_roundtrip_newPublic MapOrder.insertion ord' two (by decide) 1 (by decide) p h⟩

/-- The accepted case of `C55_inconsistent_refused`, and its use on data with a wrong key. -/
example (p : Public Toy) (h : Public.unmarshalJSON MapOrder.insertion ⟨1, some (Spec.interpolate two + Toy.of 1), two.map fun e => (e.1, some e.2)⟩ = .ok p) :
    False := by
  have := (C55_inconsistent_refused MapOrder.insertion _ two (by decide) rfl (Spec.interpolate two + Toy.of 1) rfl p h).1
  exact absurd (left_eq_add.mp this.symm) (by decide)

example : ∃ p : Public Toy, p.groupKey = Spec.interpolate two := by
  have h := C55_roundtrip_consistent MapOrder.insertion ⟨IDSlice.new two.keys, 1, two, Spec.interpolate two⟩ (by decide) (by decide) rfl (by decide) rfl
  exact ⟨_, (C55_inconsistent_refused MapOrder.insertion _ two (by decide) rfl (Spec.interpolate two) rfl _ h).2.1⟩

example : Public.unmarshalJSON MapOrder.insertion ⟨1, none, two.map fun e => (e.1, some e.2)⟩ = .panic :=
  C55_nil_groupKey_panics MapOrder.insertion two (by decide) (by decide) 1 (by decide) (by decide)

example := C55_threshold_truncated MapOrder.insertion two (by decide) (by decide) (by decide)

example := C55_equal_iff (⟨IDSlice.new two.keys, 1, two, Spec.interpolate two⟩ : Public Toy) ⟨IDSlice.new two.keys, 0, two, Toy.of 5⟩ (by decide) (by decide) rfl rfl

/-! ### Signatures and proofs -/

example : (Signature.marshalBinary (⟨Toy.of 7, 9⟩ : Signature Toy)).length = 64 :=
  (C56_strict _ ⟨Toy.of 7, 9⟩ (C56_roundtrip (⟨Toy.of 7, 9⟩ : Signature Toy)).1).1

/-- A context of the length the keygen protocol uses. -/
abbrev ctx : Bytes := List.replicate 32 7

example := C16_honest_verifies (G := Toy) toySha 3 ctx (by decide) 55 66

example : Schnorr.verify toySha ⟨0, 66⟩ 3 (Toy.of 5) ctx = .ok true := C17_verify_exact_partial toySha ⟨0, 66⟩ 3 (Toy.of 5) ctx (by decide)

example : Schnorr.verify toySha ⟨1, 66⟩ 3 (Toy.of 5) ctx = .ok false := C17_verify_exact_partial toySha ⟨1, 66⟩ 3 (Toy.of 5) ctx (by decide)

example : Schnorr.verify toySha ⟨0, 66⟩ 8 (Toy.of 5) (7 :: ctx) = .ok true :=
  C17_proof_transfers toySha 3 8 ctx (7 :: ctx) (by decide) (by decide) 55 66 (Toy.of 5) ⟨0, 66⟩
    (C17_nonce_in_clear toySha 3 ctx (by decide) ((55 : Scalar) • (base : Toy)) 55 66)

example : Schnorr.verify toySha ⟨4, 99⟩ 3 (Toy.of 5) ctx = Schnorr.verify toySha ⟨4, 66⟩ 3 (Toy.of 5) ctx :=
  C17_response_unused toySha ⟨4, 66⟩ 99 3 (Toy.of 5) ctx (by decide)

example := C17_short_context_panics toySha ⟨4, 66⟩ 3 (Toy.of 5) (List.replicate 31 7) (by decide) 55 66

end Verif.Cases
