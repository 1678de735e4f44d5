import Verif.Props.NilPayload
import Verif.Props.Demo

/-!
The theorems of `Props/NilPayload` applied to messages with no, one and two pointers set.
-/

namespace Verif.Cases

open Verif Props Props.Demo

/-- A message from 2 with the given payload. -/
def rawFrom2 (p : Option Schnorr) (c : Option (Exponent Toy)) : Raw.Message Toy := { header := ⟨MsgType.keyGen1, 2, 0⟩, keyGen1 := some ⟨p, c⟩ }

example : Spec.HalfEmpty (rawFrom2 none (some [Toy.of 5])) ∧ Spec.HalfEmpty (rawFrom2 (some ⟨0, 1⟩) none) ∧ ¬ Spec.HalfEmpty (rawFrom2 (some ⟨0, 1⟩) (some [Toy.of 5])) :=
  ⟨⟨_, rfl, Or.inl rfl⟩, ⟨_, rfl, Or.inr rfl⟩, fun ⟨k, h, h'⟩ => by cases h; simp at h'⟩

/-- A session crashes on it. -/
example (r : Keygen.Round Toy) : Raw.process1 toySha r (some (rawFrom2 none (some [Toy.of 5]))) = .panic := (C129_session _ _ _).2 ⟨_, rfl, Or.inl rfl⟩

/-- A nil proof is enough for `MarshalBinary` to panic, and for `Equal`, but not for `Size`. -/
example : (rawFrom2 none (some [Toy.of 5])).marshalBinary = .panic ∧ (rawFrom2 none (some [Toy.of 5])).size = .ok 103 ∧
    (rawFrom2 none (some [Toy.of 5])).equal (rawFrom2 (some ⟨0, 1⟩) none) = .panic :=
  ⟨(C129_marshal_panics_iff _).mpr ⟨rfl, _, rfl, Or.inr ⟨rfl, by decide, rfl⟩⟩, rfl, (C129_equal_panics_iff _ _).mpr ⟨rfl, rfl, _, _, rfl, rfl, Or.inl rfl⟩⟩

/-- With different proofs the commitments are not looked at. -/
example : (rawFrom2 (some ⟨0, 1⟩) none).equal (rawFrom2 (some ⟨0, 2⟩) none) = .ok false := by decide +kernel

/-- A complete one is encoded as in `Model/Messages`. -/
example : (rawFrom2 (some ⟨0, 1⟩) (some [Toy.of 5])).marshalBinary = (Message.newKeyGen1 2 ⟨0, 1⟩ [Toy.of 5]).marshalBinary :=
  (C129_complete _ _ (fun ⟨k, h, h'⟩ => by cases h; simp at h') (fun ⟨k, h, h'⟩ => by cases h; simp at h' : ¬ Spec.HalfEmpty (rawFrom2 (some ⟨0, 1⟩) (some [Toy.of 5]))) []).2.2.1

/-- A message of another type with such a payload is not affected. -/
example : ({ header := ⟨MsgType.sign2, 2, 0⟩, keyGen1 := some ⟨none, none⟩, sign2 := some ⟨7⟩ } : Raw.Message Toy).marshalBinary = (Message.newSign2 2 7 : Message Toy).marshalBinary :=
  (C129_methods_other _ (by decide)).2

example := C129_main_model (Message.newKeyGen1 2 ⟨0, 1⟩ [Toy.of 5]) (Message.newSign2 2 7) [1, 2]

example : (rawFrom2 none (some [Toy.of 5])).value = ⟨⟨MsgType.keyGen1, 2, 0⟩, none, none, none, none⟩ := C129_left_out _ ⟨_, rfl, Or.inl rfl⟩

example := C129_methods_refuted (G := Toy) 2 none

end Verif.Cases
