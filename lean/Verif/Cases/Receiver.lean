import Verif.Props.Receiver

/-!
The theorems of `Props/Receiver` about failed decoding, applied to bytes that are refused in their second half.
-/

namespace Verif.Cases

open Verif Verif.Props Verif.Method

/-- 32 bytes that are no scalar. -/
abbrev ff : Bytes := List.replicate 32 0xff

theorem ff_scalar : Scalar.setCanonicalBytes ff = none := by decide +kernel

/-- `C87_signature_mixed` gives a failed decoding, to which `C87_signature_left` applies. -/
theorem sig_mixed : Signature.unmarshalInto (RGroup.bytes (Toy.of 4) ++ ff) (⟨Toy.of 1, 2⟩ : Signature Toy) = (⟨Toy.of 4, 2⟩, .err .nonCanonical) :=
  C87_signature_mixed (Toy.of 4) ff (by decide) ff_scalar ⟨Toy.of 1, 2⟩

example := C87_signature_mixed (Toy.of 4) ff (by decide) ff_scalar ⟨Toy.of 1, 2⟩

example := C87_signature_left _ _ _ _ sig_mixed

/-- Too few bytes. -/
example := C87_signature_left (G := Toy) [1, 2, 3] ⟨Toy.of 1, 2⟩ ⟨Toy.of 1, 2⟩ .tooShort rfl

theorem schnorr_mixed : Schnorr.unmarshalInto (Scalar.bytes 5 ++ ff) ⟨1, 2⟩ = (⟨5, 2⟩, .err .nonCanonical) := by decide +kernel

example := C87_schnorr_left _ _ _ _ schnorr_mixed

theorem sign1_mixed : Sign1.unmarshalInto (RGroup.bytes (Toy.of 4) ++ ff) (⟨Toy.of 1, Toy.of 2⟩ : Sign1 Toy) = (⟨Toy.of 4, Toy.of 2⟩, .err .nonCanonical) := by
  decide +kernel

example := C87_sign1_left _ _ _ _ sign1_mixed

theorem share_mixed : SecretShare.unmarshalInto (ID.bytes 7 ++ ff) (⟨3, 5, base⟩ : SecretShare Toy) = (⟨7, 5, base⟩, .err .nonCanonical) :=
  C87_share_mixed 7 ff (by decide) ff_scalar ⟨3, 5, base⟩

example := C87_share_mixed 7 ff (by decide) ff_scalar (⟨3, 5, base⟩ : SecretShare Toy)

example := C87_share_left _ _ _ _ share_mixed

/-- The text `null`. -/
theorem share_null : SecretShare.readInto [110, 117, 108, 108] (⟨3, 5, base⟩ : SecretShare Toy) = (⟨0, 5, base⟩, .err .nonCanonical) := by
  have h : Json.parse [110, 117, 108, 108] = some .null := by rfl
  unfold SecretShare.readInto
  rw [h]
  rfl

example := C87_shareJSON_left _ _ _ _ share_null

/-- A polynomial of degree 1 whose second point is refused. -/
abbrev badExponent : Bytes := ID.bytes 1 ++ (RGroup.bytes (Toy.of 4) ++ ff)

theorem exponent_mixed : Exponent.unmarshalInto badExponent [some (Toy.of 9)] = ([some (Toy.of 4), none], .err .nonCanonical) := by decide +kernel

example := C87_exponent_left _ _ _ _ exponent_mixed

example : Exponent.ptrBytesAppend [some (Toy.of 4), none] [] = .panic :=
  (C87_exponent_unusable _ _ _ _ exponent_mixed []).resolve_left (by decide)

theorem keygen1_mixed :
    (KeyGen1.unmarshalInto (Scalar.bytes 5 ++ Scalar.bytes 6 ++ badExponent) (⟨some ⟨1, 2⟩, some [some (Toy.of 9)]⟩ : KeyGen1.Ptrs Toy)).2 =
      .err .nonCanonical := by decide +kernel

example := C87_keygen1_left _ _ _ _ (Prod.ext (y := (_, _)) rfl keygen1_mixed)

end Verif.Cases
