/-!
Which headers the wire format allows, from the comments of `pkg/messages/header.go` and `messages.go`.
-/

namespace Verif.Spec

/-- Types 1 (KeyGen1), 3 (Sign1) and 4 (Sign2) are broadcast, type 2 (KeyGen2) has a destination, the sender is never 0. -/
def ValidHeader (type : UInt8) (sender dest : UInt16) : Prop :=
  sender ≠ 0 ∧ ((type = 1 ∨ type = 3 ∨ type = 4) ∧ dest = 0 ∨ type = 2 ∧ dest ≠ 0)

instance (t : UInt8) (s d : UInt16) : Decidable (ValidHeader t s d) := by unfold ValidHeader; infer_instance

/-- Two bytes, most significant first. -/
def be2 (x : UInt16) : List UInt8 := [UInt8.ofNat (x.toNat / 256), UInt8.ofNat x.toNat]

/-- The five header bytes. -/
def headerBytes (type : UInt8) (sender dest : UInt16) : List UInt8 := type :: (be2 sender ++ be2 dest)

end Verif.Spec
