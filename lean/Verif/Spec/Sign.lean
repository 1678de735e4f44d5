import Verif.Model.Group
import Verif.Spec.Bytes
import Verif.Spec.Messages

/-!
The binding factors of the FROST paper, as documented in pkg/frost/sign/round1.go.
-/

namespace Verif.Spec

variable {G : Type} [RGroup G]

/-- The list `B`: `(j ∥ Dⱼ ∥ Eⱼ)` for all signers in order. -/
def commitmentList (ids : List UInt16) (D E : UInt16 → G) : List UInt8 :=
  ids.flatMap fun j => be2 j ++ RGroup.bytes (D j) ++ RGroup.bytes (E j)

/-- The bytes hashed for the binding factor of signer `i`: `"FROST-SHA512" ∥ i ∥ SHA-512(Message) ∥ B`. -/
def bindingInput (sha : Sha512) (i : UInt16) (message : List UInt8) (B : List UInt8) : List UInt8 :=
  "FROST-SHA512".toList.map (fun c => UInt8.ofNat c.toNat) ++ be2 i ++ sha.sum message ++ B

/-- `ρᵢ`: the hash read as a little-endian number, modulo the group order. -/
def bindingFactor (sha : Sha512) (i : UInt16) (message : List UInt8) (B : List UInt8) : Scalar :=
  (leValue (sha.sum (bindingInput sha i message B)) : Scalar)

end Verif.Spec
