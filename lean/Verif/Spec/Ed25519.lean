import Verif.Curve.Point
import Verif.Model.Group

/-!
Ed25519 signatures as RFC 8032 defines them (sections 5.1.3 and 5.1.7), on the curve, independently of the code.
-/

namespace Verif.Spec.Ed25519

open Verif Verif.Curve

/-- Section 5.1.3: the 32 bytes are `y < p` in little-endian order, with the low bit of `x` in the top bit. -/
def Decodes (b : Bytes) (A : E) : Prop :=
  b.length = 32 ∧ leNat b = A.y.val + 2 ^ 255 * (A.x.val % 2)

/-- Section 5.1.7, with the group equation multiplied by `cofactor`: the RFC has `[8][S]B = [8]R + [8][k]A` and allows the
stronger check without the cofactor. -/
def Accepts (cofactor : ℕ) (sha512 : Bytes → Bytes) (publicKey message sig : Bytes) : Prop :=
  sig.length = 64 ∧ ∃ A R : E, Decodes publicKey A ∧ Decodes (sig.take 32) R ∧ leNat (sig.drop 32) < q ∧
    cofactor • (leNat (sig.drop 32) • B) = cofactor • R + cofactor • (leNat (sha512 (sig.take 32 ++ publicKey ++ message)) • A)

end Verif.Spec.Ed25519
