import Verif.Spec.SignShare

/-!
What can be computed from three responses of one signer that were made with the same two nonces, for `Props/Reuse`.
-/

namespace Verif.Spec

/-- A response is `d + ρ e + w s`, where `d`, `e` are the nonces, `ρ` is the binding factor, `w` is the challenge times the Lagrange coefficient, and `s` is
the share.  With the same nonces in three responses, `d` and `e` can be eliminated: this is the coefficient of `s` in what remains. -/
def reuseDet (ρ w : Fin 3 → Scalar) : Scalar := (ρ 1 - ρ 0) * (w 2 - w 0) - (ρ 2 - ρ 0) * (w 1 - w 0)

/-- The share, computed from three responses and from what is public. -/
def recoverShare (ρ w z : Fin 3 → Scalar) : Scalar := ((ρ 1 - ρ 0) * (z 2 - z 0) - (ρ 2 - ρ 0) * (z 1 - z 0)) / reuseDet ρ w

/-- `w`: the challenge times the Lagrange coefficient of the signer. -/
def shareFactor {G : Type} [RGroup G] (sha : Sha512) (ids : List UInt16) (message : List UInt8) (Y : G) (D E : UInt16 → G) (i : UInt16) : Scalar :=
  chal sha ids message Y D E * weight i ids

end Verif.Spec
