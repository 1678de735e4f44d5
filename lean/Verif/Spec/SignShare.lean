import Verif.Spec.Sign
import Verif.Spec.Weight
import Verif.Props.Eddsa

/-!
The formulas of the signing protocol of the FROST paper (figure 3), for signers `ids` whose commitments are `D` and `E`.
-/

namespace Verif.Spec

variable {G : Type} [RGroup G]

/-- `ρᵢ = H₁(i, m, B)`. -/
def rho (sha : Sha512) (ids : List UInt16) (message : List UInt8) (D E : UInt16 → G) (i : UInt16) : Scalar :=
  bindingFactor sha i message (commitmentList ids D E)

/-- `Rᵢ = Dᵢ + [ρᵢ]Eᵢ`. -/
def nonce (sha : Sha512) (ids : List UInt16) (message : List UInt8) (D E : UInt16 → G) (i : UInt16) : G :=
  rho sha ids message D E i • E i + D i

/-- `R = ∑ Rᵢ`. -/
def groupNonce (sha : Sha512) (ids : List UInt16) (message : List UInt8) (D E : UInt16 → G) : G :=
  (ids.map fun i => nonce sha ids message D E i).sum

/-- `c = H₂(R, Y, m)`, for Ed25519. -/
def chal (sha : Sha512) (ids : List UInt16) (message : List UInt8) (Y : G) (D E : UInt16 → G) : Scalar :=
  Props.Spec.challenge sha (groupNonce sha ids message D E) Y message

/-- `zᵢ = dᵢ + eᵢ ρᵢ + (λᵢ sᵢ) c`, with `share = λᵢ sᵢ`. -/
def respond (sha : Sha512) (ids : List UInt16) (message : List UInt8) (Y : G) (D E : UInt16 → G) (i : UInt16) (d e share : Scalar) :
    Scalar :=
  e * rho sha ids message D E i + share * chal sha ids message Y D E + d

end Verif.Spec
