import Verif.Model.Group

/-!
Interpolation at zero, as in the FROST paper: the weight of a party among others, and the value at zero given by the values of the
parties.
-/

namespace Verif.Spec

/-- `λᵢ = ∏ j / (j - i)` over the other parties `j`. -/
def weight (i : UInt16) (ids : List UInt16) : Scalar :=
  ((ids.filter (· ≠ i)).map fun j => (j.toNat : Scalar) / ((j.toNat : Scalar) - (i.toNat : Scalar))).prod

/-- `∑ λᵢ Xᵢ` for the parties and values of a table. -/
def interpolate {G : Type} [RGroup G] (m : List (UInt16 × G)) : G := (m.map fun e => weight e.1 (m.map Prod.fst) • e.2).sum

end Verif.Spec
