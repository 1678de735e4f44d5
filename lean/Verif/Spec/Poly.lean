import Mathlib.Algebra.BigOperators.Group.Finset.Basic
import Mathlib.Algebra.Module.Defs
import Mathlib.Algebra.Polynomial.Basic
import Mathlib.Algebra.Polynomial.Eval.Coeff

/-!
Polynomial evaluation from the textbook definition.
-/

namespace Verif.Spec

/-- `∑ xⁱ • cᵢ`: the value at `x` of the polynomial with coefficients `c`, lowest first. -/
def evalAt {F M : Type} [Semiring F] [AddCommMonoid M] [Module F M] (c : List M) (x : F) : M :=
  ∑ i ∈ Finset.range c.length, x ^ i • c.getD i 0

open Polynomial in
/-- The polynomial with the given coefficients, lowest first. -/
noncomputable def toPoly {F : Type} [Semiring F] (c : List F) : F[X] :=
  ∑ i ∈ Finset.range c.length, C (c.getD i 0) * X ^ i

end Verif.Spec
