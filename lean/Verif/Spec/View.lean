import Mathlib.LinearAlgebra.Lagrange
import Verif.Model.Keygen
import Verif.Lemmas.Party

/-!
What a coalition `T` sees of an honest party's key generation, and a stand-in that makes it without the party's secret.

None of this is code of the repository: it is the specification of what the messages may depend on.
-/

namespace Verif.Spec

open Polynomial

variable {G : Type} [RGroup G]

/-- The points `0` and the IDs of `T`, as scalars. -/
def nodes (T : List ID) : Finset Scalar := insert 0 (T.map ID.val).toFinset

/-- The commitments of degree `t` determined by the public key `A₀` and the shares `x` of the parties in `T`: Lagrange interpolation,
on points.  It is linear in `A₀` and in the shares. -/
noncomputable def commitmentsFrom (t : Nat) (T : List ID) (A₀ : G) (x : ID → Scalar) : List G :=
  (List.range (t + 1)).map fun k =>
    (Lagrange.basis (nodes T) id 0).coeff k • A₀ + (T.map fun j => ((Lagrange.basis (nodes T) id j.val).coeff k * x j) • (base : G)).sum

/-- The messages that the parties in `T` get to see: the broadcasts and what is addressed to them. -/
def sees (T : List ID) (m : Message G) : Bool := decide (m.header.toID = 0 ∨ m.header.toID ∈ T)

/-- What the stand-in is given: the public key of the contribution, the random nonce of the proof, and one scalar per member of `T`. -/
structure Given (G : Type) where
  key : G
  nonce : Scalar
  share : ID → Scalar

/-- The stand-in: it keeps no polynomial and no share, and sends to the members of `T` the scalars it was given. -/
noncomputable def standIn (sha : Sha512) (T : List ID) (v : Given G) : RoundImpl G (Keygen.Round G) :=
  { Keygen.impl sha with
    generateMessages := fun _ _ r => match r.stage with
      | .r0 =>
        let com := commitmentsFrom r.threshold.toNat T v.key v.share
        .ok ({ r with polynomial := some [], commitmentsSum := some com }, [Message.newKeyGen1 r.selfID ⟨0, v.nonce⟩ com])
      | .r1 => .ok (r, (r.partyIDs.filter fun id => id ≠ r.selfID ∧ id ∈ T).map fun id => Message.newKeyGen2 r.selfID id (v.share id))
      | .r2 => Keygen.generate2 r }

end Verif.Spec
