import Verif.Spec.SignView

/-!
What honest signers say in any number of sessions, made up by somebody who does not know their secret shares but can choose values of the
hash function.
-/

namespace Verif.Spec

variable {G : Type} [RGroup G]

/-- The hash function with the values of the table. -/
def reprogram (sha : Sha512) (table : List (List UInt8 × List UInt8)) (ht : ∀ p ∈ table, p.2.length = 64) : Sha512 where
  sum b := match table.find? fun p => p.1 == b with
    | some p => p.2
    | none => sha.sum b
  length_sum b := by
    split
    · rename_i p hp
      exact ht p (List.mem_of_find?_eq_some hp)
    · exact sha.length_sum b

/-- A signing session as some honest signers see it: who signs what, the commitments of all, and for the honest ones a signature share `z`, a nonce
`e` and a hash value `a`; one more hash value `b`. -/
structure Script (G : Type) where
  ids : List UInt16
  message : List UInt8
  honest : List UInt16
  D : UInt16 → G
  E : UInt16 → G
  z : UInt16 → Scalar
  e : UInt16 → Scalar
  a : UInt16 → List UInt8
  b : List UInt8

namespace Script

/-- What is hashed for the binding factor of signer `j`. -/
def binding (sha : Sha512) (v : Script G) (j : UInt16) : List UInt8 := bindingInput sha j v.message (commitmentList v.ids v.D v.E)

/-- The binding factor of signer `j`: chosen for the honest ones. -/
def factor (sha : Sha512) (v : Script G) (j : UInt16) : Scalar := leValue (if j ∈ v.honest then v.a j else sha.sum (v.binding sha j))

/-- The nonce of the signature. -/
def R (sha : Sha512) (v : Script G) : G := (v.ids.map fun j => v.factor sha j • v.E j + v.D j).sum

/-- The chosen values of the hash function; `A` is the group key. -/
def table (sha : Sha512) (A : G) (v : Script G) : List (List UInt8 × List UInt8) :=
  v.honest.map (fun i => (v.binding sha i, v.a i)) ++ [(challengeInput (v.R sha) A v.message, v.b)]

/-- The commitments of the honest signers are made from the chosen values and their weighted public shares `Y`. -/
def Made (Y : List UInt16 → UInt16 → G) (v : Script G) : Prop :=
  ∀ i ∈ v.honest, v.D i = simulatedD (Y v.ids i) (v.z i) (v.e i) (v.a i) v.b ∧ v.E i = v.e i • RGroup.base

end Script

/-- The places at which values are chosen are different, and none of them is hashed for something else. -/
structure Fresh (sha : Sha512) (A : G) (vs : List (Script G)) : Prop where
  distinct : ((vs.flatMap fun v => v.table sha A).map Prod.fst).Nodup
  message : ∀ v ∈ vs, v.message ∉ (vs.flatMap fun v => v.table sha A).map Prod.fst
  others : ∀ v ∈ vs, ∀ j ∈ v.ids, j ∉ v.honest → v.binding sha j ∉ (vs.flatMap fun v => v.table sha A).map Prod.fst

end Verif.Spec
