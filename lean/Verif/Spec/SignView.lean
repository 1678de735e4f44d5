import Verif.Spec.SignShare

/-!
What a signer says in a session, made up by somebody who does not know its secret share but can choose two values of the hash function.
-/

namespace Verif.Spec

variable {G : Type} [RGroup G]

/-- The hash function with the value at `p` replaced. -/
def program (sha : Sha512) (p a : List UInt8) (ha : a.length = 64) : Sha512 where
  sum b := if b = p then a else sha.sum b
  length_sum b := by split <;> simp [ha, sha.length_sum]

/-- The signers' commitments, and a hash function. -/
structure Simulated (G : Type) where
  D : UInt16 → G
  E : UInt16 → G
  sha : Sha512

/-- The commitment `D = [z]B - [ρ][e]B - [c]Y` that goes with a signature share `z`, a nonce `e`, and hash values `a` and `b` read as the
binding factor `ρ` and the challenge `c`.  `Y` is the weighted public share. -/
def simulatedD (Y : G) (z e : Scalar) (a b : List UInt8) : G :=
  z • RGroup.base - (leValue a : Scalar) • e • RGroup.base - (leValue b : Scalar) • Y

/-- The commitments of all when signer `i` says `simulatedD` and `[e]B`, and the others answer to that. -/
def simulatedAll (i : UInt16) (D E : G) (others : G → G → UInt16 → G × G) : (UInt16 → G) × (UInt16 → G) :=
  (Function.update (fun j => (others D E j).1) i D, Function.update (fun j => (others D E j).2) i E)

/-- What is hashed for the challenge: `R ∥ A ∥ m`. -/
def challengeInput (R A : G) (message : List UInt8) : List UInt8 := RGroup.bytesEd25519 R ++ RGroup.bytesEd25519 A ++ message

/-- The hash function changed so that the binding factor of signer `i` is `a`. -/
def programmed₁ (sha : Sha512) (ids : List UInt16) (message : List UInt8) (i : UInt16) (D E : UInt16 → G) (a : List UInt8) (ha : a.length = 64) : Sha512 :=
  program sha (bindingInput sha i message (commitmentList ids D E)) a ha

/-- And so that the challenge is `b`. -/
def programmed (sha : Sha512) (ids : List UInt16) (message : List UInt8) (A : G) (i : UInt16) (D E : UInt16 → G) (a b : List UInt8) (ha : a.length = 64)
    (hb : b.length = 64) : Sha512 :=
  let sha₁ := programmed₁ sha ids message i D E a ha
  program sha₁ (challengeInput (groupNonce sha₁ ids message D E) A message) b hb

/-- The whole of it, from public data. -/
def simulate (sha : Sha512) (ids : List UInt16) (message : List UInt8) (A : G) (i : UInt16) (Y : G) (others : G → G → UInt16 → G × G) (z e : Scalar)
    (a b : List UInt8) (ha : a.length = 64) (hb : b.length = 64) : Simulated G :=
  let C := simulatedAll i (simulatedD Y z e a b) (e • RGroup.base) others
  ⟨C.1, C.2, programmed sha ids message A i C.1 C.2 a b ha hb⟩

end Verif.Spec
