import Verif.Spec.Life
import Verif.Spec.Random

/-!
Somebody who wants to forge a signature, in the random oracle model.
-/

namespace Verif.Spec

variable {G : Type} [RGroup G]

/-- The first `j` values of `h` and the others of `h'`. -/
def splice {N : Nat} {B : Type} (j : Fin N) (h h' : Fin N → B) : Fin N → B := fun k => if k < j then h k else h' k

/-- An algorithm that asks for values of the hash function, and then says a message and a signature.  What it asks and says depends on the answers. -/
structure Forger (G : Type) where
  ask : List (List UInt8) → List UInt8
  say : List (List UInt8) → List UInt8 × Signature G

namespace Forger

/-- The next string that is hashed: `n` times what the algorithm asks, then what the verifier hashes. -/
def query (F : Forger G) (A : G) (n : Nat) (answers : List (List UInt8)) : List UInt8 :=
  if answers.length < n then F.ask answers else challengeInput (F.say answers).2.R A (F.say answers).1

/-- One more question, with the answer `b` if it was not asked before. -/
def step (F : Forger G) (A : G) (n : Nat) (t : List (List UInt8 × List UInt8)) (b : Block) : List (List UInt8 × List UInt8) :=
  t ++ [(F.query A n (t.map Prod.snd), match t.find? fun p => p.1 == F.query A n (t.map Prod.snd) with
    | some p => p.2
    | none => b.1)]

/-- The questions and answers when new strings get the values `bs`, one after the other. -/
def asked (F : Forger G) (A : G) (n : Nat) (bs : List Block) : List (List UInt8 × List UInt8) := bs.foldl (F.step A n) []

/-- The message and the signature. -/
def said (F : Forger G) (A : G) (n : Nat) (h : Fin (n + 1) → Block) : List UInt8 × Signature G :=
  F.say ((F.asked A n ((List.ofFn h).take n)).map Prod.snd)

/-- What is hashed to verify the signature. -/
def verified (F : Forger G) (A : G) (n : Nat) (h : Fin (n + 1) → Block) : List UInt8 := challengeInput (F.said A n h).2.R A (F.said A n h).1

/-- When that was asked first. -/
def place (F : Forger G) (A : G) (n : Nat) (h : Fin (n + 1) → Block) : Fin (n + 1) :=
  ⟨min ((F.asked A n (List.ofFn h)).findIdx fun p => p.1 == F.verified A n h) n, Nat.lt_succ_of_le (Nat.min_le_right ..)⟩

/-- A second run gets the answers `h'` from that place on; the quotient of the differences of the signatures and of the challenges. -/
def extract (F : Forger G) (A : G) (n : Nat) (h h' : Fin (n + 1) → Block) : Scalar :=
  ((F.said A n h).2.S - (F.said A n (splice (F.place A n h) h h')).2.S) / (scalarOf (h (F.place A n h)) - scalarOf (h' (F.place A n h)))

end Forger

end Verif.Spec
