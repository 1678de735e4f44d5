import Verif.Model.Print
import Verif.Spec.JsonText

/-!
What a reader sees in the output of `cmd/keygen` and `cmd/signer`.
-/

namespace Verif.Spec

open Verif
open Verif.Json (Value)

/-- A lower case hexadecimal digit of value `v`. -/
def HexDigit (c : UInt8) (v : Nat) : Prop :=
  (v < 10 ∧ c.toNat = '0'.toNat + v) ∨ (10 ≤ v ∧ v < 16 ∧ c.toNat = 'a'.toNat + (v - 10))

/-- Bytes in hexadecimal: two digits for each of them, the higher one first. -/
inductive HexOf : Bytes → Bytes → Prop
  | nil : HexOf [] []
  | cons {h l a b c hs cs} : HexDigit h a → HexDigit l b → c.toNat = 16 * a + b → HexOf hs cs → HexOf (h :: l :: hs) (c :: cs)

/-- Ways to write natural numbers in decimal without leading zeros, and bytes in hexadecimal. -/
structure Print where
  num : Nat → Bytes
  num_is : ∀ n, Json.IntPart (num n) ∧ IsDecimal (num n) ∧ decimalValue (num n) = n
  hex : Bytes → Bytes
  hex_is : ∀ b, HexOf (hex b) b

/-- The output is these bytes. -/
def Shows (out : List Cmd.Piece) (b : Bytes) : Prop := ∃ bs : List Bytes, out = bs.map Cmd.Piece.text ∧ bs.flatten = b

end Verif.Spec
