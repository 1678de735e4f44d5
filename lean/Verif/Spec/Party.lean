import Mathlib.Data.List.Basic

/-!
Specifications for party identifiers that mention nothing of the model.
-/

namespace Verif.Spec

/-- Value of a string of decimal digits, most significant first. -/
def decimalValue (s : List UInt8) : Nat := s.foldl (fun acc c => 10 * acc + (c.toNat - '0'.toNat)) 0

/-- A non-empty string of ASCII decimal digits. -/
def IsDecimal (s : List UInt8) : Prop := s ≠ [] ∧ ∀ c ∈ s, '0'.toNat ≤ c.toNat ∧ c.toNat ≤ '9'.toNat

end Verif.Spec
