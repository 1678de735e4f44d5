import Verif.Spec.Party

/-!
What the text of an error says, as a reader takes it who knows nothing of the model.
-/

namespace Verif.Spec

/-- The bytes of an ASCII text. -/
def ascii (s : String) : List UInt8 := s.toList.map fun c => UInt8.ofNat c.toNat

/-- `d` is a decimal number with value `n`. -/
def Number (d : List UInt8) (n : Nat) : Prop := IsDecimal d ∧ decimalValue d = n

/-- The text reads "party p: round r: cause". -/
def SaysAborted (text : List UInt8) (p r : Nat) (cause : List UInt8) : Prop :=
  ∃ dp dr, Number dp p ∧ Number dr r ∧ text = ascii "party " ++ dp ++ ascii ": round " ++ dr ++ ascii ": " ++ cause

/-- The text reads "party p, round r: cause". -/
def SaysRefused (text : List UInt8) (p r : Nat) (cause : List UInt8) : Prop :=
  ∃ dp dr, Number dp p ∧ Number dr r ∧ text = ascii "party " ++ dp ++ ascii ", round " ++ dr ++ ascii ": " ++ cause

/-- The text reads "party p, round r, culprit c: cause". -/
def SaysBlamed (text : List UInt8) (p r c : Nat) (cause : List UInt8) : Prop :=
  ∃ dp dr dc, Number dp p ∧ Number dr r ∧ Number dc c ∧
    text = ascii "party " ++ dp ++ ascii ", round " ++ dr ++ ascii ", culprit " ++ dc ++ ascii ": " ++ cause

end Verif.Spec
