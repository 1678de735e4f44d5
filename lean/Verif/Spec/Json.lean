import Verif.Model.Json

/-!
The grammar of RFC 8259, with the fffd of what is not UTF-8 that `encoding/json` documents.  Only the type of values is shared with
the model.
-/

namespace Verif.Spec.Json

open Verif.Json (Value)

/-- White space: space, tab, line feed, carriage return. -/
def Ws (w : Bytes) : Prop := ∀ c ∈ w, c ∈ ([0x20, 0x09, 0x0A, 0x0D] : Bytes)

/-- A decimal digit. -/
def Digit (c : UInt8) : Prop := c ∈ ([0x30, 0x31, 0x32, 0x33, 0x34, 0x35, 0x36, 0x37, 0x38, 0x39] : Bytes)

/-- A hexadecimal digit. -/
def Hex (c : UInt8) : Prop := Digit c ∨ c ∈ ([0x41, 0x42, 0x43, 0x44, 0x45, 0x46, 0x61, 0x62, 0x63, 0x64, 0x65, 0x66] : Bytes)

/-- What may stand between the quotes of a string. -/
inductive Chars : Bytes → Prop
  | nil : Chars []
  | plain {c s} : 0x20 ≤ c → c ≠ 0x22 → c ≠ 0x5C → Chars s → Chars (c :: s)
  | esc {c s} : c ∈ ([0x22, 0x5C, 0x2F, 0x62, 0x66, 0x6E, 0x72, 0x74] : Bytes) → Chars s → Chars (0x5C :: c :: s)
  | unicode {h1 h2 h3 h4 s} : Hex h1 → Hex h2 → Hex h3 → Hex h4 → Chars s → Chars (0x5C :: 0x75 :: h1 :: h2 :: h3 :: h4 :: s)

/-- `c` is a hexadecimal digit of value `v`, in either case. -/
def HexIs (c : UInt8) (v : Nat) : Prop :=
  ([0x30, 0x31, 0x32, 0x33, 0x34, 0x35, 0x36, 0x37, 0x38, 0x39, 0x61, 0x62, 0x63, 0x64, 0x65, 0x66] : Bytes)[v]? = some c ∨
  ([0x30, 0x31, 0x32, 0x33, 0x34, 0x35, 0x36, 0x37, 0x38, 0x39, 0x41, 0x42, 0x43, 0x44, 0x45, 0x46] : Bytes)[v]? = some c

/-- Four hexadecimal digits of value `v`. -/
def Hex4Is (h : List UInt8) (v : Nat) : Prop :=
  ∃ c1 c2 c3 c4 v1 v2 v3 v4, h = [c1, c2, c3, c4] ∧ HexIs c1 v1 ∧ HexIs c2 v2 ∧ HexIs c3 v3 ∧ HexIs c4 v4 ∧
    v = 4096 * v1 + 256 * v2 + 16 * v3 + v4

/-- The encoding of the character U+FFFD. -/
def fffd : Bytes := String.utf8EncodeChar '\uFFFD'

/-- Four hexadecimal digits after a backslash and `u` at the start of the text, of the second half of a pair of surrogates. -/
def SecondHalf (s : Bytes) : Prop := ∃ h w s', s = 0x5C :: 0x75 :: h ++ s' ∧ Hex4Is h w ∧ 0xDC00 ≤ w ∧ w < 0xE000

/-- Section 7 of RFC 8259: what stands between the quotes, and the string it means, in UTF-8.  In the words of the documentation of
`encoding/json`, invalid UTF-8 and invalid UTF-16 surrogate pairs are not an error and are replaced by U+FFFD: each byte that no
character starts with, and each half of a pair that is alone. -/
inductive Means : Bytes → Bytes → Prop
  | nil : Means [] []
  | char {c : Char} {s t} : 0x20 ≤ c.toNat → c ≠ '"' → c ≠ '\\' → Means s t → Means (String.utf8EncodeChar c ++ s) (String.utf8EncodeChar c ++ t)
  | esc {c d s t} : (c, d) ∈ ([(0x22, 0x22), (0x5C, 0x5C), (0x2F, 0x2F), (0x62, 0x08), (0x66, 0x0C), (0x6E, 0x0A), (0x72, 0x0D),
      (0x74, 0x09)] : List (UInt8 × UInt8)) → Means s t → Means (0x5C :: c :: s) (d :: t)
  | unicode {c : Char} {h s t} : Hex4Is h c.toNat → Means s t → Means (0x5C :: 0x75 :: h ++ s) (String.utf8EncodeChar c ++ t)
  | pair {c : Char} {h h' s t} : 0x10000 ≤ c.toNat → Hex4Is h (0xD800 + (c.toNat - 0x10000) / 1024) →
      Hex4Is h' (0xDC00 + (c.toNat - 0x10000) % 1024) → Means s t →
      Means (0x5C :: 0x75 :: h ++ 0x5C :: 0x75 :: h' ++ s) (String.utf8EncodeChar c ++ t)
  | bad {b s t} : 0x80 ≤ b → (∀ (c : Char) (s' : Bytes), b :: s ≠ String.utf8EncodeChar c ++ s') → Means s t → Means (b :: s) (fffd ++ t)
  | alone {h v s t} : Hex4Is h v → 0xD800 ≤ v → v < 0xE000 → ¬ (v < 0xDC00 ∧ SecondHalf s) → Means s t →
      Means (0x5C :: 0x75 :: h ++ s) (fffd ++ t)

/-- The part of a number before a decimal point: no leading zeros. -/
def IntPart (s : Bytes) : Prop := s = [0x30] ∨ ∃ c ds, s = c :: ds ∧ Digit c ∧ c ≠ 0x30 ∧ ∀ d ∈ ds, Digit d

/-- The part of a number after the decimal point, or nothing. -/
def FracPart (s : Bytes) : Prop := s = [] ∨ ∃ ds, s = 0x2E :: ds ∧ ds ≠ [] ∧ ∀ d ∈ ds, Digit d

/-- The exponent, or nothing. -/
def ExpPart (s : Bytes) : Prop :=
  s = [] ∨ ∃ e sign ds, s = e :: sign ++ ds ∧ (e = 0x65 ∨ e = 0x45) ∧ (sign = [] ∨ sign = [0x2B] ∨ sign = [0x2D]) ∧ ds ≠ [] ∧ ∀ d ∈ ds, Digit d

/-- A number. -/
def Number (s : Bytes) : Prop :=
  ∃ sign i f e, s = sign ++ i ++ f ++ e ∧ (sign = [] ∨ sign = [0x2D]) ∧ IntPart i ∧ FracPart f ∧ ExpPart e

mutual

/-- The text of a value, without white space around it. -/
inductive Text : Value → Bytes → Prop
  | null : Text .null [0x6E, 0x75, 0x6C, 0x6C]
  | true : Text (.bool true) [0x74, 0x72, 0x75, 0x65]
  | false : Text (.bool false) [0x66, 0x61, 0x6C, 0x73, 0x65]
  | num {s} : Number s → Text (.num s) s
  | str {raw t} : Means raw t → Text (.str t) (0x22 :: raw ++ [0x22])
  | noElems {w} : Ws w → Text (.arr []) (0x5B :: w ++ [0x5D])
  | arr {l b} : Elems l b → Text (.arr l) (0x5B :: b ++ [0x5D])
  | noMembers {w} : Ws w → Text (.obj []) (0x7B :: w ++ [0x7D])
  | obj {l b} : Members l b → Text (.obj l) (0x7B :: b ++ [0x7D])

/-- One or more values separated by commas. -/
inductive Elems : List Value → Bytes → Prop
  | one {w v b w'} : Ws w → Text v b → Ws w' → Elems [v] (w ++ b ++ w')
  | more {w v b w' l r} : Ws w → Text v b → Ws w' → Elems l r → Elems (v :: l) (w ++ b ++ w' ++ 0x2C :: r)

/-- One or more names with values, separated by commas. -/
inductive Members : List (Bytes × Value) → Bytes → Prop
  | one {w₁ raw k w₂ w₃ v b w₄} : Ws w₁ → Means raw k → Ws w₂ → Ws w₃ → Text v b → Ws w₄ →
      Members [(k, v)] (w₁ ++ 0x22 :: raw ++ 0x22 :: w₂ ++ 0x3A :: w₃ ++ b ++ w₄)
  | more {w₁ raw k w₂ w₃ v b w₄ l r} : Ws w₁ → Means raw k → Ws w₂ → Ws w₃ → Text v b → Ws w₄ → Members l r →
      Members ((k, v) :: l) (w₁ ++ 0x22 :: raw ++ 0x22 :: w₂ ++ 0x3A :: w₃ ++ b ++ w₄ ++ 0x2C :: r)

end

/-- A JSON text. -/
def Document (v : Value) (b : Bytes) : Prop := ∃ w t w', b = w ++ t ++ w' ∧ Ws w ∧ Text v t ∧ Ws w'

/-- No value is inside more than `n` arrays and objects. -/
inductive Nested : Nat → Value → Prop
  | null {n} : Nested n .null
  | bool {n b} : Nested n (.bool b)
  | num {n s} : Nested n (.num s)
  | str {n s} : Nested n (.str s)
  | arr {n l} : (∀ v ∈ l, Nested n v) → Nested (n + 1) (.arr l)
  | obj {n l} : (∀ p ∈ l, Nested n p.2) → Nested (n + 1) (.obj l)

/-- A JSON text that is not nested too deep for the limit of `encoding/json`. -/
def Readable (v : Value) (b : Bytes) : Prop := Document v b ∧ Nested 10000 v

end Verif.Spec.Json
