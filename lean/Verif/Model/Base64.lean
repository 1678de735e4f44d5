import Verif.Model.Bytes

/-!
`encoding/base64.StdEncoding` of the Go standard library, used by pkg/ristretto/ristretto.go:425 and 430.  The functions here
follow the library's `Encode` and `decodeQuantum` one quantum at a time (its fast paths give the same result).  The library skips
`\r` and `\n` wherever it looks for the next character; here they are removed first.  The offset in `CorruptInputError` is
not modelled.
-/

namespace Verif.Base64

/-- The alphabet `A-Z a-z 0-9 + /` of `StdEncoding`. -/
def alphabet : List UInt8 := [
  65, 66, 67, 68, 69, 70, 71, 72, 73, 74, 75, 76, 77, 78, 79, 80, 81, 82, 83, 84, 85, 86, 87, 88, 89, 90,
  97, 98, 99, 100, 101, 102, 103, 104, 105, 106, 107, 108, 109, 110, 111, 112, 113, 114, 115, 116, 117, 118, 119, 120, 121, 122,
  48, 49, 50, 51, 52, 53, 54, 55, 56, 57, 43, 47]

/-- The padding character `=`. -/
def padChar : UInt8 := 61

/-- `enc.encode[v&0x3F]`. -/
def char (v : Nat) : UInt8 := alphabet.getD (v % 64) 0

/-- `enc.decodeMap[c]`, `none` for `0xFF`: the table is filled by `decodeMap[encoder[i]] = i`. -/
def value (c : UInt8) : Option Nat := alphabet.idxOf? c

/-- `EncodeToString`, used at pkg/ristretto/ristretto.go:425. -/
def encode : Bytes → Bytes
  | [] => []
  | [a] =>
    let val := a.toNat * 2 ^ 16
    [char (val / 2 ^ 18), char (val / 2 ^ 12), padChar, padChar]
  | [a, b] =>
    let val := a.toNat * 2 ^ 16 + b.toNat * 2 ^ 8
    [char (val / 2 ^ 18), char (val / 2 ^ 12), char (val / 2 ^ 6), padChar]
  | a :: b :: c :: rest =>
    let val := a.toNat * 2 ^ 16 + b.toNat * 2 ^ 8 + c.toNat
    char (val / 2 ^ 18) :: char (val / 2 ^ 12) :: char (val / 2 ^ 6) :: char val :: encode rest

/-- The loop over `decodeQuantum`: the low bits of the last digit before the padding are dropped without being looked at,
because `StdEncoding` is not `Strict`. -/
def decodeQuanta : Bytes → Option Bytes
  | [] => some []
  | c0 :: c1 :: c2 :: c3 :: rest =>
    match value c0, value c1 with
    | some d0, some d1 =>
      match value c2 with
      | none =>
        if c2 = padChar ∧ c3 = padChar ∧ rest = [] then
          let val := d0 * 2 ^ 18 + d1 * 2 ^ 12
          some [UInt8.ofNat (val / 2 ^ 16)]
        else none
      | some d2 =>
        match value c3 with
        | none =>
          if c3 = padChar ∧ rest = [] then
            let val := d0 * 2 ^ 18 + d1 * 2 ^ 12 + d2 * 2 ^ 6
            some [UInt8.ofNat (val / 2 ^ 16), UInt8.ofNat (val / 2 ^ 8)]
          else none
        | some d3 =>
          let val := d0 * 2 ^ 18 + d1 * 2 ^ 12 + d2 * 2 ^ 6 + d3
          match decodeQuanta rest with
          | none => none
          | some out => some (UInt8.ofNat (val / 2 ^ 16) :: UInt8.ofNat (val / 2 ^ 8) :: UInt8.ofNat val :: out)
    | _, _ => none
  | _ => none

/-- `\n` and `\r` are skipped. -/
def strip (text : Bytes) : Bytes := text.filter fun c => c != 10 && c != 13

/-- `DecodeString`, used at pkg/ristretto/ristretto.go:430. -/
def decode (text : Bytes) : Option Bytes := decodeQuanta (strip text)

end Verif.Base64
