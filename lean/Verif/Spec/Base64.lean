import Mathlib.Data.List.Basic

/-!
RFC 4648 base64, stated with numbers: the digits are the big-endian digits, base 64, of the number whose big-endian digits,
base 256, are the bytes, completed by zero bits.
-/

namespace Verif.Spec.Base64

/-- Value of big-endian digits. -/
def value (base : Nat) (ds : List Nat) : Nat := ds.foldl (fun acc x => acc * base + x) 0

/-- The base64 alphabet of RFC 4648. -/
def alphabet : String := "ABCDEFGHIJKLMNOPQRSTUVWXYZabcdefghijklmnopqrstuvwxyz0123456789+/"

/-- `text` is `⌈4n/3⌉` digits of the alphabet followed by `=` up to a multiple of four, and the digits without their last `slack` bits
give `bytes`; `r` is the value of these last bits. -/
structure Encodes (text bytes : List UInt8) (r : Nat) : Prop where
  intro ::
  form : ∃ digits : List Nat, (∀ v ∈ digits, v < 64) ∧
    text = digits.map (fun v => (alphabet.toList.getD v '?').toUInt8) ++
      List.replicate ((4 - digits.length % 4) % 4) (61 : UInt8) ∧
    digits.length = (4 * bytes.length + 2) / 3 ∧
    value 64 digits = value 256 (bytes.map UInt8.toNat) * 2 ^ (6 * digits.length - 8 * bytes.length) + r ∧
    r < 2 ^ (6 * digits.length - 8 * bytes.length)

end Verif.Spec.Base64
