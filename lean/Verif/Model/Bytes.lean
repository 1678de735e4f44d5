import Verif.Model.Go

/-!
Byte strings (`[]byte`) and Go's slice expressions with their bound checks; `encoding/binary`.
-/

namespace Verif

abbrev Bytes := List UInt8

/-- `b[i]`: panics when out of range. -/
def goIndex (b : Bytes) (i : Nat) : GoRes UInt8 := Outcome.deref b[i]?

/-- `b[:n]`.  Go checks `n ≤ cap(b)`; here `n ≤ len(b)` (every use in the code is in range of the length). -/
def sliceTo (b : Bytes) (n : Nat) : GoRes Bytes := if n ≤ b.length then .ok (b.take n) else .panic

/-- `b[n:]`: panics when `n > len(b)`. -/
def sliceFrom (b : Bytes) (n : Nat) : GoRes Bytes := if n ≤ b.length then .ok (b.drop n) else .panic

/-- Little-endian value of a byte string. -/
def leNat : Bytes → Nat
  | [] => 0
  | x :: xs => x.toNat + 256 * leNat xs

/-- Little-endian representation of `n` on `k` bytes (truncating). -/
def natLE : Nat → Nat → Bytes
  | 0, _ => []
  | k + 1, n => UInt8.ofNat n :: natLE k (n / 256)

/-- `binary.BigEndian.PutUint16` on a fresh 2-byte slice. -/
def be16 (x : UInt16) : Bytes := [(x >>> 8).toUInt8, x.toUInt8]

/-- `binary.BigEndian.Uint16(b)`: reads `b[0]`, `b[1]`; panics if `len(b) < 2`. -/
def readBE16 (b : Bytes) : GoRes UInt16 :=
  match b with
  | hi :: lo :: _ => .ok ((hi.toUInt16 <<< 8) ||| lo.toUInt16)
  | _ => .panic

/-- `binary.LittleEndian.PutUint16(b, x)`: overwrites the first two bytes, panics if there are fewer. -/
def putLE16 (b : Bytes) (x : UInt16) : GoRes Bytes :=
  match b with
  | _ :: _ :: rest => .ok (x.toUInt8 :: (x >>> 8).toUInt8 :: rest)
  | _ => .panic

end Verif
