import Verif.Model.Group
import Batteries.Data.BitVec.Lemmas
import Mathlib.NumberTheory.PrimeCounting
import Mathlib.Analysis.SpecialFunctions.Pow.Real

/-!
SHA-512 as FIPS 180-4 writes it: on bits, with sequences of words indexed by numbers.  Independent of `Verif/Model/Sha512.lean`, which works on byte
lists and `UInt64`.
-/

namespace Verif.Spec.Sha512

open Verif (Bytes)

/-- A word (section 2.1). -/
abbrev Word := BitVec 64

/-- The length in bits of the padded message: the least multiple of 1024 that leaves room for a bit 1 and the length in 128 bits (section 5.1.2). -/
def paddedBits (m : Bytes) : Nat := (8 * m.length + 1 + 128 + 1023) / 1024 * 1024

/-- Bit `i` of the padded message (sections 3.1 and 5.1.2): the message, each byte with its most significant bit first; a bit 1; zeros; the length. -/
def paddedBit (m : Bytes) (i : Nat) : Bool :=
  if i < 8 * m.length then (m.getD (i / 8) 0).toNat.testBit (7 - i % 8)
  else if i = 8 * m.length then true
  else if i < paddedBits m - 128 then false
  else (8 * m.length).testBit (paddedBits m - 1 - i)

/-- `M_j^(i)` (section 5.2.2): word `j` of block `i`, its leftmost bit is the most significant. -/
def M (m : Bytes) (i j : Nat) : Word := BitVec.ofFnLE fun s : Fin 64 => paddedBit m (1024 * i + 64 * j + (63 - s))

/-- `Ch` (section 4.1.3): `x` chooses between `y` and `z`. -/
def Ch (x y z : Word) : Word := BitVec.ofFnLE fun s : Fin 64 => bif x.getLsbD s then y.getLsbD s else z.getLsbD s

/-- `Maj`: the majority of the three bits. -/
def Maj (x y z : Word) : Word :=
  BitVec.ofFnLE fun s : Fin 64 => decide (2 ≤ (x.getLsbD s).toNat + (y.getLsbD s).toNat + (z.getLsbD s).toNat)

/-- Section 4.1.3. -/
def S0 (x : Word) : Word := x.rotateRight 28 ^^^ x.rotateRight 34 ^^^ x.rotateRight 39
/-- Section 4.1.3. -/
def S1 (x : Word) : Word := x.rotateRight 14 ^^^ x.rotateRight 18 ^^^ x.rotateRight 41
/-- Section 4.1.3. -/
def s0 (x : Word) : Word := x.rotateRight 1 ^^^ x.rotateRight 8 ^^^ x >>> 7
/-- Section 4.1.3. -/
def s1 (x : Word) : Word := x.rotateRight 19 ^^^ x.rotateRight 61 ^^^ x >>> 6

/-- `K_t` (section 4.2.3): the first 64 bits of the fractional part of the cube root of the `t`-th prime. -/
noncomputable def K (t : Nat) : Word := BitVec.ofNat 64 ⌊Int.fract (((Nat.nth Nat.Prime t : ℕ) : ℝ) ^ (1 / 3 : ℝ)) * 2 ^ 64⌋₊

/-- `H_j^(0)` (section 5.3.5): the first 64 bits of the fractional part of the square root of the `j`-th prime. -/
noncomputable def H0 (j : Nat) : Word := BitVec.ofNat 64 ⌊Int.fract √((Nat.nth Nat.Prime j : ℕ) : ℝ) * 2 ^ 64⌋₊

/-- The message schedule (section 6.4.2, step 1). -/
def W (m : Bytes) (i : Nat) (t : Nat) : Word :=
  if t < 16 then M m i t else s1 (W m i (t - 2)) + W m i (t - 7) + s0 (W m i (t - 15)) + W m i (t - 16)

/-- The working variables. -/
structure Vars where
  a : Word
  b : Word
  c : Word
  d : Word
  e : Word
  f : Word
  g : Word
  h : Word

mutual
/-- The working variables of block `i` after `t` rounds (section 6.4.2, steps 2 and 3). -/
noncomputable def vars (m : Bytes) (i : Nat) : Nat → Vars
  | 0 => ⟨hash m i 0, hash m i 1, hash m i 2, hash m i 3, hash m i 4, hash m i 5, hash m i 6, hash m i 7⟩
  | t + 1 =>
    let v := vars m i t
    let T1 := v.h + S1 v.e + Ch v.e v.f v.g + K t + W m i t
    let T2 := S0 v.a + Maj v.a v.b v.c
    ⟨T1 + T2, v.a, v.b, v.c, v.d + T1, v.e, v.f, v.g⟩
termination_by t => (i, t + 1)

/-- `H_j^(i)`: the hash value after `i` blocks (step 4). -/
noncomputable def hash (m : Bytes) : Nat → Nat → Word
  | 0, j => H0 j
  | i + 1, j =>
    let v := vars m i 80
    hash m i j + (match j with
      | 0 => v.a | 1 => v.b | 2 => v.c | 3 => v.d | 4 => v.e | 5 => v.f | 6 => v.g | _ => v.h)
termination_by i _ => (i, 0)
end

/-- The message digest: the words of the last hash value, most significant byte first. -/
noncomputable def digest (m : Bytes) : Bytes :=
  (List.range 64).map fun k => UInt8.ofNat ((hash m (paddedBits m / 1024) (k / 8)).toNat / 256 ^ (7 - k % 8))

end Verif.Spec.Sha512
