import Verif.Model.Group
import Verif.Lemmas.Bytes

/-!
`crypto/sha512` of the Go standard library (FIPS 180-4), which the repository calls in pkg/frost/sign/round1.go:36-72, pkg/eddsa/signature.go:38
and pkg/internal/zk/schnorr.go:80-88.  It is not part of the repository.  The theorems hold for every function with 64-byte results; this one is used
to run the model on published test vectors (Verif/Vectors).
-/

namespace Verif.Sha

/-- The word of eight bytes, most significant first. -/
def word (b : Bytes) : UInt64 := b.foldl (fun w c => w <<< 8 ||| c.toUInt64) 0

/-- The eight bytes of a word, most significant first. -/
def wordBytes (w : UInt64) : Bytes := ([56, 48, 40, 32, 24, 16, 8, 0] : List UInt64).map fun s => (w >>> s).toUInt8

/-- Rotation to the right. -/
def rotr (x : UInt64) (n : UInt64) : UInt64 := x >>> n ||| x <<< (64 - n)

def Ch (x y z : UInt64) : UInt64 := (x &&& y) ^^^ (~~~x &&& z)
def Maj (x y z : UInt64) : UInt64 := (x &&& y) ^^^ (x &&& z) ^^^ (y &&& z)
def bigSigma0 (x : UInt64) : UInt64 := rotr x 28 ^^^ rotr x 34 ^^^ rotr x 39
def bigSigma1 (x : UInt64) : UInt64 := rotr x 14 ^^^ rotr x 18 ^^^ rotr x 41
def smallSigma0 (x : UInt64) : UInt64 := rotr x 1 ^^^ rotr x 8 ^^^ x >>> 7
def smallSigma1 (x : UInt64) : UInt64 := rotr x 19 ^^^ rotr x 61 ^^^ x >>> 6

/-- The constants of section 4.2.3. -/
def K : List UInt64 := [
  0x428a2f98d728ae22, 0x7137449123ef65cd, 0xb5c0fbcfec4d3b2f, 0xe9b5dba58189dbbc,
  0x3956c25bf348b538, 0x59f111f1b605d019, 0x923f82a4af194f9b, 0xab1c5ed5da6d8118,
  0xd807aa98a3030242, 0x12835b0145706fbe, 0x243185be4ee4b28c, 0x550c7dc3d5ffb4e2,
  0x72be5d74f27b896f, 0x80deb1fe3b1696b1, 0x9bdc06a725c71235, 0xc19bf174cf692694,
  0xe49b69c19ef14ad2, 0xefbe4786384f25e3, 0x0fc19dc68b8cd5b5, 0x240ca1cc77ac9c65,
  0x2de92c6f592b0275, 0x4a7484aa6ea6e483, 0x5cb0a9dcbd41fbd4, 0x76f988da831153b5,
  0x983e5152ee66dfab, 0xa831c66d2db43210, 0xb00327c898fb213f, 0xbf597fc7beef0ee4,
  0xc6e00bf33da88fc2, 0xd5a79147930aa725, 0x06ca6351e003826f, 0x142929670a0e6e70,
  0x27b70a8546d22ffc, 0x2e1b21385c26c926, 0x4d2c6dfc5ac42aed, 0x53380d139d95b3df,
  0x650a73548baf63de, 0x766a0abb3c77b2a8, 0x81c2c92e47edaee6, 0x92722c851482353b,
  0xa2bfe8a14cf10364, 0xa81a664bbc423001, 0xc24b8b70d0f89791, 0xc76c51a30654be30,
  0xd192e819d6ef5218, 0xd69906245565a910, 0xf40e35855771202a, 0x106aa07032bbd1b8,
  0x19a4c116b8d2d0c8, 0x1e376c085141ab53, 0x2748774cdf8eeb99, 0x34b0bcb5e19b48a8,
  0x391c0cb3c5c95a63, 0x4ed8aa4ae3418acb, 0x5b9cca4f7763e373, 0x682e6ff3d6b2b8a3,
  0x748f82ee5defb2fc, 0x78a5636f43172f60, 0x84c87814a1f0ab72, 0x8cc702081a6439ec,
  0x90befffa23631e28, 0xa4506cebde82bde9, 0xbef9a3f7b2c67915, 0xc67178f2e372532b,
  0xca273eceea26619c, 0xd186b8c721c0c207, 0xeada7dd6cde0eb1e, 0xf57d4f7fee6ed178,
  0x06f067aa72176fba, 0x0a637dc5a2c898a6, 0x113f9804bef90dae, 0x1b710b35131c471b,
  0x28db77f523047d84, 0x32caab7b40c72493, 0x3c9ebe0a15c9bebc, 0x431d67c49c100d4c,
  0x4cc5d4becb3e42b6, 0x597f299cfc657e2a, 0x5fcb6fab3ad6faec, 0x6c44198c4a475817]

/-- The initial hash value of section 5.3.5. -/
def H0 : List UInt64 := [
  0x6a09e667f3bcc908, 0xbb67ae8584caa73b, 0x3c6ef372fe94f82b, 0xa54ff53a5f1d36f1,
  0x510e527fade682d1, 0x9b05688c2b3e6c1f, 0x1f83d9abfb41bd6b, 0x5be0cd19137e2179]

/-- Section 5.1.2: the message, a bit 1, zeros, and the length in bits as 128 bits. -/
def pad (m : Bytes) : Bytes :=
  m ++ 0x80 :: List.replicate ((239 - m.length % 128) % 128) 0 ++ (natLE 16 (8 * m.length)).reverse

/-- The message schedule of section 6.4.2, step 1, last word first. -/
def schedule : Nat → List UInt64 → List UInt64
  | 0, w => w
  | n + 1, w => schedule n ((smallSigma1 (w.getD 1 0) + w.getD 6 0 + smallSigma0 (w.getD 14 0) + w.getD 15 0) :: w)

/-- One round of section 6.4.2, step 3. -/
def round : List UInt64 → UInt64 × UInt64 → List UInt64
  | [a, b, c, d, e, f, g, h], (k, w) =>
    let t1 := h + bigSigma1 e + Ch e f g + k + w
    let t2 := bigSigma0 a + Maj a b c
    [t1 + t2, a, b, c, d + t1, e, f, g]
  | s, _ => s

/-- The words of a block. -/
def words : Nat → Bytes → List UInt64
  | 0, _ => []
  | n + 1, b => word (b.take 8) :: words n (b.drop 8)

/-- One block. -/
def block (s : List UInt64) (b : Bytes) : List UInt64 :=
  List.zipWith (· + ·) s ((K.zip (schedule 64 (words 16 b).reverse).reverse).foldl round s)

/-- All blocks. -/
def blocks : Nat → List UInt64 → Bytes → List UInt64
  | 0, s, _ => s
  | n + 1, s, b => blocks n (block s (b.take 128)) (b.drop 128)

/-- `sha512.Sum512`. -/
def sum (m : Bytes) : Bytes :=
  let p := pad m
  (blocks (p.length / 128) H0 p).flatMap wordBytes

theorem round_length (s : List UInt64) (x : UInt64 × UInt64) : (round s x).length = s.length := by
  unfold round
  split <;> simp

theorem foldl_round_length (l : List (UInt64 × UInt64)) (s : List UInt64) : (l.foldl round s).length = s.length := by
  induction l generalizing s with
  | nil => rfl
  | cons x l ih => rw [List.foldl_cons, ih, round_length]

theorem blocks_length (n : Nat) (s : List UInt64) (b : Bytes) : (blocks n s b).length = s.length := by
  induction n generalizing s b with
  | zero => rfl
  | succ n ih => rw [blocks, ih, block, List.length_zipWith, foldl_round_length, Nat.min_self]

theorem flatMap_wordBytes_length (l : List UInt64) : (l.flatMap wordBytes).length = 8 * l.length := by
  induction l with
  | nil => rfl
  | cons w l ih => rw [List.flatMap_cons, List.length_append, ih, List.length_cons]; simp [wordBytes]; omega

theorem sum_length (m : Bytes) : (sum m).length = 64 := by
  unfold sum
  rw [flatMap_wordBytes_length, blocks_length]
  rfl

/-- What is hashed is a whole number of blocks. -/
theorem pad_length (m : Bytes) : 128 ∣ (pad m).length := by
  unfold pad
  simp only [List.length_append, List.length_cons, List.length_replicate, List.length_reverse, natLE_length]
  omega

end Verif.Sha

namespace Verif

/-- SHA-512 as in FIPS 180-4. -/
def sha512 : Sha512 := ⟨Sha.sum, Sha.sum_length⟩

end Verif
