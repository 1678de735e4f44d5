import Verif.Model.Scalar
import Mathlib.Tactic.Ring
import Mathlib.Tactic.Linarith

/-!
Lemmas on little-endian encodings and scalars.
-/

namespace Verif

theorem natLE_length (k n : Nat) : (natLE k n).length = k := by
  induction k generalizing n with
  | zero => rfl
  | succ k ih => simp [natLE, ih]

theorem leNat_natLE (k n : Nat) : leNat (natLE k n) = n % 256 ^ k := by
  induction k generalizing n with
  | zero => simp [natLE, leNat, Nat.mod_one]
  | succ k ih =>
    simp only [natLE, leNat, ih, UInt8.toNat_ofNat']
    rw [pow_succ' 256 k, Nat.mod_mul]

theorem leNat_lt (b : Bytes) : leNat b < 256 ^ b.length := by
  induction b with
  | nil => simp [leNat]
  | cons x xs ih =>
    simp only [leNat, List.length_cons, pow_succ]
    have := x.toNat_lt
    omega

theorem natLE_leNat (b : Bytes) : natLE b.length (leNat b) = b := by
  induction b with
  | nil => rfl
  | cons x xs ih =>
    have hx := x.toNat_lt
    simp only [List.length_cons, natLE, leNat]
    have h1 : UInt8.ofNat (x.toNat + 256 * leNat xs) = x := by
      apply UInt8.toNat_inj.mp
      rw [UInt8.toNat_ofNat']; omega
    have h2 : (x.toNat + 256 * leNat xs) / 256 = leNat xs := by omega
    rw [h1, h2, ih]

theorem leNat_append (a b : Bytes) : leNat (a ++ b) = leNat a + 256 ^ a.length * leNat b := by
  induction a with
  | nil => simp [leNat]
  | cons x xs ih => simp only [List.cons_append, leNat, ih, List.length_cons, pow_succ]; ring

theorem leNat_replicate_zero (k : Nat) : leNat (List.replicate k 0) = 0 := by
  induction k with
  | zero => rfl
  | succ k ih => simp [List.replicate_succ, leNat, ih]

theorem leNat_inj {a b : Bytes} (hl : a.length = b.length) (h : leNat a = leNat b) : a = b := by
  rw [← natLE_leNat a, ← natLE_leNat b, hl, h]

theorem q_lt : q < 256 ^ 32 := by decide +kernel

namespace Scalar

theorem bytes_length (s : Scalar) : (bytes s).length = 32 := natLE_length _ _

theorem leNat_bytes (s : Scalar) : leNat (bytes s) = s.val := by
  unfold bytes
  rw [leNat_natLE, Nat.mod_eq_of_lt]
  exact lt_trans (ZMod.val_lt s) q_lt

theorem set_bytes (s : Scalar) : setCanonicalBytes (bytes s) = some s := by
  unfold setCanonicalBytes
  rw [if_neg (by simp [bytes_length]), leNat_bytes, if_pos (ZMod.val_lt s), ZMod.natCast_zmod_val]

theorem set_eq_some {b : Bytes} {s : Scalar} :
    setCanonicalBytes b = some s ↔ b.length = 32 ∧ leNat b < q ∧ (leNat b : Scalar) = s := by
  unfold setCanonicalBytes
  by_cases h : b.length = 32 <;> by_cases h2 : leNat b < q <;> simp [h, h2]

theorem bytes_set {b : Bytes} {s : Scalar} (h : setCanonicalBytes b = some s) : bytes s = b := by
  obtain ⟨hl, hq, rfl⟩ := set_eq_some.mp h
  apply leNat_inj (by rw [bytes_length, hl])
  rw [leNat_bytes, ZMod.val_natCast, Nat.mod_eq_of_lt hq]

theorem bytes_injective {s t : Scalar} (h : bytes s = bytes t) : s = t := by
  have := set_bytes s
  rw [h, set_bytes] at this
  exact (Option.some.inj this).symm

theorem setCanonicalBytes_eq_none {b : Bytes} (h : b.length ≠ 32) : setCanonicalBytes b = none := by
  simp [setCanonicalBytes, h]

theorem setUniformBytes_64 (r : Scalar) {b : Bytes} (h : b.length = 64) :
    setUniformBytes r b = ((leNat b : Scalar), false) := by simp [setUniformBytes, h]

/-- `SetScalarUInt32` never panics and yields the integer. -/
theorem setScalarUInt32_eq (x : UInt32) : setScalarUInt32 x = .ok (x.toNat : Scalar) := by
  have hx := x.toNat_lt
  unfold setScalarUInt32
  have hv : leNat (x.toUInt8 :: (x >>> 8).toUInt8 :: (x >>> 16).toUInt8 :: (x >>> 24).toUInt8 :: List.replicate 28 0)
      = x.toNat := by
    simp only [leNat, leNat_replicate_zero, UInt32.toNat_toUInt8, UInt32.toNat_shiftRight,
      show (8 : UInt32).toNat = 8 from rfl, show (16 : UInt32).toNat = 16 from rfl, show (24 : UInt32).toNat = 24 from rfl,
      Nat.shiftRight_eq_div_pow]
    norm_num
    omega
  have : setCanonicalBytes (x.toUInt8 :: (x >>> 8).toUInt8 :: (x >>> 16).toUInt8 :: (x >>> 24).toUInt8 ::
      List.replicate 28 0) = some (x.toNat : Scalar) := by
    rw [set_eq_some, hv]
    exact ⟨by simp, lt_trans hx (by decide +kernel), rfl⟩
  simp only [this, Outcome.deref_some]

end Scalar

theorem be16_length (x : UInt16) : (be16 x).length = 2 := rfl

theorem toNat_hi_lo (hi lo : UInt8) :
    ((hi.toUInt16 <<< 8) ||| lo.toUInt16).toNat = hi.toNat * 256 + lo.toNat := by
  have h1 := hi.toNat_lt
  have h2 := lo.toNat_lt
  rw [UInt16.toNat_or, UInt16.toNat_shiftLeft, UInt8.toNat_toUInt16, UInt8.toNat_toUInt16]
  have e : (8 : UInt16).toNat % 16 = 8 := rfl
  rw [e, Nat.mod_eq_of_lt (by rw [Nat.shiftLeft_eq]; omega),
    ← Nat.shiftLeft_add_eq_or_of_lt (by omega : lo.toNat < 2 ^ 8), Nat.shiftLeft_eq]

theorem readBE16_cons (hi lo : UInt8) (rest : Bytes) :
    readBE16 (hi :: lo :: rest) = .ok (UInt16.ofNat (hi.toNat * 256 + lo.toNat)) := by
  rw [← toNat_hi_lo, UInt16.ofNat_toNat]
  rfl

theorem be16_hi (x : UInt16) : ((x >>> 8).toUInt8).toNat = x.toNat / 256 := by
  have h := x.toNat_lt
  rw [UInt16.toNat_toUInt8, UInt16.toNat_shiftRight]
  have e : (8 : UInt16).toNat % 16 = 8 := rfl
  rw [e, Nat.shiftRight_eq_div_pow]
  omega

theorem be16_lo (x : UInt16) : (x.toUInt8).toNat = x.toNat % 256 := by
  rw [UInt16.toNat_toUInt8]

theorem readBE16_be16 (x : UInt16) (rest : Bytes) : readBE16 (be16 x ++ rest) = .ok x := by
  unfold be16
  simp only [List.cons_append, List.nil_append]
  rw [readBE16_cons, be16_hi, be16_lo, Nat.div_add_mod', UInt16.ofNat_toNat]

theorem be16_readBE16 {b : Bytes} {x : UInt16} (h : readBE16 b = .ok x) : b = be16 x ++ b.drop 2 := by
  match b, h with
  | [], h => simp [readBE16] at h
  | [_], h => simp [readBE16] at h
  | hi :: lo :: rest, h =>
    have h1 := hi.toNat_lt
    have h2 := lo.toNat_lt
    unfold readBE16 at h
    have hx := Outcome.ok.inj h
    have hx' := toNat_hi_lo hi lo
    rw [hx] at hx'
    have e1 : (x >>> 8).toUInt8 = hi := by
      apply UInt8.toNat_inj.mp; rw [be16_hi, hx']; omega
    have e2 : x.toUInt8 = lo := by
      apply UInt8.toNat_inj.mp; rw [be16_lo, hx']; omega
    simp [be16, e1, e2]

theorem be16_injective {x y : UInt16} (h : be16 x = be16 y) : x = y := by
  have := readBE16_be16 x []
  rw [h, readBE16_be16] at this
  exact (Outcome.ok.inj this).symm

end Verif
