import Verif.Curve.Code

/-!
The two encodings of a group element, `Bytes` and `BytesEd25519`, are never the same.
-/

namespace Verif.Curve

open Verif (Fp Point Scalar)
open Verif.Spec

/-- The root of `X³ + X² + X - 1`. -/
def root : Fp := ((23264825875145525702547287324454975148227816859939236101349271377038326668487 : ℕ) : Fp)

/-- The discriminant of the other factor. -/
def disc : Fp := (1 + root) ^ 2 - 4 * (1 + root * (1 + root))

theorem disc_nonsquare : ¬ IsSquare disc := by
  have h0 : disc ≠ 0 := by decide +kernel
  rw [ZMod.euler_criterion p h0]
  have hv : disc = ((disc.val : ℕ) : Fp) := (ZMod.natCast_zmod_val disc).symm
  rw [hv, ← Nat.cast_pow, ← Nat.cast_one, ZMod.natCast_eq_natCast_iff, Nat.ModEq,
    ← Pratt.powMod_eq _ _ _ Fp.p_pos (by decide +kernel)]
  decide +kernel

theorem cubic {s : Fp} (h : s ^ 3 + s ^ 2 + s - 1 = 0) : s = root := by
  have hr : root ^ 3 + root ^ 2 + root - 1 = 0 := by decide +kernel
  have hf : (s - root) * (s ^ 2 + (1 + root) * s + (1 + root * (1 + root))) = 0 := by linear_combination h - hr
  rcases mul_eq_zero.1 hf with h | h
  · exact sub_eq_zero.1 h
  · exact absurd ⟨2 * s + (1 + root), by unfold disc; linear_combination -4 * h⟩ disc_nonsquare

/-- `(d - 3)(d + 1)` -/
def ratio : Fp := (Point.libD - 3) * (Point.libD + 1)

theorem ratio_nonsquare : ¬ IsSquare ratio := by
  have h0 : ratio ≠ 0 := by decide +kernel
  rw [ZMod.euler_criterion p h0]
  have hv : ratio = ((ratio.val : ℕ) : Fp) := (ZMod.natCast_zmod_val _).symm
  rw [hv, ← Nat.cast_pow, ← Nat.cast_one, ZMod.natCast_eq_natCast_iff, Nat.ModEq,
    ← Pratt.powMod_eq _ _ _ Fp.p_pos (by decide +kernel)]
  decide +kernel

/-- A point whose `y` is the encoding of its class and whose `x` is not negative is not in the subgroup of prime order. -/
theorem encodes_y {s : Fp} {A C : E} (hq : q • A = 0) (hAC : SameElement A C) (h : Encodes s C) (hy : A.y = s) (hx : Fp.isNegative A.x = false) : False := by
  have hym := h.y_mul
  have hT2 : A ≠ T2 := by
    rintro rfl
    have : q • T2 = T2 := by
      have h2 : (2 * (q / 2) + 1) • T2 = T2 := by rw [add_smul, mul_comm, mul_smul, two_T2, smul_zero, zero_add, one_smul]
      have e : 2 * (q / 2) + 1 = q := by decide +kernel
      rwa [e] at h2
    exact T2_ne_zero (this ▸ hq)
  have h1 : s ≠ 1 := by
    rintro rfl
    exact absurd h.s_nonneg (by decide +kernel)
  have hone : ∀ {B : E}, B = A → B.x ≠ 0 := by
    rintro _ rfl e
    rcases x_eq_zero e with e | e
    · exact h1 (by rw [← hy, e]; rfl)
    · exact hT2 e
  have hrot : s ^ 2 = -C.x ^ 2 → False := by
    intro hs
    have on := on' C
    have key : (1 - s ^ 2) * (s ^ 2 * ((Point.libD - 3) - (Point.libD + 1) * s ^ 2)) = 0 := by
      linear_combination (1 + s ^ 2) ^ 2 * on - (C.y * (1 + s ^ 2) + (1 - s ^ 2)) * (1 - Point.libD * C.x ^ 2) * hym
        + ((1 + s ^ 2) ^ 2 + (1 - s ^ 2) ^ 2 * Point.libD) * hs
    rcases mul_eq_zero.1 key with e | e
    · have : 1 - A.y ^ 2 = 0 := by rw [hy]; exact e
      rcases f_eq_zero this with e | e
      · exact hone rfl (by rw [e]; rfl)
      · exact hT2 e
    · rcases mul_eq_zero.1 e with e | e
      · have : A.y = 0 := by rw [hy]; exact pow_eq_zero_iff two_ne_zero |>.1 e
        have h4 : 4 • A = 0 := (four_torsion_coord A).2 (.inr this)
        have : (q - 4 * (q / 4)) • A = 0 := by
          have e : q • A = (q - 4 * (q / 4)) • A + (q / 4) • 4 • A := by
            rw [← mul_smul, ← add_smul]; congr 1
          rw [hq, h4, smul_zero, add_zero] at e
          exact e.symm
        have e1 : q - 4 * (q / 4) = 1 := by decide +kernel
        rw [e1, one_smul] at this
        exact hone rfl (by rw [this]; rfl)
      · exact ratio_nonsquare ⟨s * (Point.libD + 1), by unfold ratio; linear_combination (Point.libD + 1) * e⟩
  have hi := Fp.i_sq
  rcases (sameElement_iff A C).1 hAC with e | e | e | e
  · subst e
    have : s = root := cubic (by rw [hy] at hym; linear_combination hym)
    exact absurd h.s_nonneg (by rw [this]; decide +kernel)
  · have hx' : A.x = -C.x := by rw [e, T2_add_x]
    have := both_nonneg h.x_nonneg (hx' ▸ hx)
    exact hone rfl (by rw [hx', this, neg_zero])
  · refine hrot ?_
    rw [← hy, e, T4_add_y]
    linear_combination C.x ^ 2 * hi
  · refine hrot ?_
    rw [← hy, e, negT4_add_y]
    linear_combination C.x ^ 2 * hi

/-- The ristretto255 encoding of an element is never the Ed25519 encoding of its point of prime order. -/
theorem RG.bytes_ne_bytesEd25519 (g : RG) : RGroup.bytes g ≠ RGroup.bytesEd25519 g := by
  intro h
  rw [RG.bytes_def, RG.bytesEd25519_def] at h
  obtain ⟨C, hC, eC⟩ := encode_spec (rep g.pt) g.even
  have hl : leNat (edBytes g.pt) = (Ristretto.encode (affine g.pt)).val := by rw [← h]; exact Fp.leNat_bytes _
  have hlt : (Ristretto.encode (affine g.pt)).val < 2 ^ 255 := lt_trans (ZMod.val_lt _) (by decide +kernel)
  refine encodes_y g.q_pt hC eC ?_ ?_
  · apply ZMod.val_injective
    rw [← edBytes_mod, hl, Nat.mod_eq_of_lt hlt]
  · by_contra hn
    have := (edBytes_div g.pt).2 (by simpa using hn)
    rw [hl, Nat.div_eq_of_lt hlt] at this
    exact absurd this (by decide)

end Verif.Curve
