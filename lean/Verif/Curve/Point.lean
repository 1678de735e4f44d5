import Verif.Curve.Params

/-!
Extended coordinates represent affine points, and the library's operations on them are the operations of the group.
-/

namespace Verif.Curve

open Verif (Fp Point Scalar)

/-- `P` are extended coordinates of the affine point `A`. -/
structure Rep (P : Point) (A : E) : Prop where
  z : P.Z ≠ 0
  X : P.X = A.x * P.Z
  Y : P.Y = A.y * P.Z
  T : P.T = A.x * A.y * P.Z

/-- Coordinates accepted by `SetExtendedCoordinates`, with `Z ≠ 0`. -/
def Valid (P : Point) : Prop := P.Z ≠ 0 ∧ P.Y * P.Y - P.X * P.X = Point.libD * (P.T * P.T) + P.Z * P.Z ∧ P.X * P.Y = P.T * P.Z

theorem Rep.valid {P : Point} {A : E} (h : Rep P A) : Valid P := by
  refine ⟨h.z, ?_, ?_⟩
  · have := A.on
    rw [d_def] at this
    rw [h.X, h.Y, h.T]
    linear_combination P.Z ^ 2 * this
  · rw [h.X, h.Y, h.T]
    ring

theorem Valid.rep {P : Point} (h : Valid P) : ∃ A, Rep P A := by
  obtain ⟨hz, h1, h2⟩ := h
  have hT : P.T = P.X * P.Y / P.Z := by rw [h2]; field_simp
  refine ⟨⟨P.X / P.Z, P.Y / P.Z, ?_⟩, hz, ?_, ?_, ?_⟩
  · rw [hT] at h1
    rw [d_def]
    field_simp at h1 ⊢
    linear_combination h1
  · field_simp
  · field_simp
  · show P.T = P.X / P.Z * (P.Y / P.Z) * P.Z
    refine hT.trans ?_
    field_simp

theorem Rep.unique {P : Point} {A B : E} (h : Rep P A) (h' : Rep P B) : A = B := by
  ext
  · exact mul_right_cancel₀ h.z (h.X.symm.trans h'.X)
  · exact mul_right_cancel₀ h.z (h.Y.symm.trans h'.Y)

theorem Rep.x_eq {P : Point} {A : E} (h : Rep P A) : A.x = P.X / P.Z := (eq_div_iff h.z).2 h.X.symm
theorem Rep.y_eq {P : Point} {A : E} (h : Rep P A) : A.y = P.Y / P.Z := (eq_div_iff h.z).2 h.Y.symm

theorem rep_affine (A : E) : Rep ⟨A.x, A.y, 1, A.x * A.y⟩ A :=
  ⟨one_ne_zero, (mul_one _).symm, (mul_one _).symm, (mul_one _).symm⟩

theorem rep_identity : Rep Point.identity 0 := ⟨one_ne_zero, by simp [Point.identity], by simp [Point.identity], by simp [Point.identity]⟩

theorem rep_add {P Q : Point} {A B : E} (hP : Rep P A) (hQ : Rep Q B) : Rep (Point.add P Q) (A + B) := by
  have hp := Pt.den_pos A B
  have hm := Pt.den_neg A B
  have hx := Pt.add_x_mul A B
  have hy := Pt.add_y_mul A B
  have h2 := Fp.two_ne_zero
  rw [d_def] at hp hm hx hy
  have hz := mul_ne_zero (mul_ne_zero h2 hP.z) hQ.z
  have eZ : P.Z * Q.Z + P.Z * Q.Z + P.T * (Q.T * (Point.libD + Point.libD))
      = 2 * P.Z * Q.Z * (1 + Point.libD * A.x * B.x * A.y * B.y) := by rw [hP.T, hQ.T]; ring
  have eT : P.Z * Q.Z + P.Z * Q.Z - P.T * (Q.T * (Point.libD + Point.libD))
      = 2 * P.Z * Q.Z * (1 - Point.libD * A.x * B.x * A.y * B.y) := by rw [hP.T, hQ.T]; ring
  have eX : (P.Y + P.X) * (Q.Y + Q.X) - (P.Y - P.X) * (Q.Y - Q.X)
      = 2 * P.Z * Q.Z * ((A + B).x * (1 + Point.libD * A.x * B.x * A.y * B.y)) := by
    rw [hx, hP.X, hP.Y, hQ.X, hQ.Y]; ring
  have eY : (P.Y + P.X) * (Q.Y + Q.X) + (P.Y - P.X) * (Q.Y - Q.X)
      = 2 * P.Z * Q.Z * ((A + B).y * (1 - Point.libD * A.x * B.x * A.y * B.y)) := by
    rw [hy, hP.X, hP.Y, hQ.X, hQ.Y]; ring
  refine ⟨?_, ?_, ?_, ?_⟩
  · show (_ * _ : Fp) ≠ 0
    rw [eZ, eT]
    exact mul_ne_zero (mul_ne_zero hz hp) (mul_ne_zero hz hm)
  · show (_ * _ : Fp) = _ * (_ * _)
    rw [eZ, eT, eX]
    ring
  · show (_ * _ : Fp) = _ * (_ * _)
    rw [eZ, eT, eY]
    ring
  · show (_ * _ : Fp) = _ * (_ * _)
    rw [eZ, eT, eX, eY]
    ring

theorem rep_negate {P : Point} {A : E} (h : Rep P A) : Rep (Point.negate P) (-A) := by
  refine ⟨h.z, ?_, ?_, ?_⟩
  · show -P.X = -A.x * P.Z
    rw [h.X]; ring
  · exact h.Y
  · show -P.T = -A.x * A.y * P.Z
    rw [h.T]; ring

theorem rep_subtract {P Q : Point} {A B : E} (hP : Rep P A) (hQ : Rep Q B) : Rep (Point.subtract P Q) (A - B) := by
  rw [sub_eq_add_neg]
  exact rep_add hP (rep_negate hQ)

theorem rep_mulLoop {P : Point} {A : E} (h : Rep P A) : ∀ fuel n, n < 2 ^ fuel → Rep (Point.mulLoop P fuel n) (n • A)
  | 0, n, hn => by
    have : n = 0 := by simpa using hn
    subst this
    rw [zero_nsmul]
    exact rep_identity
  | fuel + 1, n, hn => by
    have ih := rep_mulLoop h fuel (n / 2) (by rw [pow_succ] at hn; omega)
    have h2 := rep_add ih ih
    rw [← two_nsmul, smul_smul] at h2
    unfold Point.mulLoop
    simp only
    split
    · next ho =>
      have h3 := rep_add h2 h
      rw [← succ_nsmul] at h3
      rwa [show 2 * (n / 2) + 1 = n by omega] at h3
    · next he => rwa [show 2 * (n / 2) = n by omega] at h2

theorem scalar_lt (s : Scalar) : s.val < 2 ^ 253 := lt_trans (ZMod.val_lt s) (by decide +kernel)

theorem rep_scalarMult (s : Scalar) {P : Point} {A : E} (h : Rep P A) : Rep (Point.scalarMult s P) (s.val • A) :=
  rep_mulLoop h _ _ (scalar_lt s)

theorem rep_multByCofactor {P : Point} {A : E} (h : Rep P A) : Rep (Point.multByCofactor P) (8 • A) := by
  have h2 := rep_add h h
  have h4 := rep_add h2 h2
  have h8 := rep_add h4 h4
  have e : A + A + (A + A) + (A + A + (A + A)) = 8 • A := by
    rw [show 8 = 2 * 2 * 2 by rfl, mul_nsmul, mul_nsmul, two_nsmul, two_nsmul, two_nsmul]
  rwa [e] at h8

/-! ### The generator and its order -/

/-- The affine generator. -/
def B : E := ⟨Point.generator.X, Point.generator.Y, by rw [d_def]; decide +kernel⟩

theorem rep_generator : Rep Point.generator B :=
  ⟨by decide +kernel, by decide +kernel, by decide +kernel, by decide +kernel⟩

theorem B_ne_zero : B ≠ 0 := by
  intro h
  have : B.x = 0 := by rw [h]; rfl
  revert this
  show ¬ Point.generator.X = 0
  decide +kernel

theorem q_B : q • B = 0 := by
  have h := rep_mulLoop rep_generator 253 q (by decide +kernel)
  have hX : (Point.mulLoop Point.generator 253 q).X = 0 ∧
      (Point.mulLoop Point.generator 253 q).Y = (Point.mulLoop Point.generator 253 q).Z := by decide +kernel
  ext
  · rw [h.x_eq, hX.1, zero_div]; rfl
  · rw [h.y_eq, hX.2, div_self h.z]; rfl

end Verif.Curve
