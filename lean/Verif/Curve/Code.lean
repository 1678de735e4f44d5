import Verif.Curve.Group
import Verif.Lemmas.Base64
import Verif.Spec.Ed25519
import Verif.Model.Ed25519

/-!
The functions of pkg/ristretto/ristretto.go on coordinates, against the group of elements.
-/

namespace Verif.Curve

open Verif Verif.Spec

/-! ### `Equal` -/

theorem sub_x_eq_zero (A C : E) : (A - C).x = 0 ↔ A.x * C.y = A.y * C.x := by
  have h := Pt.add_x_mul A (-C)
  have hd := Pt.den_pos A (-C)
  rw [← sub_eq_add_neg] at h
  rw [Pt.neg_x, Pt.neg_y] at h hd
  constructor
  · intro h0
    rw [h0, zero_mul] at h
    linear_combination -h
  · intro h0
    have : (A - C).x * (1 + EdwardsParams.d * A.x * -C.x * A.y * C.y) = 0 := by rw [h]; linear_combination h0
    exact (mul_eq_zero.1 this).resolve_right hd

theorem sub_y_eq_zero (A C : E) : (A - C).y = 0 ↔ A.y * C.y = A.x * C.x := by
  have h := Pt.add_y_mul A (-C)
  have hd := Pt.den_neg A (-C)
  rw [← sub_eq_add_neg] at h
  rw [Pt.neg_x, Pt.neg_y] at h hd
  constructor
  · intro h0
    rw [h0, zero_mul] at h
    linear_combination -h
  · intro h0
    have : (A - C).y * (1 - EdwardsParams.d * A.x * -C.x * A.y * C.y) = 0 := by rw [h]; linear_combination h0
    exact (mul_eq_zero.1 this).resolve_right hd

theorem four_torsion_coord (D : E) : 4 • D = 0 ↔ D.x = 0 ∨ D.y = 0 := by
  rw [four_torsion]
  constructor
  · rintro (rfl | rfl | rfl | rfl)
    · exact .inl rfl
    · exact .inl rfl
    · exact .inr rfl
    · exact .inr rfl
  · rintro (h | h)
    · rcases x_eq_zero h with h | h <;> simp [h]
    · rcases y_eq_zero h with h | h <;> simp [h]

theorem equal_iff {P Q : Point} {A C : E} (hP : Rep P A) (hQ : Rep Q C) :
    Ristretto.equal P Q = true ↔ SameElement A C := by
  unfold Ristretto.equal SameElement
  simp only [Bool.or_eq_true, decide_eq_true_eq]
  rw [four_torsion_coord, sub_x_eq_zero, sub_y_eq_zero, hP.X, hP.Y, hQ.X, hQ.Y]
  have hz : P.Z * Q.Z ≠ 0 := mul_ne_zero hP.z hQ.z
  constructor
  · rintro (h | h)
    · left
      refine mul_right_cancel₀ hz ?_
      linear_combination h
    · right
      refine mul_right_cancel₀ hz ?_
      linear_combination h
  · rintro (h | h)
    · left
      linear_combination (P.Z * Q.Z) * h
    · right
      linear_combination (P.Z * Q.Z) * h

theorem _root_.Verif.Spec.SameElement.add {A C A' C' : E} (h : SameElement A C) (h' : SameElement A' C') :
    SameElement (A + A') (C + C') := by
  unfold SameElement at *
  rw [show A + A' - (C + C') = (A - C) + (A' - C') by abel, nsmul_add, h, h', add_zero]

theorem _root_.Verif.Spec.SameElement.neg {A C : E} (h : SameElement A C) : SameElement (-A) (-C) := by
  unfold SameElement at *
  rw [show -A - -C = -(A - C) by abel, smul_neg, h, neg_zero]

theorem _root_.Verif.Spec.SameElement.nsmul {A C : E} (h : SameElement A C) (n : ℕ) : SameElement (n • A) (n • C) := by
  unfold SameElement at *
  rw [← nsmul_sub, smul_smul, mul_comm, mul_smul, h, smul_zero]

/-! ### Coordinates of a group element -/

/-- The coordinates stand for the group element: they are coordinates of an even point in its class. -/
def Stands (P : Point) (g : RG) : Prop := ∃ A : E, Rep P A ∧ Even A ∧ cls A = g

theorem Stands.unique {P : Point} {g h : RG} (hg : Stands P g) (hh : Stands P h) : g = h := by
  obtain ⟨A, rA, -, rfl⟩ := hg
  obtain ⟨C, rC, -, rfl⟩ := hh
  rw [rA.unique rC]

theorem stands_affine (g : RG) : Stands (affine g.pt) g := ⟨g.pt, rep _, g.even, cls_of g⟩

theorem stands_identity : Stands Point.identity 0 := ⟨0, rep_identity, even_zero, map_zero _⟩

theorem stands_generator : Stands Point.generator (base : RG) := ⟨B, rep_generator, even_B, cls_B⟩

theorem Stands.add {P Q : Point} {g h : RG} (hP : Stands P g) (hQ : Stands Q h) : Stands (Point.add P Q) (g + h) := by
  obtain ⟨A, rA, eA, rfl⟩ := hP
  obtain ⟨C, rC, eC, rfl⟩ := hQ
  exact ⟨A + C, rep_add rA rC, eA.add eC, map_add _ _ _⟩

theorem Stands.negate {P : Point} {g : RG} (hP : Stands P g) : Stands (Point.negate P) (-g) := by
  obtain ⟨A, rA, eA, rfl⟩ := hP
  exact ⟨-A, rep_negate rA, eA.neg, map_neg _ _⟩

theorem Stands.subtract {P Q : Point} {g h : RG} (hP : Stands P g) (hQ : Stands Q h) : Stands (Point.subtract P Q) (g - h) := by
  rw [sub_eq_add_neg]
  exact hP.add hQ.negate

theorem Stands.scalarMult {P : Point} {g : RG} (s : Scalar) (hP : Stands P g) : Stands (Point.scalarMult s P) (s • g) := by
  obtain ⟨A, rA, eA, rfl⟩ := hP
  exact ⟨s.val • A, rep_scalarMult s rA, eA.nsmul _, by rw [map_nsmul, RG.smul_eq]⟩

theorem stands_scalarBaseMult (s : Scalar) : Stands (Point.scalarBaseMult s) (s • (base : RG)) := stands_generator.scalarMult s

theorem Stands.doubleScalarBaseMult {P : Point} {g : RG} (a b : Scalar) (hP : Stands P g) :
    Stands (Point.doubleScalarBaseMult a P b) (a • g + b • (base : RG)) := (hP.scalarMult a).add (stands_scalarBaseMult b)

theorem stands_multiScalarMult {p : List Point} {g : List RG} (h : List.Forall₂ Stands p g) :
    ∀ s : List Scalar, s.length = p.length → Stands (Point.multiScalarMult s p) ((s.zip g).map fun x => x.1 • x.2).sum := by
  induction h with
  | nil =>
    intro s hl
    have : s = [] := List.length_eq_zero_iff.1 hl
    subst this
    exact stands_identity
  | cons h _ ih =>
    intro s hl
    cases s with
    | nil => simp at hl
    | cons s ss =>
      have := (h.scalarMult s).add (ih ss (by simpa using hl))
      rw [Point.multiScalarMult, List.zip_cons_cons, List.map_cons, List.sum_cons]
      exact this

theorem RG.bytes_def (g : RG) : RGroup.bytes g = Ristretto.bytes (affine g.pt) := rfl

theorem RG.bytesEd25519_def (g : RG) : RGroup.bytesEd25519 g = edBytes g.pt := rfl

theorem RG.setCanonicalBytes_def (b : Bytes) : (RGroup.setCanonicalBytes b : Option RG) = RG.setCanonicalBytes b := rfl

theorem Stands.equal {P Q : Point} {g h : RG} (hP : Stands P g) (hQ : Stands Q h) : Ristretto.equal P Q = true ↔ g = h := by
  obtain ⟨A, rA, eA, rfl⟩ := hP
  obtain ⟨C, rC, eC, rfl⟩ := hQ
  rw [equal_iff rA rC, cls_eq_iff eA eC]

theorem Stands.bytes {P : Point} {g : RG} (hP : Stands P g) : Ristretto.bytes P = RGroup.bytes g := by
  obtain ⟨A, rA, eA, rfl⟩ := hP
  rw [RG.bytes_def]
  exact (bytes_eq_iff rA eA (rep _) (cls A).even).2 (same_cls eA)

theorem bytesEd25519_of_rep {P : Point} {g : RG} {A : E} (rA : Rep P A) (h : cls A = g) :
    Ristretto.bytesEd25519 P = .ok (edBytes g.pt) := h ▸ bytesEd25519_eq rA

theorem Stands.bytesEd25519 {P : Point} {g : RG} (hP : Stands P g) : Ristretto.bytesEd25519 P = .ok (RGroup.bytesEd25519 g) := by
  obtain ⟨A, rA, -, hg⟩ := hP
  exact (bytesEd25519_of_rep rA hg).trans (congrArg _ (RG.bytesEd25519_def g).symm)

theorem deref_ne_err {α : Type} (o : Option α) (e : GoErr) : (Outcome.deref o : GoRes α) ≠ .err e := by
  cases o <;> intro h <;> cases h

theorem setCanonicalBytes_err {b : Bytes} {e : GoErr} (h : Ristretto.setCanonicalBytes b = .err e) : e = .nonCanonical := by
  unfold Ristretto.setCanonicalBytes at h
  split at h
  · cases h; rfl
  simp only at h
  split at h
  · cases h; rfl
  split at h
  · cases h; rfl
  split at h
  · cases h; rfl
  · exact absurd h (deref_ne_err _ _)

/-- Decoding on coordinates and decoding of group elements. -/
theorem setCanonicalBytes_stands (b : Bytes) :
    (∃ P g, Ristretto.setCanonicalBytes b = .ok P ∧ RGroup.setCanonicalBytes b = some (g : RG) ∧ Stands P g) ∨
    (Ristretto.setCanonicalBytes b = .err .nonCanonical ∧ RGroup.setCanonicalBytes b = (none : Option RG)) := by
  cases h : Ristretto.setCanonicalBytes b with
  | ok P =>
    left
    obtain ⟨C, eC, rfl, -⟩ := setCanonicalBytes_ok h
    refine ⟨_, cls C, rfl, ?_, C, rep C, eC, rfl⟩
    rw [RG.setCanonicalBytes_def, RG.setCanonicalBytes]
    rw [h]
    simp only
    rw [ofPoint_rep (rep C)]
  | err e =>
    right
    refine ⟨by rw [setCanonicalBytes_err h], ?_⟩
    rw [RG.setCanonicalBytes_def, RG.setCanonicalBytes]
    rw [h]
  | panic => exact absurd h (setCanonicalBytes_no_panic b)

theorem setUniformBytes_ok {b : Bytes} (h : b.length = 64) : ∃ P A, Ristretto.setUniformBytes b = .ok P ∧ Rep P A ∧ Even A := by
  unfold Ristretto.setUniformBytes
  rw [if_neg (by rw [h]; decide)]
  rw [sliceTo, if_pos (by omega), Outcome.ok_bind, sliceFrom, if_pos (by omega)]
  obtain ⟨P1, A1, h1, r1, e1⟩ := mapToPoint_ok ((Fp.setBytes (b.take 32)).getD 0)
  obtain ⟨P2, A2, h2, r2, e2⟩ := mapToPoint_ok ((Fp.setBytes (b.drop 32)).getD 0)
  rw [h1, Outcome.ok_bind, Outcome.ok_bind, h2, Outcome.ok_bind]
  exact ⟨_, _, rfl, rep_add r1 r2, e1.add e2⟩

/-! ### RFC 8032 -/

theorem decodes_iff (b : Bytes) (A : E) : Spec.Ed25519.Decodes b A ↔ b = edBytes A := by
  have key : A.y.val + 2 ^ 255 * (A.x.val % 2) = leNat (edBytes A) := by
    rw [leNat_edBytes]
    unfold Fp.isNegative
    simp only [decide_eq_true_eq]
    split <;> omega
  unfold Spec.Ed25519.Decodes
  rw [key]
  constructor
  · rintro ⟨hl, hv⟩
    exact leNat_inj (hl.trans (edBytes_length A).symm) hv
  · rintro rfl
    exact ⟨edBytes_length A, rfl⟩

theorem sqrtRatio_point {A : E} {u v : Fp} (hu : u = A.y * A.y - 1) (hv : v = A.y * A.y * Point.libD + 1) :
    Fp.sqrtRatio u v = (Fp.absolute A.x, true) := by
  have hv0 : v ≠ 0 := by
    have := neg_d 1 A.y
    intro h
    exact one_ne_zero (this (by linear_combination h - hv)).1
  have on := on' A
  have huv : A.x ^ 2 * v = u := by rw [hv, hu]; linear_combination -on
  by_cases hu0 : u = 0
  · have hx : A.x = 0 := by
      rw [hu0] at huv
      have := (mul_eq_zero.1 huv).resolve_right hv0
      exact pow_eq_zero_iff (two_ne_zero) |>.1 this
    rw [hx, hu0, Fp.sqrtRatio_zero_left, Fp.absolute_eq_zero.2 rfl]
  · obtain ⟨h1, h2, h3, -⟩ := Fp.sqrtRatio_spec hu0 hv0
    have hs : (Fp.sqrtRatio u v).2 = true := by
      rw [h2, ← huv]
      exact ⟨A.x * v, by ring⟩
    refine Prod.ext ?_ hs
    refine Fp.eq_of_sq_eq ?_ h1 (Fp.isNegative_absolute _)
    rw [Fp.absolute_sq]
    refine mul_left_cancel₀ hv0 ?_
    rw [h3 hs, ← huv]
    ring

theorem setBytesRoot_true (y x0 : Fp) (sign : Bool) : Point.setBytesRoot y sign (x0, true)
    = some ⟨Fp.select (-x0) x0 sign, y, 1, Fp.select (-x0) x0 sign * y⟩ := rfl

theorem setBytes_eq {b : Bytes} {y x0 x : Fp} (hb : Fp.setBytes b = some y)
    (hs : Fp.sqrtRatio (y * y - 1) (y * y * Point.libD + 1) = (x0, true))
    (hx : Fp.select (-x0) x0 (decide (leNat b / 2 ^ 255 = 1)) = x) : Point.setBytes b = some ⟨x, y, 1, x * y⟩ := by
  unfold Point.setBytes
  rw [hb]
  show Point.setBytesRoot _ _ (Fp.sqrtRatio _ _) = _
  rw [hs, setBytesRoot_true, hx]

theorem setBytes_edBytes (A : E) : Point.setBytes (edBytes A) = some (affine A) := by
  refine setBytes_eq (y := A.y) (x := A.x) ?_ (sqrtRatio_point rfl rfl) ?_
  · rw [Fp.setBytes_32 (edBytes_length A), edBytes_mod, ZMod.natCast_zmod_val]
  · have hdiv := edBytes_div A
    generalize leNat (edBytes A) / 2 ^ 255 = t at hdiv ⊢
    unfold Fp.select Fp.absolute
    simp only [decide_eq_true_eq, hdiv]
    split <;> simp

end Verif.Curve
