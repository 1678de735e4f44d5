import Verif.Curve.Map
import Verif.Model.Group
import Verif.Lemmas.Bytes
import Mathlib.Algebra.Module.ZMod

/-!
The group of ristretto255 elements as the subgroup of prime order of the curve, and the class of a point.
-/

namespace Verif.Curve

open Verif Verif.Spec

/-- The points killed by `q`. -/
def primeSubgroup : AddSubgroup E where
  carrier := {C | q • C = 0}
  zero_mem' := smul_zero _
  add_mem' := by
    intro a b ha hb
    show q • (a + b) = 0
    rw [nsmul_add, show q • a = 0 from ha, show q • b = 0 from hb, add_zero]
  neg_mem' := by
    intro a ha
    show q • (-a) = 0
    rw [smul_neg, show q • a = 0 from ha, neg_zero]

/-- The group of ristretto255 elements: every class of even points modulo 4-torsion has exactly one member of order dividing
`q` (`cls_eq_iff`, `same_cls`). -/
def RG : Type := primeSubgroup

instance : AddCommGroup RG := inferInstanceAs (AddCommGroup primeSubgroup)

namespace RG

/-- The point of an element. -/
def pt (g : RG) : E := g.1

theorem q_pt (g : RG) : q • g.pt = 0 := g.2

theorem ext {g h : RG} (e : g.pt = h.pt) : g = h := Subtype.ext e

theorem pt_zero : (0 : RG).pt = 0 := rfl
theorem pt_add (g h : RG) : (g + h).pt = g.pt + h.pt := rfl
theorem pt_neg (g : RG) : (-g).pt = -g.pt := rfl
theorem pt_sub (g h : RG) : (g - h).pt = g.pt - h.pt := rfl
theorem pt_nsmul (n : ℕ) (g : RG) : (n • g).pt = n • g.pt := rfl

theorem even (g : RG) : Even g.pt := even_of_q g.q_pt

theorem q_nsmul (g : RG) : q • g = 0 := ext g.q_pt

end RG

instance : Module Scalar RG := AddCommGroup.zmodModule RG.q_nsmul

theorem RG.smul_eq (s : Scalar) (g : RG) : s • g = s.val • g := by
  conv_lhs => rw [← ZMod.natCast_zmod_val s]
  exact Nat.cast_smul_eq_nsmul _ _ _

theorem RG.pt_smul (s : Scalar) (g : RG) : (s • g).pt = s.val • g.pt := by rw [RG.smul_eq, RG.pt_nsmul]

/-! ### The inverse of the cofactor -/

/-- `1/8` modulo `q`. -/
def k8 : ℕ := 2713877091499598330239944961141122840321418634767465352250731601857045344121

theorem eightInv_eq : Ristretto.eightInv = some ((k8 : ℕ) : Scalar) := by decide +kernel

theorem k8_val : ((k8 : ℕ) : Scalar).val = k8 := by decide +kernel

theorem eight_k8 : (8 * k8) % q = 1 := by decide +kernel

theorem eightInv_mul : ((k8 : ℕ) : Scalar) * 8 = 1 := by decide +kernel

theorem k8_smul {C : E} (h : q • C = 0) : (8 * k8) • C = C := by
  conv_lhs => rw [← Nat.div_add_mod (8 * k8) q, eight_k8, add_nsmul, one_nsmul, mul_comm q, mul_smul, h, smul_zero, zero_add]

/-! ### The class of a point -/

theorem q_k8 (A : E) : q • ((8 * k8) • A) = 0 := by
  rw [smul_smul, ← mul_assoc, mul_comm, mul_smul, card_nsmul, smul_zero]

/-- The element a point stands for. -/
def cls : E →+ RG where
  toFun A := ⟨(8 * k8) • A, q_k8 A⟩
  map_zero' := RG.ext (smul_zero _)
  map_add' A C := RG.ext (nsmul_add _ _ _)

theorem cls_pt (A : E) : (cls A).pt = (8 * k8) • A := rfl

theorem cls_of (g : RG) : cls g.pt = g := RG.ext (k8_smul g.q_pt)

theorem cls_eq_zero {A : E} : cls A = 0 ↔ 8 • A = 0 := by
  constructor
  · intro h
    have h1 : (8 * k8) • A = 0 := congrArg RG.pt h
    have h2 : q • (8 • A) = 0 := by rw [smul_smul, card_nsmul]
    rw [← k8_smul h2, smul_smul, mul_comm, mul_smul, h1, smul_zero]
  · intro h
    refine RG.ext ?_
    rw [cls_pt, mul_comm, mul_smul, h, smul_zero]
    rfl

theorem cls_eq_iff {A C : E} (hA : Even A) (hC : Even C) : cls A = cls C ↔ SameElement A C := by
  rw [← sub_eq_zero, ← map_sub, cls_eq_zero]
  constructor
  · exact four_of_eight (hA.sub hC)
  · intro h
    rw [show 8 = 2 * 4 by rfl, mul_smul, show 4 • (A - C) = 0 from h, smul_zero]

theorem same_cls {A : E} (hA : Even A) : SameElement A (cls A).pt := by
  rw [← cls_eq_iff hA (cls A).even, cls_of]

/-! ### The generator -/

/-- The class of the generator. -/
def RG.base : RG := ⟨B, q_B⟩

theorem RG.base_pt : RG.base.pt = B := rfl

theorem cls_B : cls B = RG.base := cls_of RG.base

theorem RG.base_gen (g : RG) : ∃ k : Scalar, k • RG.base = g := by
  obtain ⟨n, hn⟩ := exists_mul_W g.pt
  have h8 : 8 ∣ n := by
    have h := g.q_pt
    rw [hn, smul_smul, nsmul_W_eq_zero] at h
    exact Nat.dvd_of_mul_dvd_mul_left q_prime.pos h
  have hT : n • T8 = 0 := nsmul_T8_eq_zero.2 h8
  refine ⟨(n : Scalar), RG.ext ?_⟩
  rw [Nat.cast_smul_eq_nsmul, RG.pt_nsmul, RG.base_pt, hn, mul_W, hT, add_zero]

/-! ### The ristretto encoding of an element -/

/-- Affine coordinates. -/
def affine (A : E) : Point := ⟨A.x, A.y, 1, A.x * A.y⟩

theorem rep (A : E) : Rep (affine A) A := rep_affine A

theorem bytes_eq_iff {P Q : Point} {A C : E} (hP : Rep P A) (hA : Even A) (hQ : Rep Q C) (hC : Even C) :
    Ristretto.bytes P = Ristretto.bytes Q ↔ SameElement A C := by
  obtain ⟨A', hA', eA⟩ := encode_spec hP hA
  obtain ⟨C', hC', eC⟩ := encode_spec hQ hC
  constructor
  · intro h
    have h := Fp.bytes_injective h
    rw [h] at eA
    have := eA.point_unique eC
    subst this
    exact hA'.trans hC'.symm
  · intro h
    have : A' = C' := eA.same eC ((hA'.symm.trans h).trans hC')
    subst this
    exact congrArg Fp.bytes (eA.value_unique eC)

theorem setCanonicalBytes_ok {b : Bytes} {P : Point} (h : Ristretto.setCanonicalBytes b = .ok P) :
    ∃ C, Even C ∧ P = affine C ∧ Ristretto.bytes P = b := by
  unfold Ristretto.setCanonicalBytes at h
  split at h
  · cases h
  simp only at h
  split at h
  · cases h
  next hb =>
  split at h
  · cases h
  next hneg =>
  split at h
  · cases h
  next hrej =>
  obtain ⟨C, eC, hC⟩ := decode_ok (by simpa using hneg) (by simpa using hrej)
  rw [hC] at h
  have hv := setExtended_ok (rep C).valid
  simp only [affine] at hv
  rw [hv] at h
  simp only [Outcome.deref] at h
  cases h
  refine ⟨C, eC.even, rfl, ?_⟩
  obtain ⟨C', hC', eC'⟩ := encode_spec (rep C) eC.even
  have : C' = C := (eC.same eC' hC').symm
  subst this
  have : Ristretto.encode (affine C') = _ := eC'.value_unique eC
  show Fp.bytes (Ristretto.encode (affine C')) = b
  rw [this]
  simpa using hb

theorem setCanonicalBytes_bytes {P : Point} {A : E} (hP : Rep P A) (hA : Even A) :
    ∃ C, SameElement A C ∧ Even C ∧ Ristretto.setCanonicalBytes (Ristretto.bytes P) = .ok (affine C) := by
  obtain ⟨C, hC, eC⟩ := encode_spec hP hA
  refine ⟨C, hC, eC.even, ?_⟩
  unfold Ristretto.setCanonicalBytes Ristretto.bytes
  rw [if_neg (by rw [Fp.bytes_length]; decide), Fp.setBytes_bytes]
  simp only [Option.getD_some, ne_eq, not_true_eq_false, if_false]
  rw [if_neg (by rw [eC.s_nonneg]; decide), decode_of_encodes eC]
  simp only [Bool.false_eq_true, if_false]
  have hv := setExtended_ok (rep C).valid
  simp only [affine] at hv
  rw [hv]
  rfl

theorem setCanonicalBytes_no_panic (b : Bytes) : Ristretto.setCanonicalBytes b ≠ .panic := by
  intro h
  unfold Ristretto.setCanonicalBytes at h
  split at h
  · cases h
  simp only at h
  split at h
  · cases h
  split at h
  · cases h
  next hneg =>
  split at h
  · cases h
  next hrej =>
  obtain ⟨C, eC, hC⟩ := decode_ok (by simpa using hneg) (by simpa using hrej)
  rw [hC] at h
  have hv := setExtended_ok (rep C).valid
  simp only [affine] at hv
  rw [hv] at h
  cases h

/-! ### The RFC 8032 encoding -/

theorem or_128 (c : UInt8) (h : c.toNat < 128) : (c ||| 128).toNat = c.toNat + 128 := by
  have key : ∀ n : Fin 128, (n.val ||| 128) = n.val + 128 := by decide +kernel
  rw [UInt8.toNat_or]
  exact key ⟨c.toNat, h⟩

theorem orSign_length (b : Bytes) (sign : Bool) (h : b.length = 32) : (Point.orSign b sign).length = 32 := by
  simp [Point.orSign, h]

theorem leNat_orSign (b : Bytes) (sign : Bool) (h : b.length = 32) (hb : leNat b < 2 ^ 255) :
    leNat (Point.orSign b sign) = leNat b + (if sign then 2 ^ 255 else 0) := by
  obtain ⟨c, hc⟩ : ∃ c, b.drop 31 = [c] := by
    rw [← List.length_eq_one_iff]
    simp [h]
  have h31 : (b.take 31).length = 31 := by simp [h]
  have hb' : leNat b = leNat (b.take 31) + 256 ^ 31 * c.toNat := by
    conv_lhs => rw [← List.take_append_drop 31 b, leNat_append, h31, hc]
    simp [leNat]
  have hc128 : c.toNat < 128 := by
    by_contra hcon
    have : 256 ^ 31 * 128 ≤ 256 ^ 31 * c.toNat := Nat.mul_le_mul_left _ (by omega)
    have e : (256 : ℕ) ^ 31 * 128 = 2 ^ 255 := by norm_num
    omega
  unfold Point.orSign
  rw [leNat_append, h31, hc, hb']
  cases sign
  · simp [leNat]
  · simp only [List.map_cons, List.map_nil, if_true, leNat, or_128 c hc128]
    norm_num
    ring

/-- The RFC 8032 encoding of a point. -/
def edBytes (A : E) : Bytes := Point.orSign (Fp.bytes A.y) (Fp.isNegative A.x)

theorem point_bytes {P : Point} {A : E} (h : Rep P A) : Point.bytes P = edBytes A := by
  unfold Point.bytes edBytes
  simp only [Fp.invert_eq]
  rw [← div_eq_mul_inv, ← div_eq_mul_inv, ← h.x_eq, ← h.y_eq]

theorem edBytes_length (A : E) : (edBytes A).length = 32 := orSign_length _ _ (Fp.bytes_length _)

theorem leNat_y (A : E) : leNat (Fp.bytes A.y) < 2 ^ 255 := by
  rw [Fp.leNat_bytes]
  have := ZMod.val_lt A.y
  have := Fp.p_lt
  omega

theorem leNat_edBytes (A : E) : leNat (edBytes A) = A.y.val + (if Fp.isNegative A.x then 2 ^ 255 else 0) := by
  rw [edBytes, leNat_orSign _ _ (Fp.bytes_length _) (leNat_y A), Fp.leNat_bytes]

theorem y_val_lt (A : E) : A.y.val < 2 ^ 255 := by
  have := leNat_y A
  rwa [Fp.leNat_bytes] at this

theorem edBytes_mod (A : E) : leNat (edBytes A) % 2 ^ 255 = A.y.val := by
  rw [leNat_edBytes]
  have := y_val_lt A
  split <;> omega

theorem edBytes_div (A : E) : (leNat (edBytes A) / 2 ^ 255 = 1) ↔ Fp.isNegative A.x = true := by
  rw [leNat_edBytes]
  have := y_val_lt A
  split
  · next h =>
    simp only [h, iff_true]
    omega
  · next h =>
    simp only [h, Bool.false_eq_true, iff_false, add_zero]
    omega

theorem eq_of_y_sign {A C : E} (hy : A.y = C.y) (hx : Fp.isNegative A.x = Fp.isNegative C.x) : A = C := by
  ext
  · rcases sq_eq_sq_iff_eq_or_eq_neg.1 (x_sq_eq hy) with h | h
    · exact h
    · by_cases h0 : C.x = 0
      · rw [h, h0, neg_zero]
      · rw [h, Fp.isNegative_neg h0] at hx
        cases hb : Fp.isNegative C.x <;> rw [hb] at hx <;> cases hx
  · exact hy

theorem edBytes_injective {A C : E} (h : edBytes A = edBytes C) : A = C := by
  apply eq_of_y_sign
  · apply ZMod.val_injective
    rw [← edBytes_mod, h, edBytes_mod]
  · have hA := edBytes_div A
    rw [h, edBytes_div] at hA
    exact Bool.eq_iff_iff.2 hA.symm

theorem bytesEd25519_eq {P : Point} {A : E} (h : Rep P A) : Ristretto.bytesEd25519 P = .ok (edBytes (cls A).pt) := by
  unfold Ristretto.bytesEd25519
  rw [eightInv_eq]
  show Outcome.ok _ = _
  have := rep_scalarMult ((k8 : ℕ) : Scalar) (rep_multByCofactor h)
  rw [k8_val, smul_smul, mul_comm] at this
  rw [point_bytes this, cls_pt]

/-! ### The interface -/

/-- The point with the given coordinates, `0` if they are not coordinates of a point. -/
def ofPoint (P : Point) : E :=
  if h : (P.Y / P.Z) ^ 2 - (P.X / P.Z) ^ 2 = 1 + EdwardsParams.d * (P.X / P.Z) ^ 2 * (P.Y / P.Z) ^ 2 then ⟨P.X / P.Z, P.Y / P.Z, h⟩
  else 0

theorem ofPoint_rep {P : Point} {A : E} (h : Rep P A) : ofPoint P = A := by
  unfold ofPoint
  have := A.on
  rw [h.x_eq, h.y_eq] at this
  rw [dif_pos this]
  ext
  · exact h.x_eq.symm
  · exact h.y_eq.symm

/-- The element decoded by `SetCanonicalBytes`. -/
def RG.setCanonicalBytes (b : Bytes) : Option RG :=
  match Ristretto.setCanonicalBytes b with
  | .ok P => some (cls (ofPoint P))
  | _ => none

theorem RG.set_bytes (g : RG) : RG.setCanonicalBytes (Ristretto.bytes (affine g.pt)) = some g := by
  obtain ⟨C, hC, heC, h⟩ := setCanonicalBytes_bytes (rep g.pt) g.even
  unfold RG.setCanonicalBytes
  rw [h]
  simp only
  rw [ofPoint_rep (rep C), ← (cls_eq_iff g.even heC).2 hC, cls_of]

theorem RG.bytes_set (b : Bytes) (g : RG) (h : RG.setCanonicalBytes b = some g) : Ristretto.bytes (affine g.pt) = b := by
  unfold RG.setCanonicalBytes at h
  split at h
  · next P hP =>
    obtain ⟨C, heC, rfl, hb⟩ := setCanonicalBytes_ok hP
    rw [ofPoint_rep (rep C)] at h
    cases h
    rw [← hb, bytes_eq_iff (rep _) (cls C).even (rep C) heC]
    exact (same_cls heC).symm
  · cases h

instance : DecidableEq E := fun A C =>
  if h : A.x = C.x ∧ A.y = C.y then .isTrue (Pt.ext h.1 h.2) else .isFalse fun e => h (e ▸ ⟨rfl, rfl⟩)

/-- The ristretto255 group, with the encodings computed by pkg/ristretto/ristretto.go. -/
instance : RGroup RG where
  decEq := fun g h => if e : g.pt = h.pt then .isTrue (RG.ext e) else .isFalse fun e' => e (e' ▸ rfl)
  base := RG.base
  base_ne_zero := fun h => B_ne_zero (congrArg RG.pt h)
  base_gen := RG.base_gen
  bytes g := Ristretto.bytes (affine g.pt)
  setCanonicalBytes := RG.setCanonicalBytes
  bytes_length _ := Fp.bytes_length _
  set_bytes := RG.set_bytes
  bytes_set := RG.bytes_set
  bytesEd25519 g := edBytes g.pt
  bytesEd25519_length _ := edBytes_length _
  bytesEd25519_injective g h e := RG.ext (edBytes_injective e)

end Verif.Curve
