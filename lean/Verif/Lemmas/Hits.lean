import Verif.Curve.Code
import Verif.Lemmas.Random
import Mathlib.Data.Set.Card
import Mathlib.Combinatorics.Pigeonhole

/-!
How many field elements `mapToPoint` takes to one group element, and how many byte strings `SetUniformBytes`.
-/

namespace Verif.Curve

open Verif (Fp Point Scalar Bytes Outcome GoRes)
open Verif.Spec

/-- A quadratic equation that is not trivial has at most two solutions. -/
theorem quadratic {a b c : Fp} (h : ¬ (a = 0 ∧ b = 0 ∧ c = 0)) : {r : Fp | a * r ^ 2 + b * r + c = 0}.ncard ≤ 2 := by
  by_contra hc
  obtain ⟨x, y, z, hx, hy, hz, hxy, hxz, hyz⟩ := (Set.two_lt_ncard_iff (Set.toFinite _)).mp (not_le.mp hc)
  simp only [Set.mem_setOf_eq] at hx hy hz
  have h1 : a * (x + y) + b = 0 := by
    refine (mul_eq_zero.mp (?_ : (x - y) * (a * (x + y) + b) = 0)).resolve_left (sub_ne_zero.mpr hxy)
    linear_combination hx - hy
  have h2 : a * (x + z) + b = 0 := by
    refine (mul_eq_zero.mp (?_ : (x - z) * (a * (x + z) + b) = 0)).resolve_left (sub_ne_zero.mpr hxz)
    linear_combination hx - hz
  have ha : a = 0 := by
    refine (mul_eq_zero.mp (?_ : (y - z) * a = 0)).resolve_left (sub_ne_zero.mpr hyz)
    linear_combination h1 - h2
  have hb : b = 0 := by rw [ha] at h1; linear_combination h1
  exact h ⟨ha, hb, by rw [ha, hb] at hx; linear_combination hx⟩

theorem d_ne_zero : (Point.libD : Fp) ≠ 0 := by decide +kernel

theorem one_sub_d_sq : (1 - Point.libD ^ 2 : Fp) ≠ 0 := by decide +kernel

/-- At most four values of `r` give the same square. -/
theorem quartic_card (σ : Fp) : {r : Fp | Quartic σ r}.ncard ≤ 4 := by
  have h2 : {r : Fp | (-1 - r * Point.libD) * (r + Point.libD) * σ = r * ((r + 1) * (1 - Point.libD ^ 2))}.ncard ≤ 2 := by
    refine le_trans (Set.ncard_le_ncard (fun r hr => ?_) (Set.toFinite _)) (quadratic (a := (1 - Point.libD ^ 2) + Point.libD * σ)
      (b := (1 - Point.libD ^ 2) + (1 + Point.libD ^ 2) * σ) (c := Point.libD * σ) ?_)
    · simp only [Set.mem_setOf_eq] at hr ⊢
      linear_combination -hr
    · rintro ⟨ha, -, hc⟩
      rw [hc, add_zero] at ha
      exact one_sub_d_sq ha
  by_cases hσ : σ = 0
  · have h1 : {r : Fp | (-1 - r * Point.libD) * (r + Point.libD) = 0}.ncard ≤ 2 := by
      refine le_trans (Set.ncard_le_ncard (fun r hr => ?_) (Set.toFinite _)) (quadratic (a := Point.libD) (b := 1 + Point.libD ^ 2)
        (c := Point.libD) fun h => d_ne_zero h.1)
      simp only [Set.mem_setOf_eq] at hr ⊢
      linear_combination -hr
    refine le_trans (Set.ncard_le_ncard (fun r hr => ?_) (Set.toFinite _)) ((Set.ncard_union_le _ _).trans (add_le_add h1 h2))
    rcases hr with hr | hr | ⟨hr, -⟩
    · right
      simp only [Set.mem_setOf_eq]
      rw [hσ, mul_zero] at hr ⊢
      rw [← hr, mul_zero]
    · exact Or.inr hr
    · exact Or.inl hr
  · have h1 : {r : Fp | (-1 - r * Point.libD) * (r + Point.libD) * σ = (r + 1) * (1 - Point.libD ^ 2)}.ncard ≤ 2 := by
      refine le_trans (Set.ncard_le_ncard (fun r hr => ?_) (Set.toFinite _)) (quadratic (a := Point.libD * σ)
        (b := (1 - Point.libD ^ 2) + (1 + Point.libD ^ 2) * σ) (c := (1 - Point.libD ^ 2) + Point.libD * σ)
        fun h => mul_ne_zero d_ne_zero hσ h.1)
      simp only [Set.mem_setOf_eq] at hr ⊢
      linear_combination -hr
    refine le_trans (Set.ncard_le_ncard (fun r hr => ?_) (Set.toFinite _)) ((Set.ncard_union_le _ _).trans (add_le_add h1 h2))
    rcases hr with hr | hr | ⟨-, hr⟩
    · exact Or.inl hr
    · exact Or.inr hr
    · exact absurd hr hσ

/-- Sets of field elements that a map with small fibres takes into a small set are small. -/
theorem ncard_fibres {α β : Type} [Finite α] [Finite β] {S : Set α} {T : Set β} {n m : Nat} (f : α → β) (hT : T.ncard ≤ m) (hf : ∀ a ∈ S, f a ∈ T)
    (hn : ∀ b ∈ T, {a ∈ S | f a = b}.ncard ≤ n) : S.ncard ≤ n * m := by
  classical
  have hS := Set.toFinite S
  have hTf := Set.toFinite T
  rw [Set.ncard_eq_toFinset_card S hS]
  rw [Set.ncard_eq_toFinset_card T hTf] at hT
  refine le_trans (Finset.card_le_mul_card_image_of_maps_to (f := f) (t := hTf.toFinset) (fun a ha => ?_) n fun b hb => ?_) (Nat.mul_le_mul_left n hT)
  · exact hTf.mem_toFinset.mpr (hf a (hS.mem_toFinset.mp ha))
  · refine le_trans (le_of_eq ?_) (hn b (hTf.mem_toFinset.mp hb))
    rw [Set.ncard_eq_toFinset_card _ (Set.toFinite _)]
    congr 1
    ext a
    simp

/-- At most eight inputs give the same square. -/
theorem quartic_inputs (σ : Fp) : {t : Fp | Quartic σ (Fp.libSqrtM1 * (t * t))}.ncard ≤ 8 := by
  refine ncard_fibres (n := 2) (m := 4) (fun t => Fp.libSqrtM1 * (t * t)) (quartic_card σ) (fun t ht => ht) fun r _ => ?_
  refine le_trans (Set.ncard_le_ncard (fun t ht => ?_) (Set.toFinite _)) (quadratic (a := Fp.libSqrtM1) (b := 0) (c := -r) fun h => Fp.i_ne_zero h.1)
  have : Fp.libSqrtM1 * (t * t) = r := ht.2
  simp only [Set.mem_setOf_eq]
  linear_combination this

/-- The field elements that `mapToPoint` takes to coordinates of the group element `g`. -/
def hits (g : RG) : Set Fp := {t | ∃ P A, Ristretto.mapToPoint t = .ok P ∧ Rep P A ∧ cls A = g}

theorem sigma_of_y {A : E} {σ : Fp} (h : A.y * (1 + σ) = 1 - σ) : σ = (1 - A.y) / (1 + A.y) := by
  have h1 : 1 + A.y ≠ 0 := by
    intro h0
    have hy : A.y = -1 := by linear_combination h0
    rw [hy] at h
    exact Fp.two_ne_zero (by linear_combination -h)
  rw [eq_div_iff h1]
  linear_combination h

theorem rep_unique {P : Point} {A C : E} (h1 : Rep P A) (h2 : Rep P C) : A = C := by rw [← ofPoint_rep h1, ofPoint_rep h2]

/-- No element is hit by more than 32 field elements. -/
theorem hits_card (g : RG) : (hits g).ncard ≤ 32 := by
  have key : hits g ⊆ ⋃ C ∈ ({g.pt, g.pt + T2, g.pt + T4, g.pt - T4} : Set E), {t : Fp | Quartic ((1 - C.y) / (1 + C.y)) (Fp.libSqrtM1 * (t * t))} := by
    rintro t ⟨P, A, h1, h2, h3⟩
    obtain ⟨P', A', σ, h1', h2', h4, h5, h6⟩ := mapToPoint_quartic t
    rw [h1] at h1'
    cases h1'
    cases rep_unique h2 h2'
    rw [sigma_of_y h5] at h6
    have h7 : SameElement A g.pt := by rw [← h3]; exact same_cls h4
    have h8 : A = g.pt + (A - g.pt) := by abel
    rw [Set.mem_iUnion₂]
    refine ⟨A, ?_, h6⟩
    rcases (four_torsion _).mp (show 4 • (A - g.pt) = 0 from h7) with h | h | h | h <;> rw [h] at h8
    · left; simpa using h8
    · right; left; exact h8
    · right; right; left; exact h8
    · right; right; right; rw [h8]; exact (sub_eq_add_neg _ _).symm
  refine le_trans (Set.ncard_le_ncard key (Set.toFinite _)) ?_
  simp only [Set.biUnion_insert, Set.biUnion_singleton]
  refine le_trans (Set.ncard_union_le _ _) ?_
  refine le_trans (add_le_add (quartic_inputs _) (Set.ncard_union_le _ _)) ?_
  have h3 := Set.ncard_union_le {t : Fp | Quartic ((1 - (g.pt + T4).y) / (1 + (g.pt + T4).y)) (Fp.libSqrtM1 * (t * t))}
    {t : Fp | Quartic ((1 - (g.pt - T4).y) / (1 + (g.pt - T4).y)) (Fp.libSqrtM1 * (t * t))}
  have := quartic_inputs ((1 - (g.pt + T2).y) / (1 + (g.pt + T2).y))
  have := quartic_inputs ((1 - (g.pt + T4).y) / (1 + (g.pt + T4).y))
  have := quartic_inputs ((1 - (g.pt - T4).y) / (1 + (g.pt - T4).y))
  omega

/-! ### Bytes -/

/-- 32 bytes. -/
abbrev Half := {b : Bytes // b.length = 32}

theorem pow_half : 256 ^ 32 = 2 ^ 256 := by decide +kernel

/-- They are numbers below `2^256`. -/
def halfEquiv : Half ≃ Fin (2 ^ 256) where
  toFun b := ⟨leNat b.1, by have := leNat_lt b.1; rwa [b.2, pow_half] at this⟩
  invFun n := ⟨natLE 32 n, natLE_length _ _⟩
  left_inv b := by
    apply Subtype.ext
    show natLE 32 (leNat b.1) = b.1
    have := natLE_leNat b.1
    rwa [b.2] at this
  right_inv n := by
    apply Fin.ext
    show leNat (natLE 32 n) = n
    rw [leNat_natLE, pow_half, Nat.mod_eq_of_lt n.2]

instance : Finite Half := Finite.of_equiv _ halfEquiv.symm

theorem card_half : Nat.card Half = 2 ^ 256 := by rw [Nat.card_congr halfEquiv, Nat.card_fin]

/-- The field element that 32 bytes are read as. -/
def feOf (b : Half) : Fp := (Fp.setBytes b.1).getD 0

theorem feOf_eq (b : Half) : feOf b = ((leNat b.1 % 2 ^ 255 : ℕ) : Fp) := by
  rw [feOf, Fp.setBytes, if_neg (by rw [b.2]; decide)]
  rfl

/-- At most four strings are read as the same field element. -/
theorem feOf_card (t : Fp) : {b : Half | feOf b = t}.ncard ≤ 4 := by
  have hp : p = 2 ^ 255 - 19 := by decide +kernel
  have : (fun b : Half => leNat b.1) '' {b : Half | feOf b = t} ⊆
      (({t.val, t.val + p, t.val + 2 ^ 255, t.val + p + 2 ^ 255} : Finset ℕ) : Set ℕ) := by
    rintro n ⟨b, hb, rfl⟩
    have hlt : leNat b.1 < 2 ^ 256 := (halfEquiv b).2
    have hb : ((leNat b.1 % 2 ^ 255 : ℕ) : Fp) = t := (feOf_eq b).symm.trans hb
    have hmod : leNat b.1 % 2 ^ 255 % p = t.val := by rw [← hb, ZMod.val_natCast]
    have h1 := Nat.mod_add_div (leNat b.1 % 2 ^ 255) p
    have h2 := Nat.mod_add_div (leNat b.1) (2 ^ 255)
    have h3 : leNat b.1 / 2 ^ 255 < 2 := by omega
    have h4 : leNat b.1 % 2 ^ 255 / p < 2 := by
      rw [Nat.div_lt_iff_lt_mul (by rw [hp]; norm_num)]
      have := Nat.mod_lt (leNat b.1) (show 0 < 2 ^ 255 by norm_num)
      rw [hp]
      omega
    rw [hmod] at h1
    simp only [Finset.coe_insert, Finset.coe_singleton, Set.mem_insert_iff, Set.mem_singleton_iff]
    generalize leNat b.1 % 2 ^ 255 / p = x at h1 h4
    generalize leNat b.1 / 2 ^ 255 = y at h2 h3
    interval_cases x <;> interval_cases y <;> omega
  have hinj : Function.Injective fun b : Half => leNat b.1 := fun b c h => halfEquiv.injective (Fin.ext h)
  rw [← Set.ncard_image_of_injective _ hinj]
  refine le_trans (Set.ncard_le_ncard this (Finset.finite_toSet _)) ?_
  rw [Set.ncard_coe_finset]
  exact Finset.card_le_four

/-- The two halves of 64 bytes. -/
def lo (b : Block) : Half := ⟨b.1.take 32, by rw [List.length_take, b.2]; rfl⟩
def hi (b : Block) : Half := ⟨b.1.drop 32, by rw [List.length_drop, b.2]⟩

theorem halves_injective {b c : Block} (h1 : lo b = lo c) (h2 : hi b = hi c) : b = c := by
  apply Subtype.ext
  rw [← List.take_append_drop 32 b.1, ← List.take_append_drop 32 c.1]
  exact congrArg₂ _ (congrArg Subtype.val h1) (congrArg Subtype.val h2)

/-- The element that a field element is mapped to. -/
noncomputable def mapped (t : Fp) : RG := cls (mapToPoint_ok t).choose_spec.choose

theorem mapped_spec (t : Fp) : ∃ P A, Ristretto.mapToPoint t = .ok P ∧ Rep P A ∧ Even A ∧ cls A = mapped t :=
  ⟨_, _, (mapToPoint_ok t).choose_spec.choose_spec.1, (mapToPoint_ok t).choose_spec.choose_spec.2.1,
    (mapToPoint_ok t).choose_spec.choose_spec.2.2, rfl⟩

theorem mem_hits {t : Fp} {g : RG} : t ∈ hits g ↔ mapped t = g := by
  obtain ⟨P, A, h1, h2, h3, h4⟩ := mapped_spec t
  constructor
  · rintro ⟨P', A', h1', h2', h5⟩
    rw [h1] at h1'
    cases h1'
    cases rep_unique h2 h2'
    rw [← h4, h5]
  · rintro rfl
    exact ⟨P, A, h1, h2, h4⟩

/-- What `SetUniformBytes` does. -/
theorem setUniform_spec (b : Block) : ∃ P A, Ristretto.setUniformBytes b.1 = .ok P ∧ Rep P A ∧ Even A ∧
    cls A = mapped (feOf (lo b)) + mapped (feOf (hi b)) := by
  have h := b.2
  unfold Ristretto.setUniformBytes
  rw [if_neg (by rw [h]; decide)]
  rw [sliceTo, if_pos (by omega), Outcome.ok_bind, sliceFrom, if_pos (by omega)]
  obtain ⟨P1, A1, h1, r1, e1, c1⟩ := mapped_spec (feOf (lo b))
  obtain ⟨P2, A2, h2, r2, e2, c2⟩ := mapped_spec (feOf (hi b))
  rw [show Ristretto.mapToPoint ((Fp.setBytes (b.1.take 32)).getD 0) = .ok P1 from h1, Outcome.ok_bind, Outcome.ok_bind,
    show Ristretto.mapToPoint ((Fp.setBytes (b.1.drop 32)).getD 0) = .ok P2 from h2, Outcome.ok_bind]
  exact ⟨_, _, rfl, rep_add r1 r2, e1.add e2, by rw [map_add, c1, c2]⟩

/-- No element is given by more than `2^263` of the `2^512` strings. -/
theorem uniform_card (g : RG) : {b : Block | mapped (feOf (lo b)) + mapped (feOf (hi b)) = g}.ncard ≤ 2 ^ 263 := by
  have hT : {x : Half × Fp | x.2 ∈ hits (g - mapped (feOf x.1))}.ncard ≤ 32 * 2 ^ 256 := by
    refine ncard_fibres (T := (Set.univ : Set Half)) Prod.fst (by rw [Set.ncard_univ, card_half]) (fun _ _ => trivial) fun b _ => ?_
    refine le_trans ?_ (hits_card (g - mapped (feOf b)))
    rw [← Set.ncard_image_of_injective (hits (g - mapped (feOf b))) (Prod.mk_right_injective b)]
    refine Set.ncard_le_ncard ?_ (Set.toFinite _)
    rintro ⟨b', t⟩ ⟨h1, h2⟩
    cases (show b' = b from h2)
    exact ⟨t, h1, rfl⟩
  have := ncard_fibres (S := {b : Block | mapped (feOf (lo b)) + mapped (feOf (hi b)) = g}) (n := 4)
    (fun b => (lo b, feOf (hi b))) hT (fun b hb => by
      show feOf (hi b) ∈ hits (g - mapped (feOf (lo b)))
      rw [mem_hits, ← show mapped (feOf (lo b)) + mapped (feOf (hi b)) = g from hb]
      abel) (fun x hx => by
      refine le_trans ?_ (feOf_card x.2)
      have hinj : Set.InjOn hi {b : Block | b ∈ {b : Block | mapped (feOf (lo b)) + mapped (feOf (hi b)) = g} ∧ (lo b, feOf (hi b)) = x} := by
        rintro b ⟨-, hb⟩ c ⟨-, hc⟩ h
        exact halves_injective ((Prod.mk.inj (hb.trans hc.symm)).1) h
      rw [← hinj.ncard_image]
      refine Set.ncard_le_ncard ?_ (Set.toFinite _)
      rintro _ ⟨b, ⟨-, rfl⟩, rfl⟩
      rfl)
  exact this.trans (show 4 * (32 * 2 ^ 256) ≤ 2 ^ 263 by decide +kernel)

end Verif.Curve
