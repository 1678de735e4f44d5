import Verif.Lemmas.Hits
import Verif.Props.Ristretto

/-!
C111: how evenly `SetUniformBytes` (pkg/ristretto/ristretto.go:122-208) spreads its inputs over the group.
-/

namespace Verif.Props

open Verif Curve Spec Random

/-- `g` as coordinates and coordinates of `g`. -/
theorem equal_iff_cls {P Q : Point} {A C : E} (hP : Rep P A) (hA : Curve.Even A) (hQ : Rep Q C) (hC : Curve.Even C) :
    Ristretto.equal P Q = true ↔ cls A = cls C := by rw [equal_iff hP hQ, cls_eq_iff hA hC]

theorem map_equal_iff {Q : Point} {C : E} (hQ : Rep Q C) (hC : Curve.Even C) (t : Fp) :
    (∃ P, Ristretto.mapToPoint t = .ok P ∧ Ristretto.equal P Q = true) ↔ t ∈ hits (cls C) := by
  obtain ⟨P, A, h1, h2, h3, h4⟩ := mapped_spec t
  rw [mem_hits, ← h4, ← equal_iff_cls h2 h3 hQ hC]
  constructor
  · rintro ⟨P', h5, h6⟩
    rw [h1] at h5
    cases h5
    exact h6
  · exact fun h => ⟨P, h1, h⟩

theorem uniform_equal_iff {Q : Point} {C : E} (hQ : Rep Q C) (hC : Curve.Even C) (b : Block) :
    (∃ P, Ristretto.setUniformBytes b.1 = .ok P ∧ Ristretto.equal P Q = true) ↔ mapped (feOf (lo b)) + mapped (feOf (hi b)) = cls C := by
  obtain ⟨P, A, h1, h2, h3, h4⟩ := setUniform_spec b
  rw [← h4, ← equal_iff_cls h2 h3 hQ hC]
  constructor
  · rintro ⟨P', h5, h6⟩
    rw [h1] at h5
    cases h5
    exact h6
  · exact fun h => ⟨P, h1, h⟩

/-! ### C111 -/

/-- `mapToPoint` takes at most 32 of the `2^255 - 19` field elements to any one group element. -/
theorem C111_map {Q : Point} {C : E} (hQ : Rep Q C) (hC : Curve.Even C) :
    {t : Fp | ∃ P, Ristretto.mapToPoint t = .ok P ∧ Ristretto.equal P Q = true}.ncard ≤ 32 := by
  have : {t : Fp | ∃ P, Ristretto.mapToPoint t = .ok P ∧ Ristretto.equal P Q = true} = hits (cls C) :=
    Set.ext fun t => map_equal_iff hQ hC t
  rw [this]
  exact hits_card _

/-- It gives the same coordinates for `t` and `-t`. -/
theorem C111_sign (t : Fp) : Ristretto.mapToPoint (-t) = Ristretto.mapToPoint t := by
  unfold Ristretto.mapToPoint
  rw [neg_mul_neg]
  simp only [mul_neg _ t, Fp.absolute_neg]

/-- No element is given by more than `2^263` of the `2^512` strings of 64 bytes: an element from uniform bytes has at least 249 bits
of min-entropy, where 252.0 is the most that is possible. -/
theorem C111_spread {Q : Point} {C : E} (hQ : Rep Q C) (hC : Curve.Even C) :
    {b : Block | ∃ P, Ristretto.setUniformBytes b.1 = .ok P ∧ Ristretto.equal P Q = true}.ncard ≤ 2 ^ 263 := by
  have : {b : Block | ∃ P, Ristretto.setUniformBytes b.1 = .ok P ∧ Ristretto.equal P Q = true} =
      {b : Block | mapped (feOf (lo b)) + mapped (feOf (hi b)) = cls C} := Set.ext fun b => uniform_equal_iff hQ hC b
  rw [this]
  exact uniform_card _

/-- The same as a probability. -/
theorem C111_probability {Q : Point} {C : E} (hQ : Rep Q C) (hC : Curve.Even C) :
    Spec.prob (fun b : Block => ∃ P, Ristretto.setUniformBytes b.1 = .ok P ∧ Ristretto.equal P Q = true) ≤ 1 / 2 ^ 249 := by
  have h := C111_spread hQ hC
  unfold Spec.prob
  rw [card_block, div_le_div_iff₀ (by positivity) (by positivity)]
  have h' : (Nat.card {b : Block // ∃ P, Ristretto.setUniformBytes b.1 = .ok P ∧ Ristretto.equal P Q = true} : ℝ) ≤ 2 ^ 263 := by
    exact_mod_cast h
  calc _ ≤ (2 : ℝ) ^ 263 * 2 ^ 249 := by gcongr
    _ = 1 * ((2 ^ 512 : ℕ) : ℝ) := by push_cast; rw [one_mul, ← pow_add]

/-- Two elements made from independent uniform bytes are equal with probability at most `2^-249`. -/
theorem C111_collision : Spec.prob (fun x : Block × Block => ∃ P Q, Ristretto.setUniformBytes x.1.1 = .ok P ∧
    Ristretto.setUniformBytes x.2.1 = .ok Q ∧ Ristretto.equal P Q = true) ≤ 1 / 2 ^ 249 := by
  have key : {x : Block × Block | ∃ P Q, Ristretto.setUniformBytes x.1.1 = .ok P ∧
      Ristretto.setUniformBytes x.2.1 = .ok Q ∧ Ristretto.equal P Q = true}.ncard ≤ 2 ^ 263 * 2 ^ 512 := by
    refine ncard_fibres (T := (Set.univ : Set Block)) Prod.snd (by rw [Set.ncard_univ, card_block]) (fun _ _ => trivial) fun c _ => ?_
    obtain ⟨Q, C, h1, h2, h3, -⟩ := setUniform_spec c
    refine le_trans ?_ (C111_spread h2 h3)
    have hinj : Set.InjOn (Prod.fst : Block × Block → Block) {x | x ∈ {x : Block × Block | ∃ P Q, Ristretto.setUniformBytes x.1.1 = .ok P ∧
        Ristretto.setUniformBytes x.2.1 = .ok Q ∧ Ristretto.equal P Q = true} ∧ x.2 = c} := by
      rintro ⟨a, _⟩ ⟨-, rfl⟩ ⟨b, _⟩ ⟨-, hb⟩ h
      exact Prod.ext h hb.symm
    rw [← hinj.ncard_image]
    refine Set.ncard_le_ncard ?_ (Set.toFinite _)
    rintro _ ⟨⟨a, _⟩, ⟨⟨P, Q', g1, g2, g3⟩, rfl⟩, rfl⟩
    rw [h1] at g2
    cases g2
    exact ⟨P, g1, g3⟩
  unfold Spec.prob
  rw [Nat.card_prod, card_block, div_le_div_iff₀ (by positivity) (by positivity)]
  have h' : (Nat.card {x : Block × Block // ∃ P Q, Ristretto.setUniformBytes x.1.1 = .ok P ∧
      Ristretto.setUniformBytes x.2.1 = .ok Q ∧ Ristretto.equal P Q = true} : ℝ) ≤ 2 ^ 263 * 2 ^ 512 := by
    exact_mod_cast key
  calc _ ≤ (2 : ℝ) ^ 263 * 2 ^ 512 * 2 ^ 249 := by gcongr
    _ = 1 * ((2 ^ 512 * 2 ^ 512 : ℕ) : ℝ) := by push_cast; rw [one_mul, ← pow_add, ← pow_add, ← pow_add]

/-- At least a 32nd part as many elements are reached as there are field elements, about a quarter of the group. -/
theorem C111_reached : p ≤ 32 * {g : RG | ∃ t P A, Ristretto.mapToPoint t = .ok P ∧ Rep P A ∧ cls A = g}.ncard := by
  have h1 : (Set.univ : Set Fp).ncard = p := by rw [Set.ncard_univ]; exact Nat.card_zmod p
  have : Finite RG := Nat.finite_of_card_ne_zero (by rw [C62_order.2.2.1]; decide +kernel)
  refine h1.symm.le.trans ?_
  refine ncard_fibres mapped le_rfl (fun t _ => ?_) fun g _ => le_trans (Set.ncard_le_ncard ?_ (Set.toFinite _)) (hits_card g)
  · obtain ⟨P, A, h1, h2, h3, h4⟩ := mapped_spec t
    exact ⟨t, P, A, h1, h2, h4⟩
  · rintro t ⟨-, ht⟩
    exact mem_hits.mpr ht

/-- The distribution is not exactly uniform, as the comment in the code has it: not every element is given by the same number of
strings. -/
theorem C111_not_uniform : ¬ ∃ N : ℕ, ∀ (Q : Point) (C : E), Rep Q C → Curve.Even C →
    {b : Block | ∃ P, Ristretto.setUniformBytes b.1 = .ok P ∧ Ristretto.equal P Q = true}.ncard = N := by
  rintro ⟨N, h⟩
  have hN : ∀ g : RG, Nat.card {b : Block // mapped (feOf (lo b)) + mapped (feOf (hi b)) = g} = N := by
    intro g
    rw [← h (affine g.pt) g.pt (Curve.rep _) g.even]
    refine congrArg Set.ncard (Set.ext fun b => ?_)
    rw [Set.mem_setOf_eq, uniform_equal_iff (Curve.rep _) g.even, cls_of]
    exact Iff.rfl
  have : Finite RG := Nat.finite_of_card_ne_zero (by rw [C62_order.2.2.1]; decide +kernel)
  have := Fintype.ofFinite RG
  have h1 : Nat.card Block = q * N := by
    rw [← Nat.card_congr (Equiv.sigmaFiberEquiv fun b : Block => mapped (feOf (lo b)) + mapped (feOf (hi b))), Nat.card_sigma,
      Finset.sum_congr rfl fun g _ => hN g, Finset.sum_const, Finset.card_univ, ← Nat.card_eq_fintype_card, C62_order.2.2.1, smul_eq_mul]
  have h2 : q ∣ 2 ^ 512 := ⟨N, by rw [← card_block, h1]⟩
  have h3 := (Nat.Prime.dvd_of_dvd_pow C62_primes.2.1 h2)
  exact absurd (Nat.le_of_dvd (by decide) h3) (by decide +kernel)

end Verif.Props
