import Mathlib.Algebra.Order.Chebyshev
import Mathlib.Data.Fintype.Pi
import Mathlib.Data.Fintype.BigOperators
import Verif.Spec.Forger

/-!
The forking lemma: an algorithm that is run a second time, with other answers from the place on that matters, is successful again often enough.
-/

namespace Verif.Fork

open Finset Spec



section

variable {N : Nat} {B T : Type} [Fintype B] [Fintype T]

theorem splice_splice (j : Fin N) (u h : Fin N → B) : splice j (splice j u h) (splice j h u) = u := by
  funext k; simp only [splice]; split <;> rfl

theorem splice_left (j : Fin N) (u h h' : Fin N → B) : splice j (splice j u h) h' = splice j u h' := by
  funext k; simp only [splice]; split <;> rfl

theorem splice_right (j : Fin N) (u h : Fin N → B) : splice j u (splice j h u) = u := by
  funext k; simp only [splice]; split <;> rfl

/-- Exchanging the ends. -/
def swap (j : Fin N) : (Fin N → B) × (Fin N → B) ≃ (Fin N → B) × (Fin N → B) where
  toFun p := (splice j p.1 p.2, splice j p.2 p.1)
  invFun p := (splice j p.1 p.2, splice j p.2 p.1)
  left_inv p := Prod.ext (splice_splice j _ _) (splice_splice j _ _)
  right_inv p := Prod.ext (splice_splice j _ _) (splice_splice j _ _)

theorem sum_swap (j : Fin N) (F : (Fin N → B) → (Fin N → B) → ℝ) :
    ∑ u, ∑ h, F u h = ∑ v, ∑ w, F (splice j v w) (splice j w v) := by
  rw [← Fintype.sum_prod_type' F, ← Fintype.sum_prod_type' fun v w => F (splice j v w) (splice j w v)]
  exact (Equiv.sum_comp (swap j) fun p : (Fin N → B) × (Fin N → B) => F p.1 p.2).symm

theorem fork_index (j : Fin N) (f : T → (Fin N → B) → ℝ) :
    (∑ t, ∑ h, f t h) ^ 2 ≤ Fintype.card T * ∑ t, ∑ h, ∑ h', f t h * f t (splice j h h') := by
  classical
  by_cases hB : Nonempty (Fin N → B)
  · have hpos : (0 : ℝ) < Fintype.card (Fin N → B) := by exact_mod_cast Fintype.card_pos
    let a : T → (Fin N → B) → ℝ := fun t u => ∑ h, f t (splice j u h)
    have h1 : ∀ t, ∑ u, a t u = Fintype.card (Fin N → B) * ∑ h, f t h := by
      intro t
      show ∑ u, ∑ h, f t (splice j u h) = _
      rw [sum_swap j]
      simp only [splice_splice, sum_const, card_univ, nsmul_eq_mul]
      rw [mul_sum]
    have h2 : ∀ t, ∑ u, a t u ^ 2 = Fintype.card (Fin N → B) * ∑ h, ∑ h', f t h * f t (splice j h h') := by
      intro t
      have : ∀ u, a t u ^ 2 = ∑ h, ∑ h', f t (splice j u h) * f t (splice j u h') := by
        intro u
        rw [sq, sum_mul_sum]
      simp only [this]
      rw [sum_swap j]
      simp only [splice_left, splice_right, sum_const, card_univ, nsmul_eq_mul]
      rw [mul_sum]
    have h3 := sq_sum_le_card_mul_sum_sq (s := (univ : Finset (T × (Fin N → B)))) (f := fun p => a p.1 p.2)
    rw [Fintype.sum_prod_type, Fintype.sum_prod_type, card_univ, Fintype.card_prod] at h3
    rw [sum_congr rfl fun t _ => h1 t, sum_congr rfl fun t _ => h2 t, ← mul_sum, ← mul_sum, mul_pow] at h3
    push_cast at h3
    have h4 : (Fintype.card (Fin N → B) : ℝ) ^ 2 * (∑ t, ∑ h, f t h) ^ 2 ≤
        (Fintype.card (Fin N → B) : ℝ) ^ 2 * (Fintype.card T * ∑ t, ∑ h, ∑ h', f t h * f t (splice j h h')) := by
      calc _ ≤ _ := h3
        _ = _ := by ring
    exact le_of_mul_le_mul_left h4 (by positivity)
  · have : IsEmpty (Fin N → B) := not_nonempty_iff.mp hB
    simp

theorem prob_eq {Ω : Type} [Fintype Ω] (E : Ω → Prop) [DecidablePred E] : Spec.prob E = (∑ ω, if E ω then 1 else 0) / Fintype.card Ω := by
  unfold Spec.prob
  rw [Nat.card_eq_fintype_card, Nat.card_eq_fintype_card, Fintype.card_subtype, sum_boole]

theorem sum_coordinate (j : Fin N) (g : B → ℝ) : (∑ h : Fin N → B, g (h j)) * Fintype.card B = (∑ b, g b) * Fintype.card (Fin N → B) := by
  classical
  have h1 := Fintype.card_congr (Equiv.funSplitAt j B)
  rw [Fintype.card_prod] at h1
  have h2 : ∑ h : Fin N → B, g (h j) = ∑ p : B × ({k // k ≠ j} → B), g p.1 := Equiv.sum_comp (Equiv.funSplitAt j B) fun p => g p.1
  rw [h2, Fintype.sum_prod_type, h1]
  simp only [sum_const, card_univ, nsmul_eq_mul]
  rw [← mul_sum]
  push_cast
  ring

/-- The forking lemma: `acc` is the place that matters if the algorithm is successful with the answers `h`, `col` says which answers are as good as
equal. -/
theorem fork [Nonempty B] [Nonempty T] (acc : T → (Fin N → B) → Option (Fin N)) (col : B → B → Prop) (δ : ℝ) (hδ : ∀ b, Spec.prob (col b) ≤ δ) :
    Spec.prob (fun p : T × (Fin N → B) => (acc p.1 p.2).isSome = true) ^ 2 / N - Spec.prob (fun p : T × (Fin N → B) => (acc p.1 p.2).isSome = true) * δ ≤
      Spec.prob fun p : T × (Fin N → B) × (Fin N → B) =>
        ∃ j, acc p.1 p.2.1 = some j ∧ acc p.1 (splice j p.2.1 p.2.2) = some j ∧ ¬ col (p.2.1 j) (p.2.2 j) := by
  classical
  have hT : (0 : ℝ) < Fintype.card T := by exact_mod_cast Fintype.card_pos
  have hB : (0 : ℝ) < Fintype.card B := by exact_mod_cast Fintype.card_pos
  have hO : (0 : ℝ) < Fintype.card (Fin N → B) := by exact_mod_cast Fintype.card_pos
  let f : Fin N → T → (Fin N → B) → ℝ := fun j t h => if acc t h = some j then 1 else 0
  let c : B → B → ℝ := fun b b' => if col b b' then 1 else 0
  -- the sum over the places
  have hs : ∀ t h, (if (acc t h).isSome = true then (1 : ℝ) else 0) = ∑ j, f j t h := by
    intro t h
    show _ = ∑ j, if acc t h = some j then (1 : ℝ) else 0
    cases acc t h with
    | none => simp
    | some i => simp
  let W : ℝ := ∑ t, ∑ h, ∑ j, f j t h
  have hε : Spec.prob (fun p : T × (Fin N → B) => (acc p.1 p.2).isSome = true) = W / (Fintype.card T * Fintype.card (Fin N → B)) := by
    rw [prob_eq, Fintype.sum_prod_type, Fintype.card_prod]
    simp only [hs]
    push_cast
    rfl
  -- collisions
  have hcol : ∀ (j : Fin N) b, ∑ h' : Fin N → B, c b (h' j) ≤ δ * Fintype.card (Fin N → B) := by
    intro j b
    have h1 := hδ b
    rw [prob_eq, div_le_iff₀ hB] at h1
    have h2 := sum_coordinate (N := N) j (c b)
    have h3 : (∑ b', c b b') ≤ δ * Fintype.card B := h1
    have h4 : (∑ h' : Fin N → B, c b (h' j)) * Fintype.card B ≤ (δ * Fintype.card (Fin N → B)) * Fintype.card B := by
      rw [h2]
      nlinarith
    exact le_of_mul_le_mul_right h4 hB
  have hpoint : ∀ t h h', (∑ j, f j t h * f j t (splice j h h')) - ∑ j, f j t h * c (h j) (h' j) ≤
      if ∃ j, acc t h = some j ∧ acc t (splice j h h') = some j ∧ ¬ col (h j) (h' j) then (1 : ℝ) else 0 := by
    intro t h h'
    show (∑ j, (if acc t h = some j then (1 : ℝ) else 0) * (if acc t (splice j h h') = some j then 1 else 0)) -
      ∑ j, (if acc t h = some j then (1 : ℝ) else 0) * (if col (h j) (h' j) then 1 else 0) ≤ _
    cases he : acc t h with
    | none => simp
    | some i =>
      simp only [Option.some.injEq, ite_mul, one_mul, zero_mul, sum_ite_eq, mem_univ, if_true]
      by_cases h1 : acc t (splice i h h') = some i
      · by_cases h2 : col (h i) (h' i)
        · simp only [h1, h2, if_true]
          split <;> norm_num
        · rw [if_pos h1, if_neg h2, if_pos ⟨i, rfl, h1, h2⟩]
          norm_num
      · rw [if_neg h1]
        have : (0 : ℝ) ≤ if col (h i) (h' i) then 1 else 0 := by split <;> norm_num
        have : (0 : ℝ) ≤ if ∃ j, i = j ∧ acc t (splice j h h') = some j ∧ ¬ col (h j) (h' j) then 1 else 0 := by split <;> norm_num
        linarith
  have h1 : W ^ 2 ≤ N * (Fintype.card T * ∑ t, ∑ h, ∑ h', ∑ j, f j t h * f j t (splice j h h')) := by
    have hW : W = ∑ j, ∑ t, ∑ h, f j t h := by
      show ∑ t, ∑ h, ∑ j, f j t h = _
      rw [sum_congr rfl fun t _ => sum_comm, sum_comm]
    have h2 := sq_sum_le_card_mul_sum_sq (s := (univ : Finset (Fin N))) (f := fun j => ∑ t, ∑ h, f j t h)
    rw [card_univ, Fintype.card_fin, ← hW] at h2
    refine h2.trans (mul_le_mul_of_nonneg_left ?_ (by positivity))
    refine (sum_le_sum fun j _ => fork_index j (f j)).trans (le_of_eq ?_)
    rw [← mul_sum]
    congr 1
    rw [sum_comm]
    refine sum_congr rfl fun t _ => ?_
    rw [sum_comm]
    refine sum_congr rfl fun h _ => ?_
    rw [sum_comm]
  have h2 : ∑ t, ∑ h, ∑ h' : Fin N → B, ∑ j, f j t h * c (h j) (h' j) ≤ W * (δ * Fintype.card (Fin N → B)) := by
    show _ ≤ (∑ t, ∑ h, ∑ j, f j t h) * _
    rw [sum_mul]
    refine sum_le_sum fun t _ => ?_
    rw [sum_mul]
    refine sum_le_sum fun h _ => ?_
    rw [sum_comm, sum_mul]
    refine sum_le_sum fun j _ => ?_
    rw [← mul_sum]
    refine mul_le_mul_of_nonneg_left (hcol j (h j)) ?_
    show (0 : ℝ) ≤ if acc t h = some j then 1 else 0
    split <;> norm_num
  rw [hε, prob_eq, Fintype.sum_prod_type, Fintype.card_prod, Fintype.card_prod]
  simp only [Fintype.sum_prod_type]
  have h3 : (∑ t, ∑ h, ∑ h', ∑ j, f j t h * f j t (splice j h h')) - ∑ t, ∑ h, ∑ h' : Fin N → B, ∑ j, f j t h * c (h j) (h' j) ≤
      ∑ t, ∑ h, ∑ h', if ∃ j, acc t h = some j ∧ acc t (splice j h h') = some j ∧ ¬ col (h j) (h' j) then (1 : ℝ) else 0 := by
    simp only [← sum_sub_distrib]
    exact sum_le_sum fun t _ => sum_le_sum fun h _ => sum_le_sum fun h' _ => by rw [sum_sub_distrib]; exact hpoint t h h'
  have hf : ∀ j t h, 0 ≤ f j t h := by
    intro j t h
    show (0 : ℝ) ≤ if acc t h = some j then 1 else 0
    split <;> norm_num
  have hP : 0 ≤ ∑ t, ∑ h, ∑ h', ∑ j, f j t h * f j t (splice j h h') :=
    sum_nonneg fun t _ => sum_nonneg fun h _ => sum_nonneg fun h' _ => sum_nonneg fun j _ => mul_nonneg (hf _ _ _) (hf _ _ _)
  push_cast
  generalize (∑ t, ∑ h, ∑ h', ∑ j, f j t h * f j t (splice j h h')) = P at h1 h3 hP
  generalize (∑ t, ∑ h, ∑ h' : Fin N → B, ∑ j, f j t h * c (h j) (h' j)) = Q at h2 h3
  generalize (Fintype.card T : ℝ) = t at *
  generalize (Fintype.card (Fin N → B) : ℝ) = o at *
  have hto : 0 < t * (o * o) := by positivity
  rw [le_div_iff₀ hto]
  refine le_trans ?_ h3
  have e1 : ((W / (t * o)) ^ 2 / N - W / (t * o) * δ) * (t * (o * o)) = W ^ 2 / N / t - W * (δ * o) := by
    field_simp
  rw [e1]
  have e2 : W ^ 2 / N / t ≤ P := by
    rw [div_le_iff₀ hT]
    rcases Nat.eq_zero_or_pos N with h0 | h0
    · subst h0
      simp only [Nat.cast_zero, div_zero]
      positivity
    · rw [div_le_iff₀ (by exact_mod_cast h0)]
      linarith
  linarith

end

end Verif.Fork
