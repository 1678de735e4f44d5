import Mathlib.Algebra.Order.Chebyshev
import Mathlib.Data.Fintype.Pi
import Mathlib.Data.Fintype.BigOperators
import Mathlib.Data.Fintype.Option
import Mathlib.Data.Set.Finite.List
import Verif.Lemmas.Fork
import Verif.Lemmas.Random

/-!
Functions with random values that are asked adaptively: the forking lemma in which only one value is changed, and collisions.
-/

namespace Verif.LocalFork

open Finset Spec

section

variable {X B : Type} [DecidableEq X]

/-- A place that depends on the function, but not on the value there. -/
def Stable (s : (X → B) → Option X) : Prop := ∀ O y b, s O = some y → s (Function.update O y b) = some y

/-- The value at the place is exchanged. -/
def resample (s : (X → B) → Option X) (p : (X → B) × B) : (X → B) × B :=
  match s p.1 with
  | none => p
  | some y => (Function.update p.1 y p.2, p.1 y)

theorem resample_some {s : (X → B) → Option X} {O : X → B} {y : X} (h : s O = some y) (b : B) : resample s (O, b) = (Function.update O y b, O y) := by
  unfold resample; dsimp only; rw [h]

theorem resample_none {s : (X → B) → Option X} {O : X → B} (h : s O = none) (b : B) : resample s (O, b) = (O, b) := by
  unfold resample; dsimp only; rw [h]

theorem resample_resample {s : (X → B) → Option X} (hs : Stable s) (p : (X → B) × B) : resample s (resample s p) = p := by
  obtain ⟨O, b⟩ := p
  cases h : s O with
  | none => rw [resample_none h, resample_none h]
  | some y =>
    rw [resample_some h, resample_some (hs O y b h)]
    simp

/-- As a bijection. -/
def exchange {s : (X → B) → Option X} (hs : Stable s) : (X → B) × B ≃ (X → B) × B where
  toFun := resample s
  invFun := resample s
  left_inv := resample_resample hs
  right_inv := resample_resample hs

/-- The function with the value `b` at the place. -/
def put (s : (X → B) → Option X) (O : X → B) (b : B) : X → B := (resample s (O, b)).1

theorem put_some {s : (X → B) → Option X} {O : X → B} {y : X} (h : s O = some y) (b : B) : put s O b = Function.update O y b := by
  unfold put; rw [resample_some h]

theorem put_put {s : (X → B) → Option X} (hs : Stable s) (O : X → B) (b b' : B) : put s (put s O b) b' = put s O b' := by
  cases h : s O with
  | none => unfold put; rw [resample_none h, resample_none h]
  | some y => rw [put_some h, put_some (hs O y b h), put_some h, Function.update_idem]

variable [Fintype X] [Fintype B]

theorem sum_resample {s : (X → B) → Option X} (hs : Stable s) (Φ : (X → B) → B → ℝ) :
    ∑ O, ∑ b, Φ O b = ∑ O, ∑ b, Φ (resample s (O, b)).1 (resample s (O, b)).2 := by
  rw [← Fintype.sum_prod_type' Φ, ← Fintype.sum_prod_type' fun O b => Φ (resample s (O, b)).1 (resample s (O, b)).2]
  exact (Equiv.sum_comp (exchange hs) fun p : (X → B) × B => Φ p.1 p.2).symm

theorem sum_put {s : (X → B) → Option X} (hs : Stable s) (f : (X → B) → ℝ) : ∑ O, ∑ b, f (put s O b) = Fintype.card B * ∑ O, f O := by
  have := sum_resample hs fun O _ => f O
  simp only [sum_const, card_univ, nsmul_eq_mul] at this
  rw [← mul_sum] at this
  exact this.symm

variable {T : Type} [Fintype T]

theorem fork_place [Nonempty B] (s : T → (X → B) → Option X) (hs : ∀ t, Stable (s t)) (f : T → (X → B) → ℝ) :
    (∑ t, ∑ O, f t O) ^ 2 * Fintype.card B ≤ Fintype.card T * Fintype.card (X → B) * ∑ t, ∑ O, ∑ b, f t O * f t (put (s t) O b) := by
  have hB : (0 : ℝ) < Fintype.card B := by exact_mod_cast Fintype.card_pos
  let a : T → (X → B) → ℝ := fun t O => ∑ b, f t (put (s t) O b)
  have h1 : ∀ t, ∑ O, a t O = Fintype.card B * ∑ O, f t O := fun t => sum_put (hs t) (f t)
  have ha : ∀ t O b, a t (put (s t) O b) = a t O := by
    intro t O b
    show ∑ b', f t (put (s t) (put (s t) O b) b') = ∑ b', f t (put (s t) O b')
    exact sum_congr rfl fun b' _ => by rw [put_put (hs t)]
  have h2 : ∀ t, ∑ O, a t O ^ 2 = Fintype.card B * ∑ O, ∑ b, f t O * f t (put (s t) O b) := by
    intro t
    have e1 : ∀ O, a t O ^ 2 = ∑ b, a t (put (s t) O b) * f t (put (s t) O b) := by
      intro O
      rw [sq]
      conv_lhs => rw [show a t O * a t O = a t O * ∑ b, f t (put (s t) O b) from rfl, mul_sum]
      exact sum_congr rfl fun b _ => by rw [ha]
    rw [sum_congr rfl fun O _ => e1 O, sum_put (hs t) fun O => a t O * f t O]
    congr 1
    refine sum_congr rfl fun O _ => ?_
    rw [mul_comm, ← mul_sum]
  have h3 := sq_sum_le_card_mul_sum_sq (s := (univ : Finset (T × (X → B)))) (f := fun p => a p.1 p.2)
  rw [Fintype.sum_prod_type, Fintype.sum_prod_type, card_univ, Fintype.card_prod] at h3
  rw [sum_congr rfl fun t _ => h1 t, sum_congr rfl fun t _ => h2 t, ← mul_sum, ← mul_sum] at h3
  push_cast at h3
  have h4 : (Fintype.card B : ℝ) * ((∑ t, ∑ O, f t O) ^ 2 * Fintype.card B) ≤
      Fintype.card B * (Fintype.card T * Fintype.card (X → B) * ∑ t, ∑ O, ∑ b, f t O * f t (put (s t) O b)) := by
    calc _ = (Fintype.card B * ∑ t, ∑ O, f t O) ^ 2 := by ring
      _ ≤ _ := h3
      _ = _ := by ring
  exact le_of_mul_le_mul_left h4 hB

variable {N : Nat}

/-- The forking lemma: `acc` is the number of the place that matters if the algorithm is successful with the function `O`, `col` says which values are as good as
equal.  Only the value at that place is changed. -/
theorem fork [Nonempty B] [Nonempty T] (s : T → Fin N → (X → B) → Option X) (hs : ∀ t j, Stable (s t j)) (acc : T → (X → B) → Option (Fin N))
    (hacc : ∀ t O j, acc t O = some j → ∃ y, s t j O = some y) (col : B → B → Prop) (δ : ℝ) (hδ : ∀ b, prob (col b) ≤ δ) :
    prob (fun p : T × (X → B) => (acc p.1 p.2).isSome = true) ^ 2 / N - prob (fun p : T × (X → B) => (acc p.1 p.2).isSome = true) * δ ≤
      prob fun p : T × (X → B) × B =>
        ∃ j y, acc p.1 p.2.1 = some j ∧ s p.1 j p.2.1 = some y ∧ acc p.1 (Function.update p.2.1 y p.2.2) = some j ∧ ¬ col (p.2.1 y) p.2.2 := by
  classical
  have hT : (0 : ℝ) < Fintype.card T := by exact_mod_cast Fintype.card_pos
  have hB : (0 : ℝ) < Fintype.card B := by exact_mod_cast Fintype.card_pos
  have hO : (0 : ℝ) < Fintype.card (X → B) := by exact_mod_cast Fintype.card_pos
  let f : Fin N → T → (X → B) → ℝ := fun j t O => if acc t O = some j then 1 else 0
  let c : T → (X → B) → B → ℝ := fun t O b => if ∃ j y, acc t O = some j ∧ s t j O = some y ∧ col (O y) b then 1 else 0
  have hsum : ∀ t O, (if (acc t O).isSome = true then (1 : ℝ) else 0) = ∑ j, f j t O := by
    intro t O
    show _ = ∑ j, if acc t O = some j then (1 : ℝ) else 0
    cases acc t O with
    | none => simp
    | some i => simp
  let W : ℝ := ∑ t, ∑ O, ∑ j, f j t O
  have hε : prob (fun p : T × (X → B) => (acc p.1 p.2).isSome = true) = W / (Fintype.card T * Fintype.card (X → B)) := by
    rw [Fork.prob_eq, Fintype.sum_prod_type, Fintype.card_prod]
    simp only [hsum]
    push_cast
    rfl
  have hcol : ∀ t O, ∑ b, c t O b ≤ (∑ j, f j t O) * (δ * Fintype.card B) := by
    intro t O
    rw [← hsum]
    cases he : acc t O with
    | none =>
      rw [if_neg (by simp), zero_mul]
      refine le_of_eq (sum_eq_zero fun b _ => if_neg ?_)
      rintro ⟨j, y, h, _⟩
      rw [he] at h
      cases h
    | some j =>
      obtain ⟨y, hy⟩ := hacc t O j he
      have h1 := hδ (O y)
      rw [Fork.prob_eq, div_le_iff₀ hB] at h1
      rw [if_pos (by rfl : (some j).isSome = true), one_mul]
      refine le_trans (le_of_eq (sum_congr rfl fun b _ => ?_)) h1
      show (if _ then _ else _) = if _ then _ else _
      congr 1
      rw [eq_iff_iff]
      constructor
      · rintro ⟨j', y', h2, h3, h4⟩
        rw [he] at h2
        cases h2
        rw [hy] at h3
        cases h3
        exact h4
      · intro h4
        exact ⟨j, y, he, hy, h4⟩
  have hpoint : ∀ t O b, (∑ j, f j t O * f j t (put (s t j) O b)) - c t O b ≤
      if ∃ j y, acc t O = some j ∧ s t j O = some y ∧ acc t (Function.update O y b) = some j ∧ ¬ col (O y) b then (1 : ℝ) else 0 := by
    intro t O b
    show (∑ j, (if acc t O = some j then (1 : ℝ) else 0) * (if acc t (put (s t j) O b) = some j then 1 else 0)) - (if _ then (1 : ℝ) else 0) ≤ _
    cases he : acc t O with
    | none => simp
    | some i =>
      obtain ⟨y, hy⟩ := hacc t O i he
      have hsum' : (∑ j, (if some i = some j then (1 : ℝ) else 0) * (if acc t (put (s t j) O b) = some j then 1 else 0)) =
          if acc t (put (s t i) O b) = some i then 1 else 0 := by
        simp only [Option.some.injEq, ite_mul, one_mul, zero_mul, sum_ite_eq, mem_univ, if_true]
      rw [hsum', put_some hy]
      have key : acc t (Function.update O y b) = some i → (¬ ∃ j y, some i = some j ∧ s t j O = some y ∧ col (O y) b) →
          ∃ j y, some i = some j ∧ s t j O = some y ∧ acc t (Function.update O y b) = some j ∧ ¬ col (O y) b := by
        intro h1 h2
        exact ⟨i, y, rfl, hy, h1, fun h3 => h2 ⟨i, y, rfl, hy, h3⟩⟩
      split_ifs with h1 h2 h3 h3 h2 h3 h3
      · norm_num
      · norm_num
      · norm_num
      · exact absurd (key h1 h2) h3
      · norm_num
      · norm_num
      · norm_num
      · norm_num
  have h1 : W ^ 2 * Fintype.card B ≤ N * (Fintype.card T * Fintype.card (X → B) * ∑ t, ∑ O, ∑ b, ∑ j, f j t O * f j t (put (s t j) O b)) := by
    have hW : W = ∑ j, ∑ t, ∑ O, f j t O := by
      show ∑ t, ∑ O, ∑ j, f j t O = _
      rw [sum_congr rfl fun t _ => sum_comm, sum_comm]
    have h2 := sq_sum_le_card_mul_sum_sq (s := (univ : Finset (Fin N))) (f := fun j => ∑ t, ∑ O, f j t O)
    rw [card_univ, Fintype.card_fin, ← hW] at h2
    have h3 : (∑ j, (∑ t, ∑ O, f j t O) ^ 2) * Fintype.card B ≤
        Fintype.card T * Fintype.card (X → B) * ∑ t, ∑ O, ∑ b, ∑ j, f j t O * f j t (put (s t j) O b) := by
      rw [sum_mul]
      refine (sum_le_sum fun j _ => fork_place (fun t => s t j) (fun t => hs t j) (f j)).trans (le_of_eq ?_)
      rw [← mul_sum]
      congr 1
      rw [sum_comm]
      refine sum_congr rfl fun t _ => ?_
      rw [sum_comm]
      refine sum_congr rfl fun O _ => ?_
      rw [sum_comm]
    calc W ^ 2 * Fintype.card B ≤ (N * ∑ j, (∑ t, ∑ O, f j t O) ^ 2) * Fintype.card B := mul_le_mul_of_nonneg_right h2 hB.le
      _ = N * ((∑ j, (∑ t, ∑ O, f j t O) ^ 2) * Fintype.card B) := by ring
      _ ≤ _ := mul_le_mul_of_nonneg_left h3 (by positivity)
  have h2 : ∑ t, ∑ O, ∑ b, c t O b ≤ W * (δ * Fintype.card B) := by
    show _ ≤ (∑ t, ∑ O, ∑ j, f j t O) * _
    rw [sum_mul]
    refine sum_le_sum fun t _ => ?_
    rw [sum_mul]
    exact sum_le_sum fun O _ => hcol t O
  rw [hε, Fork.prob_eq, Fintype.sum_prod_type, Fintype.card_prod, Fintype.card_prod]
  simp only [Fintype.sum_prod_type]
  have h3 : (∑ t, ∑ O, ∑ b, ∑ j, f j t O * f j t (put (s t j) O b)) - ∑ t, ∑ O, ∑ b, c t O b ≤
      ∑ t, ∑ O, ∑ b, if ∃ j y, acc t O = some j ∧ s t j O = some y ∧ acc t (Function.update O y b) = some j ∧ ¬ col (O y) b then (1 : ℝ) else 0 := by
    rw [← sum_sub_distrib]
    refine sum_le_sum fun t _ => ?_
    rw [← sum_sub_distrib]
    refine sum_le_sum fun O _ => ?_
    rw [← sum_sub_distrib]
    exact sum_le_sum fun b _ => hpoint t O b
  have hf : ∀ j t O, 0 ≤ f j t O := by
    intro j t O
    show (0 : ℝ) ≤ if acc t O = some j then 1 else 0
    split <;> norm_num
  have hP : 0 ≤ ∑ t, ∑ O, ∑ b, ∑ j, f j t O * f j t (put (s t j) O b) :=
    sum_nonneg fun t _ => sum_nonneg fun O _ => sum_nonneg fun b _ => sum_nonneg fun j _ => mul_nonneg (hf _ _ _) (hf _ _ _)
  push_cast
  generalize (∑ t, ∑ O, ∑ b, ∑ j, f j t O * f j t (put (s t j) O b)) = P at h1 h3 hP
  generalize (∑ t, ∑ O, ∑ b, c t O b) = Q at h2 h3
  generalize (Fintype.card T : ℝ) = t at *
  generalize (Fintype.card (X → B) : ℝ) = o at *
  generalize (Fintype.card B : ℝ) = β at *
  have hto : 0 < t * (o * β) := by positivity
  rw [le_div_iff₀ hto]
  refine le_trans ?_ h3
  have e1 : ((W / (t * o)) ^ 2 / N - W / (t * o) * δ) * (t * (o * β)) = W ^ 2 * β / N / (t * o) - W * (δ * β) := by
    field_simp
  rw [e1]
  have e2 : W ^ 2 * β / N / (t * o) ≤ P := by
    rw [div_le_iff₀ (by positivity)]
    rcases Nat.eq_zero_or_pos N with h0 | h0
    · subst h0
      simp only [Nat.cast_zero, div_zero]
      positivity
    · rw [div_le_iff₀ (by exact_mod_cast h0)]
      linarith
  linarith

/-- The value at a place is as good as independent of everything that was known before. -/
theorem prob_place [Nonempty B] {s : (X → B) → Option X} (hs : Stable s) (rel : (X → B) → B → Prop) (hrel : ∀ O y b b', s O = some y → rel (Function.update O y b) b' → rel O b')
    (δ : ℝ) (hδ0 : 0 ≤ δ) (hδ : ∀ O, prob (rel O) ≤ δ) : (prob fun O : X → B => ∃ y, s O = some y ∧ rel O (O y)) ≤ δ := by
  classical
  have hB : (0 : ℝ) < Fintype.card B := by exact_mod_cast Fintype.card_pos
  have hO : (0 : ℝ) < Fintype.card (X → B) := by exact_mod_cast Fintype.card_pos
  have h1 := sum_resample hs fun O _ => if ∃ y, s O = some y ∧ rel O (O y) then (1 : ℝ) else 0
  simp only [sum_const, card_univ, nsmul_eq_mul] at h1
  rw [← mul_sum] at h1
  rw [Fork.prob_eq, div_le_iff₀ hO]
  refine le_of_mul_le_mul_left ?_ hB
  rw [h1]
  have h2 : ∀ O : X → B, (∑ b, if ∃ y, s (resample s (O, b)).1 = some y ∧ rel (resample s (O, b)).1 ((resample s (O, b)).1 y) then (1 : ℝ) else 0) ≤ δ * Fintype.card B := by
    intro O
    have h3 := hδ O
    rw [Fork.prob_eq, div_le_iff₀ hB] at h3
    refine le_trans (sum_le_sum fun b _ => ?_) h3
    split
    · rename_i h4
      obtain ⟨y, h4, h5⟩ := h4
      cases h : s O with
      | none =>
        rw [resample_none h, h] at h4
        cases h4
      | some y' =>
        rw [resample_some h] at h4 h5
        rw [hs O y' b h] at h4
        cases h4
        dsimp only at h5
        rw [Function.update_self] at h5
        rw [if_pos (hrel O y b b h h5)]
    · split <;> norm_num
  refine (sum_le_sum fun O _ => h2 O).trans (le_of_eq ?_)
  rw [sum_const, card_univ, nsmul_eq_mul]
  ring

end

section

variable {Ω : Type} [Fintype Ω]

theorem prob_exists {ι : Type} [Fintype ι] (E : ι → Ω → Prop) : (prob fun ω => ∃ i, E i ω) ≤ ∑ i, prob (E i) := by
  classical
  simp only [Fork.prob_eq]
  rw [← sum_div]
  refine div_le_div_of_nonneg_right ?_ (by positivity)
  rw [sum_comm]
  refine sum_le_sum fun ω _ => ?_
  split
  · rename_i h
    obtain ⟨i, hi⟩ := h
    refine le_trans (le_of_eq (if_pos hi).symm) (single_le_sum (f := fun i => if E i ω then (1 : ℝ) else 0) (fun j _ => ?_) (mem_univ i))
    split <;> norm_num
  · exact sum_nonneg fun j _ => by split <;> norm_num

theorem prob_or (E F : Ω → Prop) : (prob fun ω => E ω ∨ F ω) ≤ prob E + prob F := by
  classical
  simp only [Fork.prob_eq]
  rw [← add_div]
  refine div_le_div_of_nonneg_right ?_ (by positivity)
  rw [← sum_add_distrib]
  refine sum_le_sum fun ω _ => ?_
  by_cases h1 : E ω <;> by_cases h2 : F ω <;> simp [h1, h2]

/-- Bounded for each coin, bounded altogether. -/
theorem prob_prod {T : Type} [Fintype T] (E : T → Ω → Prop) : (prob fun p : T × Ω => E p.1 p.2) = (∑ t, prob (E t)) / Fintype.card T := by
  classical
  simp only [Fork.prob_eq]
  rw [Fintype.sum_prod_type, Fintype.card_prod, ← Finset.sum_div, div_div, Nat.cast_mul, mul_comm]

/-- Such a bound is true on average if it is always true. -/
theorem prob_average {Ω' S : Type} [Fintype Ω'] [Fintype S] [Nonempty S] (E : S → Ω → Prop) (E' : S → Ω' → Prop) (N : Nat) (c : ℝ)
    (h : ∀ s, prob (E s) ^ 2 / N - c ≤ prob (E' s)) :
    (prob fun p : S × Ω => E p.1 p.2) ^ 2 / N - c ≤ prob fun p : S × Ω' => E' p.1 p.2 := by
  rw [prob_prod, prob_prod]
  have hc : (0 : ℝ) < Fintype.card S := by exact_mod_cast Fintype.card_pos
  have h1 : ∑ s, (prob (E s) ^ 2 / N - c) ≤ ∑ s, prob (E' s) := Finset.sum_le_sum fun s _ => h s
  rw [Finset.sum_sub_distrib, Finset.sum_const, Finset.card_univ, nsmul_eq_mul, ← Finset.sum_div] at h1
  have h2 := sq_sum_le_card_mul_sum_sq (s := (Finset.univ : Finset S)) (f := fun s => prob (E s))
  rw [Finset.card_univ] at h2
  rw [le_div_iff₀ hc]
  refine le_trans ?_ h1
  have h3 : ((∑ s, prob (E s)) / Fintype.card S) ^ 2 / N * Fintype.card S ≤ (∑ s, prob (E s) ^ 2) / N := by
    rw [div_mul_eq_mul_div]
    refine div_le_div_of_nonneg_right ?_ (Nat.cast_nonneg _)
    rw [div_pow, div_mul_eq_mul_div, div_le_iff₀ (by positivity)]
    nlinarith
  linarith

theorem prob_le_of_forall {T : Type} [Fintype T] (E : T → Ω → Prop) (δ : ℝ) (h0 : 0 ≤ δ) (h : ∀ t, prob (E t) ≤ δ) : (prob fun p : T × Ω => E p.1 p.2) ≤ δ := by
  classical
  rw [Fork.prob_eq, Fintype.sum_prod_type, Fintype.card_prod]
  rcases Nat.eq_zero_or_pos (Fintype.card T * Fintype.card Ω) with h1 | h1
  · rw [h1]
    simpa using h0
  · have h1' : (0 : ℝ) < ((Fintype.card T * Fintype.card Ω : Nat) : ℝ) := by exact_mod_cast h1
    rw [div_le_iff₀ h1']
    have hΩ : (0 : ℝ) < Fintype.card Ω := by
      rcases Nat.eq_zero_or_pos (Fintype.card Ω) with h2 | h2
      · rw [h2] at h1; simp at h1
      · exact_mod_cast h2
    have : ∀ t, (∑ ω, if E t ω then (1 : ℝ) else 0) ≤ δ * Fintype.card Ω := by
      intro t
      have := h t
      rw [Fork.prob_eq, div_le_iff₀ hΩ] at this
      exact this
    refine (sum_le_sum fun t _ => this t).trans (le_of_eq ?_)
    rw [sum_const, card_univ, nsmul_eq_mul]
    push_cast
    ring

end

/-! ### Lists of questions -/

section

variable {X B : Type}

/-- What is asked next depends only on the answers so far. -/
def Local (path : (X → B) → List X) : Prop :=
  ∀ O O' j, (∀ x ∈ (path O).take j, O x = O' x) → (path O').take (j + 1) = (path O).take (j + 1)

theorem Local.eq {path : (X → B) → List X} (h : Local path) {O O' : X → B} (ha : ∀ x ∈ path O, O x = O' x) : path O' = path O := by
  have h1 := h O O' (path O).length (by rw [List.take_length]; exact ha)
  rw [List.take_of_length_le (l := path O) (by omega)] at h1
  have h2 : (path O').length ≤ (path O).length := by
    have := congrArg List.length h1
    rw [List.length_take] at this
    omega
  rwa [List.take_of_length_le (by omega)] at h1

/-- So if there are only finitely many answers, there are only finitely many questions at the first places. -/
theorem Local.finite_take [Finite B] {path : (X → B) → List X} (h : Local path) (j : Nat) : (Set.range fun O => (path O).take j).Finite := by
  induction j with
  | zero =>
    refine (Set.finite_singleton ([] : List X)).subset ?_
    rintro _ ⟨O, rfl⟩
    simp
  | succ j ih =>
    classical
    let g : (X → B) → List X × List B := fun O => ((path O).take j, ((path O).take j).map O)
    have hg : (Set.range g).Finite := by
      refine (ih.prod (List.finite_length_le B j)).subset ?_
      rintro _ ⟨O, rfl⟩
      refine ⟨⟨O, rfl⟩, ?_⟩
      show (((path O).take j).map O).length ≤ j
      rw [List.length_map, List.length_take]
      omega
    let f : List X × List B → List X := fun p => if hp : ∃ O, g O = p then (path hp.choose).take (j + 1) else []
    refine (hg.image f).subset ?_
    rintro _ ⟨O, rfl⟩
    refine ⟨g O, ⟨O, rfl⟩, ?_⟩
    have hp : ∃ O', g O' = g O := ⟨O, rfl⟩
    show (if hp : ∃ O', g O' = g O then (path hp.choose).take (j + 1) else []) = _
    rw [dif_pos hp]
    have h1 : (path hp.choose).take j = (path O).take j := congrArg Prod.fst hp.choose_spec
    have h2 : ((path hp.choose).take j).map hp.choose = ((path O).take j).map O := congrArg Prod.snd hp.choose_spec
    rw [h1] at h2
    exact h O hp.choose j fun x hx => (List.map_inj_left.mp h2 x hx).symm

/-- If their number is bounded, all questions are in a finite set. -/
theorem Local.finite [Finite B] {path : (X → B) → List X} (h : Local path) (N : Nat) (hN : ∀ O, (path O).length ≤ N) :
    ∃ dom : Finset X, ∀ O, ∀ x ∈ path O, x ∈ dom := by
  classical
  have h1 : (⋃ l ∈ Set.range fun O => (path O).take N, {x | x ∈ l}).Finite := (h.finite_take N).biUnion fun l _ => l.finite_toSet
  refine ⟨h1.toFinset, fun O x hx => ?_⟩
  rw [Set.Finite.mem_toFinset]
  refine Set.mem_biUnion ⟨O, rfl⟩ ?_
  show x ∈ (path O).take N
  rw [List.take_of_length_le (hN O)]
  exact hx

theorem Local.nil : Local fun _ : X → B => [] := fun _ _ _ _ => rfl

theorem Local.single (x : X) : Local fun _ : X → B => [x] := fun _ _ _ _ => rfl

theorem Local.const (l : List X) : Local fun _ : X → B => l := fun _ _ _ _ => rfl

/-- First some questions, then others that depend on the answers to the first. -/
theorem Local.append {R : Type} {p : (X → B) → List X} {r : (X → B) → R} {p' : R → (X → B) → List X} (hp : Local p)
    (hr : ∀ O O', (∀ x ∈ p O, O x = O' x) → r O' = r O) (hp' : ∀ a, Local (p' a)) : Local fun O => p O ++ p' (r O) O := by
  intro O O' j h
  dsimp only at h ⊢
  rcases Nat.lt_or_ge j (p O).length with hj | hj
  · rw [List.take_append_of_le_length (by omega)] at h
    have h1 := hp O O' j h
    have h2 : j + 1 ≤ (p O').length := by
      have := congrArg List.length h1
      rw [List.length_take, List.length_take] at this
      omega
    rw [List.take_append_of_le_length h2, List.take_append_of_le_length (by omega), h1]
  · have ha : ∀ x ∈ p O, O x = O' x := by
      intro x hx
      apply h
      rw [List.take_append, List.take_of_length_le hj]
      exact List.mem_append_left _ hx
    rw [hp.eq ha, hr O O' ha, List.take_append, List.take_append]
    congr 1
    rw [show j + 1 - (p O).length = (j - (p O).length) + 1 by omega]
    refine hp' (r O) O O' _ fun x hx => h x ?_
    rw [List.take_append]
    exact List.mem_append_right _ hx

/-- Asking `O (i x)` instead of `O x`. -/
theorem Local.map {Y : Type} {p : (X → B) → List X} (hp : Local p) (i : X → Y) : Local fun O : Y → B => (p fun x => O (i x)).map i := by
  intro O O' j h
  dsimp only at h ⊢
  rw [← List.map_take, ← List.map_take, hp _ (fun x => O' (i x)) j]
  intro x hx
  exact h (i x) (by rw [← List.map_take]; exact List.mem_map_of_mem hx)

variable [DecidableEq X]

/-- The question in place `j`, if it was not asked before. -/
def place (path : (X → B) → List X) (j : Nat) (O : X → B) : Option X :=
  match (path O)[j]? with
  | some y => if y ∈ (path O).take j then none else some y
  | none => none

theorem place_eq_some {path : (X → B) → List X} {j : Nat} {O : X → B} {y : X} : place path j O = some y ↔ (path O)[j]? = some y ∧ y ∉ (path O).take j := by
  unfold place
  cases h : (path O)[j]? with
  | none => simp
  | some z =>
    dsimp only
    split
    · rename_i hz
      constructor
      · intro h; cases h
      · rintro ⟨h1, h2⟩; cases h1; exact absurd hz h2
    · rename_i hz
      constructor
      · intro h; cases h; exact ⟨rfl, hz⟩
      · rintro ⟨h1, _⟩; exact h1

theorem take_update {path : (X → B) → List X} (hp : Local path) {j : Nat} {O : X → B} {y : X} (hy : y ∉ (path O).take j) (b : B) :
    (path (Function.update O y b)).take (j + 1) = (path O).take (j + 1) := by
  refine hp O _ j fun x hx => ?_
  rw [Function.update_of_ne]
  rintro rfl
  exact hy hx

theorem place_stable {path : (X → B) → List X} (hp : Local path) (j : Nat) : Stable (place path j) := by
  intro O y b h
  rw [place_eq_some] at h ⊢
  have h1 := take_update hp h.2 b
  have h2 : (path (Function.update O y b))[j]? = (path O)[j]? := by
    have := congrArg (·[j]?) h1
    simpa using this
  have h3 : (path (Function.update O y b)).take j = (path O).take j := by
    have := congrArg (List.take j) h1
    simpa [List.take_take] using this
  rw [h2, h3]
  exact h

/-- Every question is asked for the first time somewhere. -/
theorem exists_place {path : (X → B) → List X} {O : X → B} {y : X} (h : y ∈ path O) : ∃ j, j < (path O).length ∧ place path j O = some y := by
  refine ⟨(path O).idxOf y, List.idxOf_lt_length_iff.mpr h, ?_⟩
  rw [place_eq_some]
  refine ⟨?_, ?_⟩
  · rw [List.getElem?_eq_getElem (List.idxOf_lt_length_iff.mpr h), List.getElem_idxOf]
  · intro hm
    obtain ⟨i, hi, he⟩ := List.getElem_of_mem hm
    rw [List.length_take] at hi
    rw [List.getElem_take] at he
    have := List.not_of_lt_findIdx (xs := path O) (p := (· == y)) (i := i) (by unfold List.idxOf at hi; omega)
    simp [he] at this

end

/-! ### Questions about a function of which only finitely many values are random -/

section

variable {X Y B : Type} [DecidableEq X] [DecidableEq Y]

/-- The values at the points `emb y` are those of a function on `Y`, the others are fixed. -/
structure Extends (emb : Y → X) (ext : (Y → B) → X → B) : Prop where
  inj : Function.Injective emb
  apply : ∀ O y, ext O (emb y) = O y
  update : ∀ O y b, ext (Function.update O y b) = Function.update (ext O) (emb y) b

/-- The point of `Y`, if there is one. -/
noncomputable def lift (emb : Y → X) (x : X) : Option Y := by
  classical
  exact if h : ∃ y, emb y = x then some h.choose else none

theorem lift_eq_some {emb : Y → X} {ext : (Y → B) → X → B} (he : Extends emb ext) {x : X} {y : Y} : lift emb x = some y ↔ emb y = x := by
  unfold lift
  split
  · rename_i h
    rw [Option.some.injEq]
    constructor
    · rintro rfl
      exact h.choose_spec
    · intro h1
      exact he.inj (h.choose_spec.trans h1.symm)
  · rename_i h
    constructor
    · intro h1; cases h1
    · intro h1; exact absurd ⟨y, h1⟩ h

/-- The place as one of `Y`. -/
noncomputable def placeIn (emb : Y → X) (ext : (Y → B) → X → B) (path : (X → B) → List X) (j : Nat) (O : Y → B) : Option Y :=
  (place path j (ext O)).bind (lift emb)

variable {emb : Y → X} {ext : (Y → B) → X → B}

theorem placeIn_eq_some (he : Extends emb ext) {path : (X → B) → List X} {j : Nat} {O : Y → B} {y : Y} :
    placeIn emb ext path j O = some y ↔ place path j (ext O) = some (emb y) := by
  unfold placeIn
  rw [Option.bind_eq_some_iff]
  constructor
  · rintro ⟨x, h1, h2⟩
    rw [h1, (lift_eq_some he).mp h2]
  · intro h
    exact ⟨_, h, (lift_eq_some he).mpr rfl⟩

theorem placeIn_stable (he : Extends emb ext) {path : (X → B) → List X} (hp : Local path) (j : Nat) : Stable (placeIn emb ext path j) := by
  intro O y b h
  rw [placeIn_eq_some he] at h ⊢
  rw [he.update]
  exact place_stable hp j _ _ _ h

variable [Fintype Y] [Fintype B] [Nonempty B]

/-- Some question is answered in a rare way. -/
theorem prob_answer (he : Extends emb ext) {path : (X → B) → List X} (hp : Local path) (M : Nat) (hlen : ∀ O : Y → B, (path (ext O)).length ≤ M)
    (hin : ∀ O : Y → B, ∀ x ∈ path (ext O), ∃ y, emb y = x) (P : B → Prop) (δ : ℝ) (hδ : prob P ≤ δ) :
    (prob fun O : Y → B => ∃ u ∈ path (ext O), P (ext O u)) ≤ M * δ := by
  have h0 : 0 ≤ δ := (Random.prob_nonneg P).trans hδ
  have h1 : (prob fun O : Y → B => ∃ u ∈ path (ext O), P (ext O u)) ≤
      prob fun O : Y → B => ∃ j : Fin M, ∃ y, placeIn emb ext path j O = some y ∧ P (O y) := by
    refine Random.prob_mono fun O => ?_
    rintro ⟨u, hu, hP⟩
    obtain ⟨j, hj, hpl⟩ := exists_place hu
    obtain ⟨y, rfl⟩ := hin O u hu
    exact ⟨⟨j, hj.trans_le (hlen O)⟩, y, (placeIn_eq_some he).mpr hpl, by rwa [he.apply] at hP⟩
  refine h1.trans ((prob_exists fun (j : Fin M) (O : Y → B) => ∃ y, placeIn emb ext path j O = some y ∧ P (O y)).trans ?_)
  refine (sum_le_sum fun (j : Fin M) _ => prob_place (placeIn_stable he hp j.val) (fun _ => P) (fun _ _ _ _ _ h => h) δ h0 fun _ => hδ).trans (le_of_eq ?_)
  rw [sum_const, card_univ, Fintype.card_fin, nsmul_eq_mul]

/-- Two different questions have answers that are as good as equal. -/
theorem prob_collision (he : Extends emb ext) {path : (X → B) → List X} (hp : Local path) (M : Nat) (hlen : ∀ O : Y → B, (path (ext O)).length ≤ M)
    (hin : ∀ O : Y → B, ∀ x ∈ path (ext O), ∃ y, emb y = x) (rel : B → B → Prop) (hsymm : ∀ a b, rel a b → rel b a) (δ : ℝ) (hδ : ∀ a, prob (rel a) ≤ δ) :
    (prob fun O : Y → B => ∃ u ∈ path (ext O), ∃ v ∈ path (ext O), u ≠ v ∧ rel (ext O u) (ext O v)) ≤ M ^ 2 / 2 * δ := by
  have h0 : 0 ≤ δ := (Random.prob_nonneg _).trans (hδ (Classical.arbitrary B))
  let rel' : Nat → (Y → B) → B → Prop := fun i O b => ∃ u, (path (ext O))[i]? = some u ∧ rel (ext O u) b
  have h1 : (prob fun O : Y → B => ∃ u ∈ path (ext O), ∃ v ∈ path (ext O), u ≠ v ∧ rel (ext O u) (ext O v)) ≤
      prob fun O : Y → B => ∃ j : Fin M, ∃ i : Fin j.val, ∃ y, placeIn emb ext path j O = some y ∧ rel' i O (O y) := by
    refine Random.prob_mono fun O => ?_
    rintro ⟨u, hu, v, hv, hne, hr⟩
    obtain ⟨i, hi, hpi⟩ := exists_place hu
    obtain ⟨j, hj, hpj⟩ := exists_place hv
    have key : ∀ {u v i j}, i < j → j < (path (ext O)).length → place path i (ext O) = some u → place path j (ext O) = some v → v ∈ path (ext O) →
        rel (ext O u) (ext O v) → ∃ j : Fin M, ∃ i : Fin j.val, ∃ y, placeIn emb ext path j O = some y ∧ rel' i O (O y) := by
      intro u v i j hij hj hpi hpj hv hr
      obtain ⟨y, rfl⟩ := hin O v hv
      refine ⟨⟨j, hj.trans_le (hlen O)⟩, ⟨i, hij⟩, y, (placeIn_eq_some he).mpr hpj, u, (place_eq_some.mp hpi).1, ?_⟩
      rwa [he.apply] at hr
    rcases Nat.lt_trichotomy i j with h | h | h
    · exact key h hj hpi hpj hv hr
    · subst h
      rw [hpi] at hpj
      exact absurd (Option.some.inj hpj) hne
    · exact key h hi hpj hpi hu (hsymm _ _ hr)
  have h2 : ∀ (j : Fin M) (i : Fin j.val), (prob fun O : Y → B => ∃ y, placeIn emb ext path j O = some y ∧ rel' i O (O y)) ≤ δ := by
    intro j i
    refine prob_place (placeIn_stable he hp j) (rel' i) ?_ δ h0 ?_
    · rintro O y b b' h ⟨u, hu, hr⟩
      rw [placeIn_eq_some he] at h
      have h3 := take_update hp (place_eq_some.mp h).2 b
      have h4 : (path (Function.update (ext O) (emb y) b))[i.val]? = (path (ext O))[i.val]? := by
        have := congrArg (·[i.val]?) h3
        simpa only [List.getElem?_take_of_lt (show i.val < j.val + 1 by omega)] using this
      rw [he.update] at hu hr
      rw [h4] at hu
      refine ⟨u, hu, ?_⟩
      rwa [Function.update_of_ne] at hr
      rintro rfl
      apply (place_eq_some.mp h).2
      rw [List.mem_iff_getElem?]
      exact ⟨i.val, by rw [List.getElem?_take_of_lt i.2]; exact hu⟩
    · intro O
      cases hc : (path (ext O))[i.val]? with
      | none =>
        have : prob (rel' i O) = 0 := by
          unfold prob
          have : IsEmpty {b // rel' i O b} := ⟨fun ⟨b, u, hu, _⟩ => by rw [hc] at hu; cases hu⟩
          rw [Nat.card_of_isEmpty]
          simp
        rw [this]
        exact h0
      | some u =>
        refine (Random.prob_mono fun b hb => ?_).trans (hδ (ext O u))
        obtain ⟨u', hu', hr⟩ := hb
        rw [hc] at hu'
        cases hu'
        exact hr
  refine h1.trans ((prob_exists fun (j : Fin M) (O : Y → B) => ∃ i : Fin j.val, ∃ y, placeIn emb ext path j O = some y ∧ rel' i O (O y)).trans ?_)
  have h3 : ∀ j : Fin M, (prob fun O : Y → B => ∃ i : Fin j.val, ∃ y, placeIn emb ext path j O = some y ∧ rel' i O (O y)) ≤ j.val * δ := by
    intro j
    refine (prob_exists fun (i : Fin j.val) (O : Y → B) => ∃ y, placeIn emb ext path j O = some y ∧ rel' i O (O y)).trans ?_
    refine (sum_le_sum fun i _ => h2 j i).trans (le_of_eq ?_)
    rw [sum_const, card_univ, Fintype.card_fin, nsmul_eq_mul]
  refine (sum_le_sum fun j _ => h3 j).trans ?_
  rw [← sum_mul]
  refine mul_le_mul_of_nonneg_right ?_ h0
  rw [Fin.sum_univ_eq_sum_range (fun j => (j : ℝ)) M]
  have h4 := Finset.sum_range_id_mul_two M
  have h5 : (∑ i ∈ range M, (i : ℝ)) * 2 = M * (M - 1 : ℕ) := by
    have := congrArg (Nat.cast (R := ℝ)) h4
    push_cast at this ⊢
    exact this
  have h6 : ((M - 1 : ℕ) : ℝ) ≤ M := by exact_mod_cast Nat.sub_le M 1
  have h7 : (0 : ℝ) ≤ M := Nat.cast_nonneg M
  nlinarith

end

end Verif.LocalFork
