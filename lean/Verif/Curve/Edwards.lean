import Mathlib.Algebra.Field.Basic
import Mathlib.Algebra.Group.Even
import Mathlib.Tactic.LinearCombination
import Mathlib.Tactic.Ring
import Mathlib.Tactic.FieldSimp

/-!
The twisted Edwards curve `-x² + y² = 1 + d x² y²` over a field in which `-1` and `-1 - d` are squares and `d` is not:
affine points, the complete addition law and the group axioms.

This is the mathematical group the points of `filippo.io/edwards25519` stand for; no code of the repository is modelled here.
-/

namespace Verif.Curve

/-- Parameters of the curve: `d`, a square root `i` of `-1` and a square root `m` of `a - d = -1 - d`. -/
class EdwardsParams (F : Type) [Field F] where
  d : F
  i : F
  m : F
  i_sq : i * i = -1
  d_nonsquare : ¬ IsSquare d
  m_sq : m * m = -1 - d
  two_ne_zero : (2 : F) ≠ 0

variable {F : Type} [Field F] [EdwardsParams F]

open EdwardsParams

/-- An affine point of the curve. -/
@[ext] structure Pt (F : Type) [Field F] [EdwardsParams F] where
  x : F
  y : F
  on : y ^ 2 - x ^ 2 = 1 + d * x ^ 2 * y ^ 2

namespace Pt

theorem d_ne_zero : (d : F) ≠ 0 := fun h => d_nonsquare (F := F) (by rw [h]; exact ⟨0, by simp⟩)

theorem i_ne_zero : (i : F) ≠ 0 := fun h => by
  have := i_sq (F := F)
  rw [h] at this
  simp at this

/-- `a² = d b²` only for `a = b = 0`. -/
theorem eq_zero_of_sq_eq {a b : F} (h : a ^ 2 = d * b ^ 2) : a = 0 ∧ b = 0 := by
  by_cases hb : b = 0
  · subst hb
    refine ⟨?_, rfl⟩
    simpa using h
  · refine absurd ⟨a / b, ?_⟩ (d_nonsquare (F := F))
    field_simp
    linear_combination -h

/-- The denominators of the addition law do not vanish. -/
theorem complete (x1 y1 x2 y2 ε : F) (e1 : y1 ^ 2 - x1 ^ 2 = 1 + d * x1 ^ 2 * y1 ^ 2)
    (e2 : y2 ^ 2 - x2 ^ 2 = 1 + d * x2 ^ 2 * y2 ^ 2) (hε : ε ^ 2 = 1) : d * x1 * x2 * y1 * y2 ≠ ε := by
  intro h
  have hε0 : ε ≠ 0 := by
    rintro rfl
    simp at hε
  have hxy1 : x1 * y1 ≠ 0 := by
    intro h0
    exact hε0 (by rw [← h]; linear_combination d * x2 * y2 * h0)
  have hx2 : x2 ≠ 0 := by
    rintro rfl
    exact hε0 (by rw [← h]; ring)
  have hi := i_sq (F := F)
  have key : y1 ^ 2 - x1 ^ 2 = d * x1 ^ 2 * y1 ^ 2 * (y2 ^ 2 - x2 ^ 2) := by
    have h2 : (d * x1 * x2 * y1 * y2) ^ 2 = 1 := by rw [h, hε]
    rw [e1, e2]
    linear_combination -h2
  have p1 : (i * x1 + ε * y1) ^ 2 = d * (x1 * y1 * (y2 + i * x2)) ^ 2 := by
    subst h
    linear_combination key + (x1 ^ 2 - d * x1 ^ 2 * y1 ^ 2 * x2 ^ 2) * hi + y1 ^ 2 * hε
  have p2 : (-i * x1 + ε * y1) ^ 2 = d * (x1 * y1 * (y2 - i * x2)) ^ 2 := by
    subst h
    linear_combination key + (x1 ^ 2 - d * x1 ^ 2 * y1 ^ 2 * x2 ^ 2) * hi + y1 ^ 2 * hε
  have q1 := (mul_eq_zero.1 (eq_zero_of_sq_eq p1).2).resolve_left hxy1
  have q2 := (mul_eq_zero.1 (eq_zero_of_sq_eq p2).2).resolve_left hxy1
  have : 2 * (i * x2) = 0 := by linear_combination q1 - q2
  rcases mul_eq_zero.1 this with h | h
  · exact two_ne_zero h
  · rcases mul_eq_zero.1 h with h | h
    · exact i_ne_zero h
    · exact hx2 h

theorem den_pos (P Q : Pt F) : 1 + d * P.x * Q.x * P.y * Q.y ≠ 0 := by
  intro h
  exact complete P.x P.y Q.x Q.y (-1) P.on Q.on (by ring) (by linear_combination h)

theorem den_neg (P Q : Pt F) : 1 - d * P.x * Q.x * P.y * Q.y ≠ 0 := by
  intro h
  exact complete P.x P.y Q.x Q.y 1 P.on Q.on (by ring) (by linear_combination -h)

theorem add_on (P Q : Pt F) :
  ((P.y * Q.y + P.x * Q.x) / (1 - d * P.x * Q.x * P.y * Q.y)) ^ 2 - ((P.x * Q.y + P.y * Q.x) / (1 + d * P.x * Q.x * P.y * Q.y))
      ^ 2
      = 1 + d * ((P.x * Q.y + P.y * Q.x) / (1 + d * P.x * Q.x * P.y * Q.y)) ^ 2
        * ((P.y * Q.y + P.x * Q.x) / (1 - d * P.x * Q.x * P.y * Q.y)) ^ 2 := by
  have hp := den_pos P Q
  have hm := den_neg P Q
  obtain ⟨x1, y1, e1⟩ := P
  obtain ⟨x2, y2, e2⟩ := Q
  simp only at hp hm ⊢
  have hx := div_mul_cancel₀ (x1 * y2 + y1 * x2) hp
  have hy := div_mul_cancel₀ (y1 * y2 + x1 * x2) hm
  generalize (x1 * y2 + y1 * x2) / (1 + d * x1 * x2 * y1 * y2) = x3 at hx ⊢
  generalize (y1 * y2 + x1 * x2) / (1 - d * x1 * x2 * y1 * y2) = y3 at hy ⊢
  refine mul_left_cancel₀ (pow_ne_zero 2 (mul_ne_zero hp hm)) ?_
  linear_combination ((1 + d * x1 * x2 * y1 * y2) ^ 2 - d * (x3 * (1 + d * x1 * x2 * y1 * y2)) ^ 2)
      * (y3 * (1 - d * x1 * x2 * y1 * y2) + (y1 * y2 + x1 * x2)) * hy
    - ((1 - d * x1 * x2 * y1 * y2) ^ 2 + d * (y1 * y2 + x1 * x2) ^ 2)
  * (x3 * (1 + d * x1 * x2 * y1 * y2) + (x1 * y2 + y1 * x2)) * hx + (x1 ^ 2 * y1 ^ 2 * x2 ^ 4 * y2 ^ 4 * d ^ 3 - x1 ^ 2 * x2 ^ 4
      * y2 ^ 4 * d ^ 2 - x1 ^ 2 * x2 ^ 4 * y2 ^ 2 * d + x1 ^ 2 * x2 ^ 2 * y2 ^ 4 * d + y1 ^ 2 * x2 ^ 4 * y2 ^ 4 * d ^ 2 + y1 ^ 2
      * x2 ^ 4 * y2 ^ 2 * d - y1 ^ 2 * x2 ^ 2 * y2 ^ 4 * d - x2 ^ 4 * y2 ^ 4 * d ^ 2 - 2 * x2 ^ 4 * y2 ^ 4 * d - 2 * x2 ^ 4 * y2
      ^ 2 + x2 ^ 4 + 2 * x2 ^ 2 * y2 ^ 4 - 2 * x2 ^ 2 * y2 ^ 2 * d - 4 * x2 ^ 2 * y2 ^ 2 + y2 ^ 4) * e1 + (x1 ^ 4 * x2 ^ 2 * y2
      ^ 2 * d + 2 * x1 ^ 2 * x2 ^ 2 * y2 ^ 2 * d + 2 * x1 ^ 2 * x2 ^ 2 * y2 ^ 2 - x1 ^ 2 * x2 ^ 2 + x1 ^ 2 * y2 ^ 2 + y1 ^ 4 *
      x2 ^ 2 * y2 ^ 2 * d - 2 * y1 ^ 2 * x2 ^ 2 * y2 ^ 2 * d - 2 * y1 ^ 2 * x2 ^ 2 * y2 ^ 2 + y1 ^ 2 * x2 ^ 2 - y1 ^ 2 * y2 ^ 2
      + x2 ^ 2 * y2 ^ 2 * d + 2 * x2 ^ 2 * y2 ^ 2 - x2 ^ 2 + y2 ^ 2 + 1) * e2

instance : Zero (Pt F) := ⟨⟨0, 1, by ring⟩⟩

instance : Neg (Pt F) := ⟨fun P => ⟨-P.x, P.y, by linear_combination P.on⟩⟩

instance : Add (Pt F) := ⟨fun P Q => ⟨_, _, add_on P Q⟩⟩

@[simp] theorem zero_x : (0 : Pt F).x = 0 := rfl
@[simp] theorem zero_y : (0 : Pt F).y = 1 := rfl
@[simp] theorem neg_x (P : Pt F) : (-P).x = -P.x := rfl
@[simp] theorem neg_y (P : Pt F) : (-P).y = P.y := rfl
theorem add_x (P Q : Pt F) : (P + Q).x = (P.x * Q.y + P.y * Q.x) / (1 + d * P.x * Q.x * P.y * Q.y) := rfl
theorem add_y (P Q : Pt F) : (P + Q).y = (P.y * Q.y + P.x * Q.x) / (1 - d * P.x * Q.x * P.y * Q.y) := rfl

theorem add_x_mul (P Q : Pt F) : (P + Q).x * (1 + d * P.x * Q.x * P.y * Q.y) = P.x * Q.y + P.y * Q.x := by
  rw [add_x, div_mul_cancel₀ _ (den_pos P Q)]

theorem add_y_mul (P Q : Pt F) : (P + Q).y * (1 - d * P.x * Q.x * P.y * Q.y) = P.y * Q.y + P.x * Q.x := by
  rw [add_y, div_mul_cancel₀ _ (den_neg P Q)]

protected theorem add_comm (P Q : Pt F) : P + Q = Q + P := by
  ext
  · rw [add_x, add_x]
    congr 1 <;> ring
  · rw [add_y, add_y]
    congr 1 <;> ring

protected theorem zero_add (P : Pt F) : 0 + P = P := by
  ext
  · simp [add_x]
  · simp [add_y]

protected theorem neg_add_cancel (P : Pt F) : -P + P = 0 := by
  have h := den_pos (-P) P
  have h' := den_neg (-P) P
  ext
  · rw [add_x, div_eq_iff h]
    simp
    ring
  · rw [add_y, div_eq_iff h']
    simp
    linear_combination P.on

/-- Cleared denominators of a triple sum. -/
theorem triple_x (P Q R : Pt F) :
    (P + Q + R).x * ((1 + d * P.x * Q.x * P.y * Q.y) * (1 - d * P.x * Q.x * P.y * Q.y)
        + d * (P.x * Q.y + P.y * Q.x) * (P.y * Q.y + P.x * Q.x) * R.x * R.y)
      = (P.x * Q.y + P.y * Q.x) * (1 - d * P.x * Q.x * P.y * Q.y) * R.y
        + (P.y * Q.y + P.x * Q.x) * (1 + d * P.x * Q.x * P.y * Q.y) * R.x := by
  rw [← add_x_mul P Q, ← add_y_mul P Q]
  linear_combination (1 + d * P.x * Q.x * P.y * Q.y) * (1 - d * P.x * Q.x * P.y * Q.y) * add_x_mul (P + Q) R

theorem triple_y (P Q R : Pt F) :
    (P + Q + R).y * ((1 + d * P.x * Q.x * P.y * Q.y) * (1 - d * P.x * Q.x * P.y * Q.y)
        - d * (P.x * Q.y + P.y * Q.x) * (P.y * Q.y + P.x * Q.x) * R.x * R.y)
      = (P.y * Q.y + P.x * Q.x) * (1 + d * P.x * Q.x * P.y * Q.y) * R.y
        + (P.x * Q.y + P.y * Q.x) * (1 - d * P.x * Q.x * P.y * Q.y) * R.x := by
  rw [← add_x_mul P Q, ← add_y_mul P Q]
  linear_combination (1 + d * P.x * Q.x * P.y * Q.y) * (1 - d * P.x * Q.x * P.y * Q.y) * add_y_mul (P + Q) R

theorem triple_x_ne (P Q R : Pt F) :
    (1 + d * P.x * Q.x * P.y * Q.y) * (1 - d * P.x * Q.x * P.y * Q.y)
        + d * (P.x * Q.y + P.y * Q.x) * (P.y * Q.y + P.x * Q.x) * R.x * R.y ≠ 0 := by
  have h := mul_ne_zero (mul_ne_zero (den_pos P Q) (den_neg P Q)) (den_pos (P + Q) R)
  intro h0
  apply h
  rw [← add_x_mul P Q, ← add_y_mul P Q] at h0
  linear_combination h0

theorem triple_y_ne (P Q R : Pt F) :
    (1 + d * P.x * Q.x * P.y * Q.y) * (1 - d * P.x * Q.x * P.y * Q.y)
        - d * (P.x * Q.y + P.y * Q.x) * (P.y * Q.y + P.x * Q.x) * R.x * R.y ≠ 0 := by
  have h := mul_ne_zero (mul_ne_zero (den_pos P Q) (den_neg P Q)) (den_neg (P + Q) R)
  intro h0
  apply h
  rw [← add_x_mul P Q, ← add_y_mul P Q] at h0
  linear_combination h0

theorem assoc_x (P Q R : Pt F) : (P + Q + R).x = (Q + R + P).x := by
  have l := triple_x P Q R
  have r := triple_x Q R P
  have hl := triple_x_ne P Q R
  have hr := triple_x_ne Q R P
  rw [← eq_div_iff hl] at l
  rw [← eq_div_iff hr] at r
  rw [l, r, div_eq_div_iff hl hr]
  have e1 := P.on
  have e2 := Q.on
  have e3 := R.on
  generalize P.x = x1, P.y = y1, Q.x = x2, Q.y = y2, R.x = x3, R.y = y3 at *
  linear_combination (-x1 * x2 ^ 4 * y2 ^ 3 * x3 ^ 2 * y3 * d ^ 2 - x1 * x2 ^ 4 * y2 * x3 ^ 2 * y3 * d - x1 * x2 ^ 3 * y2 ^ 4 *
      x3 * y3 ^ 2 * d ^ 2 - x1 * x2 ^ 3 * y2 ^ 2 * x3 ^ 3 * d - x1 * x2 ^ 3 * y2 ^ 2 * x3 * d + x1 * x2 ^ 2 * y2 ^ 3 * y3 ^ 3 *
      d - x1 * x2 ^ 2 * y2 ^ 3 * y3 * d + x1 * x2 * y2 ^ 4 * x3 * y3 ^ 2 * d + y1 * x2 ^ 4 * y2 ^ 3 * x3 * y3 ^ 2 * d ^ 2 + y1 *
      x2 ^ 4 * y2 * x3 * y3 ^ 2 * d + y1 * x2 ^ 3 * y2 ^ 4 * x3 ^ 2 * y3 * d ^ 2 + y1 * x2 ^ 3 * y2 ^ 2 * y3 ^ 3 * d - y1 * x2 ^
      3 * y2 ^ 2 * y3 * d - y1 * x2 ^ 2 * y2 ^ 3 * x3 ^ 3 * d - y1 * x2 ^ 2 * y2 ^ 3 * x3 * d - y1 * x2 * y2 ^ 4 * x3 ^ 2 * y3 *
      d) * e1 + (x1 ^ 3 * x2 ^ 2 * y2 * x3 ^ 2 * y3 * d + x1 ^ 3 * x2 * y2 ^ 2 * x3 * y3 ^ 2 * d - x1 ^ 2 * y1 * x2 ^ 2 * y2 *
      x3 ^ 3 * d - x1 ^ 2 * y1 * x2 ^ 2 * y2 * x3 * d - x1 ^ 2 * y1 * x2 * y2 ^ 2 * y3 ^ 3 * d + x1 ^ 2 * y1 * x2 * y2 ^ 2 * y3
      * d - x1 * y1 ^ 2 * x2 ^ 2 * y2 * y3 ^ 3 * d + x1 * y1 ^ 2 * x2 ^ 2 * y2 * y3 * d - x1 * y1 ^ 2 * x2 * y2 ^ 2 * x3 ^ 3 * d
      - x1 * y1 ^ 2 * x2 * y2 ^ 2 * x3 * d + x1 * x2 ^ 2 * y2 * x3 ^ 2 * y3 * d + x1 * x2 * y2 ^ 2 * x3 * y3 ^ 2 * d + y1 ^ 3 *
      x2 ^ 2 * y2 * x3 * y3 ^ 2 * d + y1 ^ 3 * x2 * y2 ^ 2 * x3 ^ 2 * y3 * d - y1 * x2 ^ 2 * y2 * x3 * y3 ^ 2 * d - y1 * x2 * y2
      ^ 2 * x3 ^ 2 * y3 * d) * e2 + (x1 ^ 3 * x2 ^ 3 * y2 ^ 2 * x3 * d + x1 ^ 3 * x2 ^ 2 * y2 ^ 3 * y3 * d + x1 ^ 2 * y1 * x2 ^
      4 * y2 ^ 3 * x3 * d ^ 2 + x1 ^ 2 * y1 * x2 ^ 4 * y2 * x3 * d - x1 ^ 2 * y1 * x2 ^ 3 * y2 ^ 4 * y3 * d ^ 2 + x1 ^ 2 * y1 *
      x2 * y2 ^ 4 * y3 * d - x1 * y1 ^ 2 * x2 ^ 4 * y2 ^ 3 * y3 * d ^ 2 - x1 * y1 ^ 2 * x2 ^ 4 * y2 * y3 * d + x1 * y1 ^ 2 * x2
      ^ 3 * y2 ^ 4 * x3 * d ^ 2 - x1 * y1 ^ 2 * x2 * y2 ^ 4 * x3 * d + x1 * x2 ^ 3 * y2 ^ 2 * x3 * d + x1 * x2 ^ 2 * y2 ^ 3 * y3
      * d - y1 ^ 3 * x2 ^ 3 * y2 ^ 2 * y3 * d - y1 ^ 3 * x2 ^ 2 * y2 ^ 3 * x3 * d + y1 * x2 ^ 3 * y2 ^ 2 * y3 * d + y1 * x2 ^ 2
      * y2 ^ 3 * x3 * d) * e3

theorem assoc_y (P Q R : Pt F) : (P + Q + R).y = (Q + R + P).y := by
  have l := triple_y P Q R
  have r := triple_y Q R P
  have hl := triple_y_ne P Q R
  have hr := triple_y_ne Q R P
  rw [← eq_div_iff hl] at l
  rw [← eq_div_iff hr] at r
  rw [l, r, div_eq_div_iff hl hr]
  have e1 := P.on
  have e2 := Q.on
  have e3 := R.on
  generalize P.x = x1, P.y = y1, Q.x = x2, Q.y = y2, R.x = x3, R.y = y3 at *
  linear_combination (x1 * x2 ^ 4 * y2 ^ 3 * x3 * y3 ^ 2 * d ^ 2 + x1 * x2 ^ 4 * y2 * x3 * y3 ^ 2 * d + x1 * x2 ^ 3 * y2 ^ 4 *
      x3 ^ 2 * y3 * d ^ 2 + x1 * x2 ^ 3 * y2 ^ 2 * y3 ^ 3 * d - x1 * x2 ^ 3 * y2 ^ 2 * y3 * d - x1 * x2 ^ 2 * y2 ^ 3 * x3 ^ 3 *
      d - x1 * x2 ^ 2 * y2 ^ 3 * x3 * d - x1 * x2 * y2 ^ 4 * x3 ^ 2 * y3 * d - y1 * x2 ^ 4 * y2 ^ 3 * x3 ^ 2 * y3 * d ^ 2 - y1 *
      x2 ^ 4 * y2 * x3 ^ 2 * y3 * d - y1 * x2 ^ 3 * y2 ^ 4 * x3 * y3 ^ 2 * d ^ 2 - y1 * x2 ^ 3 * y2 ^ 2 * x3 ^ 3 * d - y1 * x2 ^
      3 * y2 ^ 2 * x3 * d + y1 * x2 ^ 2 * y2 ^ 3 * y3 ^ 3 * d - y1 * x2 ^ 2 * y2 ^ 3 * y3 * d + y1 * x2 * y2 ^ 4 * x3 * y3 ^ 2 *
      d) * e1 + (-x1 ^ 3 * x2 ^ 2 * y2 * x3 * y3 ^ 2 * d - x1 ^ 3 * x2 * y2 ^ 2 * x3 ^ 2 * y3 * d + x1 ^ 2 * y1 * x2 ^ 2 * y2 *
      y3 ^ 3 * d - x1 ^ 2 * y1 * x2 ^ 2 * y2 * y3 * d + x1 ^ 2 * y1 * x2 * y2 ^ 2 * x3 ^ 3 * d + x1 ^ 2 * y1 * x2 * y2 ^ 2 * x3
      * d + x1 * y1 ^ 2 * x2 ^ 2 * y2 * x3 ^ 3 * d + x1 * y1 ^ 2 * x2 ^ 2 * y2 * x3 * d + x1 * y1 ^ 2 * x2 * y2 ^ 2 * y3 ^ 3 * d
      - x1 * y1 ^ 2 * x2 * y2 ^ 2 * y3 * d - x1 * x2 ^ 2 * y2 * x3 * y3 ^ 2 * d - x1 * x2 * y2 ^ 2 * x3 ^ 2 * y3 * d - y1 ^ 3 *
      x2 ^ 2 * y2 * x3 ^ 2 * y3 * d - y1 ^ 3 * x2 * y2 ^ 2 * x3 * y3 ^ 2 * d + y1 * x2 ^ 2 * y2 * x3 ^ 2 * y3 * d + y1 * x2 * y2
      ^ 2 * x3 * y3 ^ 2 * d) * e2 + (x1 ^ 3 * x2 ^ 3 * y2 ^ 2 * y3 * d + x1 ^ 3 * x2 ^ 2 * y2 ^ 3 * x3 * d + x1 ^ 2 * y1 * x2 ^
      4 * y2 ^ 3 * y3 * d ^ 2 + x1 ^ 2 * y1 * x2 ^ 4 * y2 * y3 * d - x1 ^ 2 * y1 * x2 ^ 3 * y2 ^ 4 * x3 * d ^ 2 + x1 ^ 2 * y1 *
      x2 * y2 ^ 4 * x3 * d - x1 * y1 ^ 2 * x2 ^ 4 * y2 ^ 3 * x3 * d ^ 2 - x1 * y1 ^ 2 * x2 ^ 4 * y2 * x3 * d + x1 * y1 ^ 2 * x2
      ^ 3 * y2 ^ 4 * y3 * d ^ 2 - x1 * y1 ^ 2 * x2 * y2 ^ 4 * y3 * d + x1 * x2 ^ 3 * y2 ^ 2 * y3 * d + x1 * x2 ^ 2 * y2 ^ 3 * x3
      * d - y1 ^ 3 * x2 ^ 3 * y2 ^ 2 * x3 * d - y1 ^ 3 * x2 ^ 2 * y2 ^ 3 * y3 * d + y1 * x2 ^ 3 * y2 ^ 2 * x3 * d + y1 * x2 ^ 2
      * y2 ^ 3 * y3 * d) * e3

protected theorem add_assoc (P Q R : Pt F) : P + Q + R = P + (Q + R) := by
  rw [Pt.add_comm P (Q + R)]
  ext
  · exact assoc_x P Q R
  · exact assoc_y P Q R

instance : AddCommGroup (Pt F) where
  add_assoc := Pt.add_assoc
  zero_add := Pt.zero_add
  add_zero P := by rw [Pt.add_comm, Pt.zero_add]
  neg_add_cancel := Pt.neg_add_cancel
  add_comm := Pt.add_comm
  nsmul := nsmulRec
  zsmul := zsmulRec

end Pt

end Verif.Curve
