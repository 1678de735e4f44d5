import Mathlib.Algebra.BigOperators.Field
import Mathlib.Algebra.BigOperators.Fin
import Mathlib.Algebra.Order.BigOperators.Ring.Finset
import Mathlib.Data.Fintype.BigOperators
import Mathlib.Data.Int.CardIntervalMod
import Mathlib.Algebra.Order.Ring.Pow
import Mathlib.Tactic.Positivity
import Mathlib.Tactic.Linarith
import Mathlib.Tactic.FieldSimp
import Verif.Lemmas.Eddsa
import Verif.Spec.Random

/-! Counting lemmas for `Props/Random`. -/

namespace Verif.Random

open Spec

open Classical in
/-- Preimages of a set of families under a map applied to each member. -/
theorem card_comp {ι A B : Type} [Fintype ι] [Fintype A] [Fintype B] (g : A → B) (P : (ι → B) → Prop) :
    (Nat.card {f : ι → A // P fun i => g (f i)} : ℝ) = ∑ s : ι → B, if P s then ∏ i, (Nat.card {a // g a = s i} : ℝ) else 0 := by
  have e1 : {f : ι → A // P fun i => g (f i)} ≃ Σ s : {s : ι → B // P s}, ∀ i, {a // g a = s.1 i} :=
    { toFun := fun f => ⟨⟨fun i => g (f.1 i), f.2⟩, fun i => ⟨f.1 i, rfl⟩⟩
      invFun := fun x => ⟨fun i => (x.2 i).1, by
        have : (fun i => g (x.2 i).1) = x.1.1 := funext fun i => (x.2 i).2
        rw [this]
        exact x.1.2⟩
      left_inv := fun f => rfl
      right_inv := by
        rintro ⟨⟨s, hs⟩, h⟩
        have hx : (fun i => g (h i).1) = s := funext fun i => (h i).2
        refine Sigma.ext (Subtype.ext hx) (Function.hfunext rfl fun i j hij => ?_)
        obtain rfl := eq_of_heq hij
        exact (Subtype.heq_iff_coe_eq fun a => by rw [← (h i).2]).mpr rfl }
  rw [Nat.card_congr e1, Nat.card_sigma]
  simp only [Nat.card_pi]
  push_cast
  rw [← Finset.sum_filter]
  exact (Finset.sum_subtype (p := P) _ (fun x => by simp) fun s => ∏ i, (Nat.card {a // g a = s i} : ℝ)).symm

/-- Products of weights that are close are close. -/
theorem prod_close {B : Type} [Fintype B] (m v : B → ℝ) (hm : ∀ b, 0 ≤ m b) (hv : ∀ b, 0 ≤ v b) (hm1 : ∑ b, m b = 1) (hv1 : ∑ b, v b = 1) (n : Nat) :
    ∑ s : Fin n → B, |∏ i, m (s i) - ∏ i, v (s i)| ≤ n * ∑ b, |m b - v b| := by
  induction n with
  | zero => simp
  | succ n ih =>
    have hM : ∑ s : Fin n → B, ∏ i, m (s i) = 1 := by
      rw [← Fintype.piFinset_univ, ← Finset.prod_univ_sum (fun _ : Fin n => Finset.univ) fun _ b => m b]
      simp [hm1]
    rw [← (Fin.consEquiv fun _ => B).sum_comp, Fintype.sum_prod_type]
    have h1 : ∀ b : B, ∀ s : Fin n → B, |∏ i, m ((Fin.consEquiv fun _ => B) (b, s) i) - ∏ i, v ((Fin.consEquiv fun _ => B) (b, s) i)| ≤
        |m b - v b| * (∏ i, m (s i)) + v b * |∏ i, m (s i) - ∏ i, v (s i)| := by
      intro b s
      have hp : 0 ≤ ∏ i, m (s i) := Finset.prod_nonneg fun i _ => hm _
      simp only [Fin.consEquiv_apply, Fin.prod_univ_succ, Fin.cons_zero, Fin.cons_succ]
      rw [show m b * ∏ i, m (s i) - v b * ∏ i, v (s i) = (m b - v b) * (∏ i, m (s i)) + v b * (∏ i, m (s i) - ∏ i, v (s i)) by ring]
      refine (abs_add_le _ _).trans ?_
      rw [abs_mul, abs_mul, abs_of_nonneg hp, abs_of_nonneg (hv b)]
    refine (Finset.sum_le_sum fun b _ => Finset.sum_le_sum fun s _ => h1 b s).trans ?_
    simp only [Finset.sum_add_distrib, ← Finset.mul_sum, hM, mul_one, ← Finset.sum_mul, hv1, one_mul]
    push_cast
    linarith

theorem prod_close' {ι B : Type} [Fintype ι] [DecidableEq ι] [Fintype B] (m v : B → ℝ) (hm : ∀ b, 0 ≤ m b) (hv : ∀ b, 0 ≤ v b) (hm1 : ∑ b, m b = 1)
    (hv1 : ∑ b, v b = 1) : ∑ s : ι → B, |∏ i, m (s i) - ∏ i, v (s i)| ≤ Fintype.card ι * ∑ b, |m b - v b| := by
  refine le_trans (le_of_eq ?_) (prod_close m v hm hv hm1 hv1 (Fintype.card ι))
  let e := Fintype.equivFin ι
  rw [← (Equiv.arrowCongr e (Equiv.refl B)).sum_comp]
  refine Finset.sum_congr rfl fun s _ => ?_
  rw [← e.prod_comp fun i => m ((Equiv.arrowCongr e (Equiv.refl B)) s i), ← e.prod_comp fun i => v ((Equiv.arrowCongr e (Equiv.refl B)) s i)]
  simp

/-! ### Blocks -/

theorem pow_eq : 256 ^ 64 = 2 ^ 512 := by rw [show 256 = 2 ^ 8 from rfl, ← pow_mul]

/-- Blocks are numbers below `2^512`. -/
def blockEquiv : Block ≃ Fin (2 ^ 512) where
  toFun b := ⟨leNat b.1, by have := leNat_lt b.1; rwa [b.2, pow_eq] at this⟩
  invFun n := ⟨natLE 64 n, natLE_length _ _⟩
  left_inv b := by
    apply Subtype.ext
    show natLE 64 (leNat b.1) = b.1
    have := natLE_leNat b.1
    rwa [b.2] at this
  right_inv n := by
    apply Fin.ext
    show leNat (natLE 64 n) = n
    rw [leNat_natLE, pow_eq, Nat.mod_eq_of_lt n.2]

instance : Finite Block := Finite.of_equiv _ blockEquiv.symm

noncomputable instance : Fintype Block := Fintype.ofFinite _

instance : NeZero q := ⟨by decide +kernel⟩

instance : Finite Scalar := inferInstanceAs (Finite (ZMod q))

noncomputable instance : Fintype Scalar := Fintype.ofFinite _

theorem card_block : Nat.card Block = 2 ^ 512 := by rw [Nat.card_congr blockEquiv, Nat.card_fin]

theorem card_scalar : Nat.card Scalar = q := Nat.card_zmod q

theorem leValue_eq (b : Bytes) : leValue b = leNat b := (leNat_eq_leValue b).symm

theorem q_pos : 0 < q := NeZero.pos q

/-- How many blocks give one scalar. -/
theorem card_scalarOf (x : Scalar) : Nat.card {b : Block // scalarOf b = x} = 2 ^ 512 / q + if x.val < 2 ^ 512 % q then 1 else 0 := by
  have h := Nat.count_modEq_card (2 ^ 512) q_pos x.val
  rw [Nat.mod_eq_of_lt (ZMod.val_lt x)] at h
  rw [← h, Nat.count_eq_card_filter_range]
  have e : {b : Block // scalarOf b = x} ≃ {n // n ∈ (Finset.range (2 ^ 512)).filter (· ≡ x.val [MOD q])} :=
    (blockEquiv.subtypeEquiv (q := fun n : Fin (2 ^ 512) => ((n : Nat) : Scalar) = x) fun b => by
      rw [scalarOf, leValue_eq]; rfl).trans
    { toFun := fun n => ⟨n.1.1, Finset.mem_filter.mpr ⟨Finset.mem_range.mpr n.1.2, by
        rw [← ZMod.natCast_eq_natCast_iff, ZMod.natCast_zmod_val]; exact n.2⟩⟩
      invFun := fun n => ⟨⟨n.1, Finset.mem_range.mp (Finset.mem_filter.mp n.2).1⟩, by
        have := (ZMod.natCast_eq_natCast_iff _ _ _).mpr (Finset.mem_filter.mp n.2).2
        rwa [ZMod.natCast_zmod_val] at this⟩
      left_inv := fun _ => rfl
      right_inv := fun _ => rfl }
  rw [Nat.card_congr e, Nat.card_eq_fintype_card, Fintype.card_coe]

/-- The probability of each scalar is within `2^-512` of `1 / q`. -/
theorem scalarOf_close (x : Scalar) : |(Nat.card {b : Block // scalarOf b = x} : ℝ) / 2 ^ 512 - 1 / q| ≤ 1 / 2 ^ 512 := by
  have hq : (0 : ℝ) < q := by exact_mod_cast q_pos
  have h2 : (0 : ℝ) < 2 ^ 512 := by positivity
  have key : (q : ℝ) * ((2 ^ 512 / q : ℕ) : ℝ) + ((2 ^ 512 % q : ℕ) : ℝ) = 2 ^ 512 := by exact_mod_cast Nat.div_add_mod (2 ^ 512) q
  have hr : ((2 ^ 512 % q : ℕ) : ℝ) ≤ q := by exact_mod_cast (Nat.mod_lt _ q_pos).le
  have hr0 : (0 : ℝ) ≤ ((2 ^ 512 % q : ℕ) : ℝ) := Nat.cast_nonneg _
  rw [card_scalarOf]
  generalize ((2 ^ 512 / q : ℕ)) = d at *
  generalize ((2 ^ 512 % q : ℕ)) = r at *
  rw [← sub_eq_zero] at key
  have e : ∀ c : ℝ, c / 2 ^ 512 - 1 / q = (q * c - 2 ^ 512) / (q * 2 ^ 512) := fun c => by field_simp
  rw [e, abs_div, abs_of_pos (mul_pos hq h2), div_le_div_iff₀ (mul_pos hq h2) h2, one_mul]
  refine mul_le_mul_of_nonneg_right ?_ h2.le
  push_cast
  split_ifs
  · rw [abs_le]; constructor <;> push_cast <;> nlinarith
  · rw [abs_le]; constructor <;> push_cast <;> nlinarith

theorem sum_scalarOf : ∑ x : Scalar, (Nat.card {b : Block // scalarOf b = x} : ℝ) = 2 ^ 512 := by
  have e : Block ≃ Σ x : Scalar, {b : Block // scalarOf b = x} := (Equiv.sigmaFiberEquiv scalarOf).symm
  have h := Nat.card_congr e
  rw [card_block, Nat.card_sigma] at h
  exact_mod_cast h.symm

theorem prob_nonneg {Ω : Type} (E : Ω → Prop) : 0 ≤ prob E := div_nonneg (Nat.cast_nonneg _) (Nat.cast_nonneg _)

theorem prob_mono {Ω : Type} [Finite Ω] {E F : Ω → Prop} (h : ∀ ω, E ω → F ω) : prob E ≤ prob F := by
  refine div_le_div_of_nonneg_right ?_ (Nat.cast_nonneg _)
  exact_mod_cast Nat.card_le_card_of_injective (fun x : {ω // E ω} => (⟨x.1, h _ x.2⟩ : {ω // F ω})) fun a b hab =>
    Subtype.ext (Subtype.mk.inj hab)

theorem prob_equiv {Ω Ω' : Type} (e : Ω ≃ Ω') (E : Ω' → Prop) : prob (fun ω => E (e ω)) = prob E := by
  unfold prob
  rw [Nat.card_congr e, Nat.card_congr (e.subtypeEquiv (p := fun ω => E (e ω)) (q := E) fun _ => Iff.rfl)]

/-- What is computed from the scalars read behaves as if the scalars were uniform, up to `2^-259` per scalar. -/
theorem transfer {ι : Type} [Fintype ι] (P : (ι → Scalar) → Prop) :
    |prob (fun β : ι → Block => P fun i => scalarOf (β i)) - prob P| ≤ Fintype.card ι / 2 ^ 259 := by
  classical
  have h2 : (0 : ℝ) < 2 ^ 512 := by positivity
  have hq : (0 : ℝ) < q := by exact_mod_cast q_pos
  let m : Scalar → ℝ := fun x => Nat.card {b : Block // scalarOf b = x} / 2 ^ 512
  let v : Scalar → ℝ := fun _ => 1 / q
  have hreal : prob (fun β : ι → Block => P fun i => scalarOf (β i)) = ∑ s : ι → Scalar, if P s then ∏ i, m (s i) else 0 := by
    unfold prob
    rw [card_comp scalarOf P, Nat.card_pi, Finset.sum_div]
    refine Finset.sum_congr rfl fun s _ => ?_
    split_ifs
    · simp only [m, card_block, Finset.prod_div_distrib]
      push_cast
      rfl
    · simp
  have hideal : prob P = ∑ s : ι → Scalar, if P s then ∏ i, v (s i) else 0 := by
    unfold prob
    rw [← Finset.sum_filter, Finset.sum_congr rfl fun s _ => (Finset.prod_const (1 / (q : ℝ))), Finset.sum_const, nsmul_eq_mul, Nat.card_pi]
    simp only [card_scalar, Finset.prod_const, Finset.card_univ]
    rw [Nat.card_eq_fintype_card, Fintype.card_subtype]
    push_cast
    rw [one_div, inv_pow, div_eq_mul_inv]
  have hv1 : ∑ b, v b = 1 := by
    simp only [v, Finset.sum_const, Finset.card_univ, nsmul_eq_mul, ← Nat.card_eq_fintype_card, card_scalar]
    field_simp
  have hm1 : ∑ b, m b = 1 := by
    simp only [m]
    rw [← Finset.sum_div, sum_scalarOf, div_self h2.ne']
  have hclose := prod_close' (ι := ι) m v (fun b => div_nonneg (Nat.cast_nonneg _) h2.le) (fun _ => by positivity) hm1 hv1
  rw [hreal, hideal, ← Finset.sum_sub_distrib]
  refine (Finset.abs_sum_le_sum_abs _ _).trans ?_
  refine (Finset.sum_le_sum fun s _ => ?_).trans (hclose.trans ?_)
  · split_ifs
    · exact le_refl _
    · simp
  · rw [mul_comm, div_eq_mul_inv, mul_comm (Fintype.card ι : ℝ)]
    refine mul_le_mul_of_nonneg_right ?_ (Nat.cast_nonneg _)
    refine (Finset.sum_le_sum fun x _ => scalarOf_close x).trans ?_
    rw [Finset.sum_const, Finset.card_univ, ← Nat.card_eq_fintype_card, card_scalar, nsmul_eq_mul]
    have : (q : ℝ) ≤ 2 ^ 253 := by exact_mod_cast (by decide +kernel : q ≤ 2 ^ 253)
    calc (q : ℝ) * (1 / 2 ^ 512) ≤ 2 ^ 253 * (1 / 2 ^ 512) := by gcongr
      _ = (2 ^ 259)⁻¹ := by rw [show (512 : ℕ) = 253 + 259 from rfl, pow_add]; field_simp

/-- All of the scalars read are different from 0, up to `2^-252` per scalar. -/
theorem nonzero {ι : Type} [Fintype ι] : 1 - Fintype.card ι / 2 ^ 252 ≤ prob (fun β : ι → Block => ∀ i, scalarOf (β i) ≠ 0) := by
  classical
  have h2 : (0 : ℝ) < 2 ^ 512 := by positivity
  have e : {β : ι → Block // ∀ i, scalarOf (β i) ≠ 0} ≃ (ι → {b : Block // scalarOf b ≠ 0}) := Equiv.subtypePiEquivPi (p := fun _ b => scalarOf b ≠ 0)
  have h0 : Nat.card {b : Block // scalarOf b = 0} ≤ 2 ^ 260 := by
    rw [card_scalarOf]
    exact le_trans (Nat.add_le_add_left (m := 1) (by split_ifs <;> decide) _) (by decide +kernel)
  have hsum : Nat.card {b : Block // scalarOf b ≠ 0} + Nat.card {b : Block // scalarOf b = 0} = 2 ^ 512 := by
    rw [← card_block, Nat.card_eq_fintype_card, Nat.card_eq_fintype_card, Nat.card_eq_fintype_card, add_comm, Fintype.card_subtype_compl]
    have := Fintype.card_subtype_le fun b : Block => scalarOf b = 0
    omega
  have hp : (1 : ℝ) + -(1 / 2 ^ 252) ≤ Nat.card {b : Block // scalarOf b ≠ 0} / 2 ^ 512 := by
    rw [le_div_iff₀ h2]
    have h3 : (Nat.card {b : Block // scalarOf b ≠ 0} : ℝ) + Nat.card {b : Block // scalarOf b = 0} = 2 ^ 512 := by exact_mod_cast hsum
    have h4 : (Nat.card {b : Block // scalarOf b = 0} : ℝ) ≤ 2 ^ 260 := by exact_mod_cast h0
    have h5 : (1 + -(1 / 2 ^ 252) : ℝ) * 2 ^ 512 = 2 ^ 512 - 2 ^ 260 := by
      rw [show (512 : ℕ) = 252 + 260 from rfl, pow_add]; field_simp; ring
    rw [h5]
    linarith
  unfold prob
  rw [Nat.card_congr e, Nat.card_pi, Nat.card_pi, card_block]
  simp only [Finset.prod_const, Finset.card_univ]
  push_cast
  rw [← div_pow]
  refine le_trans ?_ (pow_le_pow_left₀ ?_ hp _)
  · refine le_trans (le_of_eq ?_) (one_add_mul_le_pow ?_ _)
    · ring
    · have : (1 : ℝ) / 2 ^ 252 ≤ 1 := by rw [div_le_one (by positivity)]; exact one_le_pow₀ (by norm_num)
      linarith
  · have : (1 : ℝ) / 2 ^ 252 ≤ 1 := by rw [div_le_one (by positivity)]; exact one_le_pow₀ (by norm_num)
    linarith

end Verif.Random
