import Mathlib.Data.Real.Sqrt
import Verif.Lemmas.Fork
import Verif.Lemmas.Random
import Verif.Props.Life
import Verif.Props.Random

/-!
C101: who forges signatures for a key can compute the secret of the key.
-/

namespace Verif.Props

open Verif.Spec Fork Verif.Random

variable {G : Type} [RGroup G] {sha : Sha512}

section

variable (F : Forger G) (A : G) (n : Nat)

theorem asked_snoc (bs : List Block) (b : Block) : F.asked A n (bs ++ [b]) = F.step A n (F.asked A n bs) b := by
  unfold Forger.asked
  rw [List.foldl_append]
  rfl

theorem asked_length (bs : List Block) : (F.asked A n bs).length = bs.length := by
  induction bs using List.reverseRecOn with
  | nil => rfl
  | append_singleton bs b ih => rw [asked_snoc, Forger.step, List.length_append, ih]; simp

/-- Every answer has the length of a digest. -/
theorem asked_digest (bs : List Block) : ∀ p ∈ F.asked A n bs, p.2.length = 64 := by
  induction bs using List.reverseRecOn with
  | nil => intro p hp; cases hp
  | append_singleton bs b ih =>
    rw [asked_snoc, Forger.step]
    intro p hp
    rcases List.mem_append.mp hp with hp | hp
    · exact ih p hp
    · rw [List.mem_singleton] at hp
      subst hp
      dsimp only
      split
      · rename_i p hf
        exact ih p (List.mem_of_find?_eq_some hf)
      · exact b.2

theorem asked_take (bs : List Block) (k : Nat) : (F.asked A n bs).take k = F.asked A n (bs.take k) := by
  induction bs using List.reverseRecOn with
  | nil => simp [Forger.asked]
  | append_singleton bs b ih =>
    rcases Nat.lt_or_ge bs.length k with hk | hk
    · rw [List.take_of_length_le (by rw [asked_length]; simp; omega), List.take_of_length_le (by simp; omega)]
    · rw [asked_snoc, Forger.step, List.take_append_of_le_length (by rw [asked_length]; exact hk), ih, List.take_append_of_le_length hk]

/-- What is asked in place `k`, and the answer. -/
theorem asked_get (bs : List Block) (k : Nat) (hk : k < bs.length) :
    (F.asked A n bs)[k]? = some (F.query A n ((F.asked A n (bs.take k)).map Prod.snd),
      match (F.asked A n (bs.take k)).find? fun p => p.1 == F.query A n ((F.asked A n (bs.take k)).map Prod.snd) with
        | some p => p.2
        | none => bs[k].1) := by
  have h1 : (F.asked A n bs)[k]? = ((F.asked A n bs).take (k + 1))[k]? := by
    rw [List.getElem?_take_of_lt (Nat.lt_succ_self k)]
  rw [h1, asked_take, List.take_succ_eq_append_getElem hk, asked_snoc, Forger.step]
  have h2 : (F.asked A n (bs.take k)).length = k := by rw [asked_length, List.length_take]; omega
  rw [List.getElem?_append_right (by omega), h2, Nat.sub_self]
  rfl

/-- The hash function that has the answers. -/
def _root_.Verif.Spec.Forger.hash (sha : Sha512) (F : Forger G) (A : G) (n : Nat) (h : Fin (n + 1) → Block) : Sha512 :=
  reprogram sha (F.asked A n (List.ofFn h)) (asked_digest F A n _)

/-- The algorithm has forged a signature. -/
def _root_.Verif.Spec.Forger.Wins (sha : Sha512) (F : Forger G) (A : G) (n : Nat) (h : Fin (n + 1) → Block) : Prop :=
  PublicKey.verify (F.hash sha A n h) A (F.said A n h).1 (F.said A n h).2 = .ok true

/-- The last question is that of the verifier. -/
theorem last_query (h : Fin (n + 1) → Block) : F.query A n ((F.asked A n ((List.ofFn h).take n)).map Prod.snd) = F.verified A n h := by
  unfold Forger.query Forger.verified Forger.said
  rw [if_neg]
  rw [List.length_map, asked_length, List.length_take, List.length_ofFn]
  omega

theorem place_spec (h : Fin (n + 1) → Block) :
    F.query A n ((F.asked A n ((List.ofFn h).take (F.place A n h).val)).map Prod.snd) = F.verified A n h ∧
    (F.hash sha A n h).sum (F.verified A n h) = (h (F.place A n h)).1 := by
  have hlen : (F.asked A n (List.ofFn h)).length = n + 1 := by rw [asked_length, List.length_ofFn]
  let idx := (F.asked A n (List.ofFn h)).findIdx fun p => p.1 == F.verified A n h
  have hlast := asked_get F A n (List.ofFn h) n (by rw [List.length_ofFn]; omega)
  rw [last_query] at hlast
  have hidx : idx ≤ n := by
    by_contra hc
    have := List.not_of_lt_findIdx (xs := F.asked A n (List.ofFn h)) (p := fun p => p.1 == F.verified A n h) (i := n) (by omega)
    obtain ⟨h1, h2⟩ := List.getElem?_eq_some_iff.mp hlast
    rw [h2] at this
    simp at this
  have hval : (F.place A n h).val = idx := Nat.min_eq_left hidx
  have hget := asked_get F A n (List.ofFn h) idx (by rw [List.length_ofFn]; omega)
  obtain ⟨hlt, h2⟩ := List.getElem?_eq_some_iff.mp hget
  have hfound : ((F.asked A n (List.ofFn h))[idx].1 == F.verified A n h) = true := List.findIdx_getElem (w := hlt)
  rw [h2] at hfound
  have hq : F.query A n ((F.asked A n ((List.ofFn h).take idx)).map Prod.snd) = F.verified A n h := by simpa using hfound
  rw [hval]
  refine ⟨hq, ?_⟩
  have hnone : (F.asked A n ((List.ofFn h).take idx)).find? (fun p => p.1 == F.verified A n h) = none := by
    rw [List.find?_eq_none]
    intro p hp
    rw [← asked_take] at hp
    obtain ⟨i, hi, rfl⟩ := List.getElem_of_mem hp
    rw [List.getElem_take]
    have hi' : i < idx := by rw [List.length_take] at hi; omega
    have := List.not_of_lt_findIdx (xs := F.asked A n (List.ofFn h)) (p := fun p => p.1 == F.verified A n h) hi'
    simpa using this
  show (match (F.asked A n (List.ofFn h)).find? fun p => p.1 == F.verified A n h with
    | some p => p.2
    | none => sha.sum _) = _
  rw [List.find?_eq_getElem?_findIdx]
  rw [show (F.asked A n (List.ofFn h)).findIdx (fun p => p.1 == F.verified A n h) = idx from rfl, hget]
  rw [hq, hnone]
  simp only [List.getElem_ofFn]
  congr 2
  exact Fin.ext hval.symm

/-- A win means that the signature satisfies the equation with the answer at the place as the challenge. -/
theorem wins_iff (h : Fin (n + 1) → Block) :
    F.Wins sha A n h ↔ (F.said A n h).2.S • (base : G) = (F.said A n h).2.R + scalarOf (h (F.place A n h)) • A := by
  unfold Forger.Wins
  obtain ⟨b, h1, h2⟩ := C50_verify_iff (F.hash sha A n h) A (F.said A n h).1 (F.said A n h).2
  have hc : Spec.challenge (F.hash sha A n h) (F.said A n h).2.R A (F.said A n h).1 = scalarOf (h (F.place A n h)) := by
    unfold Spec.challenge scalarOf
    have := (place_spec (sha := sha) F A n h).2
    unfold Forger.verified challengeInput at this
    rw [this]
  rw [h1, Outcome.ok.injEq, h2, hc]

theorem asked_splice {h h' : Fin (n + 1) → Block} (j : Fin (n + 1)) : (List.ofFn (splice j h h')).take j.val = (List.ofFn h).take j.val := by
  apply List.ext_getElem
  · simp
  · intro i h1 h2
    rw [List.getElem_take, List.getElem_take, List.getElem_ofFn, List.getElem_ofFn]
    unfold splice
    rw [if_pos]
    rw [List.length_take] at h1
    exact Fin.lt_def.mpr (by show i < j.val; omega)

/-- Two forgeries that depend on the same question with different answers give the secret. -/
theorem extract_spec (h h' : Fin (n + 1) → Block) (j : Fin (n + 1)) (w : F.Wins sha A n h) (hj : F.place A n h = j) (w' : F.Wins sha A n (splice j h h'))
    (hj' : F.place A n (splice j h h') = j) (hne : scalarOf (h j) ≠ scalarOf (h' j)) : F.extract A n h h' • (base : G) = A := by
  have hv : F.verified A n h = F.verified A n (splice j h h') := by
    rw [← (place_spec (sha := sha) F A n h).1, ← (place_spec (sha := sha) F A n (splice j h h')).1, hj, hj', asked_splice]
  unfold Forger.verified challengeInput at hv
  obtain ⟨hv, _⟩ := List.append_inj hv (by simp [RGroup.bytesEd25519_length])
  have hR := RGroup.bytesEd25519_injective _ _ (List.append_cancel_right hv)
  rw [wins_iff, hj] at w
  rw [wins_iff, hj', ← hR] at w'
  have hs : splice j h h' j = h' j := by unfold splice; rw [if_neg (lt_irrefl j)]
  rw [hs] at w'
  have hd : ((F.said A n h).2.S - (F.said A n (splice j h h')).2.S) • (base : G) = (scalarOf (h j) - scalarOf (h' j)) • A := by
    rw [sub_smul, sub_smul, w, w']
    abel
  unfold Forger.extract
  rw [hj, div_eq_mul_inv, mul_comm, mul_smul, hd, ← mul_smul, inv_mul_cancel₀ (sub_ne_zero.mpr hne), one_smul]

end

/-- Two digests give the same challenge with a probability of at most `2^-252`. -/
theorem prob_same (b : Block) : prob (fun b' : Block => scalarOf b = scalarOf b') ≤ 1 / 2 ^ 252 := by
  have h1 := C92_count (scalarOf b)
  unfold prob
  have h2 : Nat.card {b' : Block // scalarOf b = scalarOf b'} = Nat.card {b' : Block // scalarOf b' = scalarOf b} :=
    Nat.card_congr (Equiv.subtypeEquivRight fun b' => eq_comm)
  have h3 : Nat.card Block = 2 ^ 512 := card_block
  have h4 : Nat.card {b' : Block // scalarOf b' = scalarOf b} ≤ 2 ^ 260 := by
    rw [h1]
    have : 2 ^ 512 / q + 1 ≤ 2 ^ 260 := by decide +kernel
    split <;> omega
  rw [h2, h3, div_le_div_iff₀ (by positivity) (by positivity), one_mul]
  calc (Nat.card {b' : Block // scalarOf b' = scalarOf b} : ℝ) * 2 ^ 252 ≤ 2 ^ 260 * 2 ^ 252 := by
        gcongr
        exact_mod_cast h4
    _ = ((2 ^ 512 : Nat) : ℝ) := by rw [← pow_add, Nat.cast_pow, Nat.cast_ofNat]

/-- C101: an algorithm that asks `n` hash values and forges a signature with probability `ε` gives, run twice, the secret of the key with probability at
least `ε² / (n + 1) - ε / 2^252`.  `F` may toss coins, which are the same in both runs. -/
theorem C101_forger_gives_secret {T : Type} [Fintype T] [Nonempty T] (sha : Sha512) (A : G) (F : T → Forger G) (n : Nat) :
    let ε := prob fun p : T × (Fin (n + 1) → Block) => (F p.1).Wins sha A n p.2
    ε ^ 2 / (n + 1) - ε / 2 ^ 252 ≤ prob fun p : T × (Fin (n + 1) → Block) × (Fin (n + 1) → Block) => (F p.1).extract A n p.2.1 p.2.2 • (base : G) = A := by
  classical
  intro ε
  have : Nonempty Block := ⟨⟨List.replicate 64 0, by simp⟩⟩
  have h1 := fork (N := n + 1) (T := T) (B := Block) (fun t h => if (F t).Wins sha A n h then some ((F t).place A n h) else none)
    (fun b b' => scalarOf b = scalarOf b') (1 / 2 ^ 252) prob_same
  have he : (prob fun p : T × (Fin (n + 1) → Block) => (if (F p.1).Wins sha A n p.2 then some ((F p.1).place A n p.2) else none).isSome = true) = ε := by
    show _ = prob fun p : T × (Fin (n + 1) → Block) => (F p.1).Wins sha A n p.2
    congr 1
    funext p
    split <;> simp_all
  rw [he] at h1
  push_cast at h1
  rw [mul_one_div] at h1
  refine h1.trans (prob_mono ?_)
  rintro ⟨t, h, h'⟩ ⟨j, g1, g2, g3⟩
  dsimp only at g1 g2 g3 ⊢
  split at g1
  · rename_i w
    split at g2
    · rename_i w'
      exact extract_spec (sha := sha) (F t) A n h h' j w (Option.some.inj g1) w' (Option.some.inj g2) g3
    · cases g2
  · cases g1

/-- C101: so if the secret of the key is found like this with probability at most `p`, signatures are forged with probability at most
`√((n + 1) p) + (n + 1) / 2^252`. -/
theorem C101_forgery_bound {T : Type} [Fintype T] [Nonempty T] (sha : Sha512) (A : G) (F : T → Forger G) (n : Nat) (p : ℝ)
    (hp : (prob fun x : T × (Fin (n + 1) → Block) × (Fin (n + 1) → Block) => (F x.1).extract A n x.2.1 x.2.2 • (base : G) = A) ≤ p) :
    (prob fun x : T × (Fin (n + 1) → Block) => (F x.1).Wins sha A n x.2) ≤ Real.sqrt ((n + 1) * p) + (n + 1) / 2 ^ 252 := by
  have h := (C101_forger_gives_secret sha A F n).trans hp
  generalize (prob fun x : T × (Fin (n + 1) → Block) => (F x.1).Wins sha A n x.2) = ε at h
  have hn : (0 : ℝ) < n + 1 := by positivity
  by_contra hc
  push Not at hc
  have hs := Real.sqrt_nonneg ((n + 1) * p)
  have h1 : ε ^ 2 - ε * ((n + 1) / 2 ^ 252) ≤ (n + 1) * p := by
    have := mul_le_mul_of_nonneg_left h hn.le
    calc _ = (n + 1) * (ε ^ 2 / (n + 1) - ε / 2 ^ 252) := by field_simp
      _ ≤ _ := this
  have h2 : Real.sqrt ((n + 1) * p) < ε - (n + 1) / 2 ^ 252 := by linarith
  have h3 : (n + 1) * p < (ε - (n + 1) / 2 ^ 252) ^ 2 := (Real.sqrt_lt' (by linarith)).mp h2
  have h4 : (0 : ℝ) < (n + 1) / 2 ^ 252 := by positivity
  nlinarith

/-- The commitments to a polynomial are determined by the key and the shares of `t` parties. -/
theorem commitments_shamir {t : UInt16} (T : Fin t.toNat → ID) (hT : Function.Injective T) (h0 : ∀ j, T j ≠ 0) (x : Scalar) (c : Fin t.toNat → Scalar) :
    (Exponent.ofPoly (shamirList x c) : Exponent G) =
      commitmentsFrom t.toNat (List.ofFn T) (x • base) (Function.extend T (fun j => evalAt (shamirList x c) (T j).val) fun _ => 0) := by
  let coins : Coins := fun k => match k with
    | 0 => x
    | k + 1 => if h : k < t.toNat then c ⟨k, h⟩ else 0
  have hp : Keygen.coinPoly t coins = shamirList x c := by
    unfold Keygen.coinPoly shamirList
    congr 1
    apply List.ext_getElem
    · simp
    · intro k h1 h2
      have : k < t.toNat := by simpa using h1
      simp [coins, this]
  have h := C80_commitments (G := G) (t := t) (T := List.ofFn T) (List.nodup_ofFn.mpr hT)
    (by rw [List.mem_ofFn]; rintro ⟨j, hj⟩; exact h0 j hj) (by simp) coins
  rw [hp] at h
  rw [h]
  unfold commitmentsFrom
  apply List.map_congr_left
  intro k _
  congr 2
  apply List.map_congr_left
  intro i hi
  obtain ⟨j, rfl⟩ := List.mem_ofFn.mp hi
  rw [hT.extend_apply]

/-- C101: `t` parties who are given their shares of a secret and the commitments to the polynomial, and who forge a signature for its key with probability
`ε`, can be used to compute the secret from the key alone: scalars chosen at random take the place of the shares, and the commitments are computed from these
and the key. -/
theorem C101_coalition {C : Type} [Fintype C] [Nonempty C] (sha : Sha512) {t : UInt16} (T : Fin t.toNat → ID) (hT : Function.Injective T)
    (h0 : ∀ j, T j ≠ 0) (x : Scalar) (F : (Fin t.toNat → Scalar) → Exponent G → C → Forger G) (n : Nat) :
    let ε := prob fun p : (Fin t.toNat → Scalar) × C × (Fin (n + 1) → Block) =>
      (F (fun j => evalAt (shamirList x p.1) (T j).val) (Exponent.ofPoly (shamirList x p.1)) p.2.1).Wins sha (x • base) n p.2.2
    ε ^ 2 / (n + 1) - ε / 2 ^ 252 ≤ prob fun p : ((Fin t.toNat → Scalar) × C) × (Fin (n + 1) → Block) × (Fin (n + 1) → Block) =>
      (F p.1.1 (commitmentsFrom t.toNat (List.ofFn T) (x • base) (Function.extend T p.1.1 fun _ => 0)) p.1.2).extract (x • base) n p.2.1 p.2.2 • (base : G) =
        x • base := by
  intro ε
  have : NeZero q := ⟨q_pos.ne'⟩
  have : Fintype Scalar := inferInstanceAs (Fintype (ZMod q))
  let e : (Fin t.toNat → Scalar) × C × (Fin (n + 1) → Block) ≃ ((Fin t.toNat → Scalar) × C) × (Fin (n + 1) → Block) :=
    ((Equiv.ofBijective _ (C80_shares_uniform T hT h0 x)).prodCongr (Equiv.refl _)).trans (Equiv.prodAssoc _ _ _).symm
  have he : ε = prob fun p : ((Fin t.toNat → Scalar) × C) × (Fin (n + 1) → Block) =>
      (F p.1.1 (commitmentsFrom t.toNat (List.ofFn T) (x • base) (Function.extend T p.1.1 fun _ => 0)) p.1.2).Wins sha (x • base) n p.2 := by
    rw [← prob_equiv e]
    show prob _ = _
    congr 1
    funext p
    rw [commitments_shamir T hT h0 x p.1]
    rfl
  rw [he]
  exact C101_forger_gives_secret sha (x • base)
    (fun s : (Fin t.toNat → Scalar) × C => F s.1 (commitmentsFrom t.toNat (List.ofFn T) (x • base) (Function.extend T s.1 fun _ => 0)) s.2) n

end Verif.Props
