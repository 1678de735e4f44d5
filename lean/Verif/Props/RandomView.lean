import Verif.Props.Random
import Verif.Spec.RandomView

/-!
C92: what a coalition sees of a key generation, as probabilities.
-/

namespace Verif.Props

open Verif State Keygen

variable {G : Type} [RGroup G] {sha : Sha512}

theorem viewOf_eq (T : List ID) (h : List (Op G × Ret G)) : Verif.Spec.viewOf T h = (Spec.visible T h).map fun p => (Verif.Spec.blindOp p.1, p.2) := by
  unfold Verif.Spec.viewOf Spec.visible
  rw [List.map_map]
  refine List.map_congr_left fun p _ => ?_
  rcases p with ⟨op, r⟩
  cases r <;> rfl

theorem standIn_blind {T : List ID} {v : Verif.Spec.Given G} (s : State G (Round G)) (op : Op G) :
    step (Verif.Spec.standIn sha T v) s (Verif.Spec.blindOp op) = step (Verif.Spec.standIn sha T v) s op := by
  cases op <;> rfl

theorem hist_blind {T : List ID} {v : Verif.Spec.Given G} {s₀ s : State G (Round G)} {h : List (Op G × Ret G)} (hh : Hist (Verif.Spec.standIn sha T v) s₀ h s) :
    Hist (Verif.Spec.standIn sha T v) s₀ (h.map fun p => (Verif.Spec.blindOp p.1, p.2)) s := by
  induction hh with
  | nil => exact .nil
  | snoc _ hs ih =>
    rw [List.map_append]
    exact .snoc ih (by rw [standIn_blind]; exact hs)

/-- The same history with other coins. -/
def recoin (c : Coins) : Op G → Op G
  | .processAll ord _ => .processAll ord c
  | op => op

theorem standIn_recoin {T : List ID} {v : Verif.Spec.Given G} (c : Coins) (s : State G (Round G)) (op : Op G) :
    step (Verif.Spec.standIn sha T v) s (recoin c op) = step (Verif.Spec.standIn sha T v) s op := by
  cases op <;> rfl

theorem hist_recoin {T : List ID} {v : Verif.Spec.Given G} (c : Coins) {s₀ s : State G (Round G)} {h : List (Op G × Ret G)} (hh : Hist (Verif.Spec.standIn sha T v) s₀ h s) :
    Hist (Verif.Spec.standIn sha T v) s₀ (h.map fun p => (recoin c p.1, p.2)) s := by
  induction hh with
  | nil => exact .nil
  | snoc _ hs ih =>
    rw [List.map_append]
    exact .snoc ih (by rw [standIn_recoin]; exact hs)

theorem blind_recoin (c : Coins) (op : Op G) : Verif.Spec.blindOp (recoin c op) = Verif.Spec.blindOp op := by cases op <;> rfl

theorem blind_of_zero {h : List (Op G × Ret G)} (hz : Verif.Spec.Draws (fun _ => 0) h) : (h.map fun p => (Verif.Spec.blindOp p.1, p.2)) = h := by
  refine (List.map_congr_left fun p hp => ?_).trans (List.map_id _)
  rcases p with ⟨op, r⟩
  cases op with
  | processAll ord c => rw [hz ord c r hp]; rfl
  | _ => rfl

theorem draws_blind (h : List (Op G × Ret G)) : Verif.Spec.Draws (fun _ => 0) (h.map fun p => (Verif.Spec.blindOp p.1, p.2)) := by
  intro ord c r hm
  obtain ⟨⟨op, r'⟩, _, h2⟩ := List.mem_map.mp hm
  cases op <;> simp [Verif.Spec.blindOp] at h2
  exact h2.1.2.symm

theorem draws_recoin (c : Coins) (h : List (Op G × Ret G)) : Verif.Spec.Draws c (h.map fun p => (recoin c p.1, p.2)) := by
  intro ord c' r hm
  obtain ⟨⟨op, r'⟩, _, h2⟩ := List.mem_map.mp hm
  cases op <;> simp [recoin] at h2
  exact h2.1.2.symm

variable {self : ID} {ids : IDSlice} {t : UInt16} {timeout now : Nat} {s₀ : State G (Round G)}

/-- The shares of the members of `T` and the nonce, from the coefficients and the nonce. -/
def toShares {n : Nat} (T : Fin n → ID) (x : Scalar) (c : Fin (n + 1) → Scalar) : Fin (n + 1) → Scalar :=
  Fin.snoc (fun j => Verif.Spec.evalAt (shamirList x fun i => c i.castSucc) (T j).val) (c (Fin.last n))

theorem toShares_bijective {n : Nat} (T : Fin n → ID) (hT : Function.Injective T) (h0 : ∀ j, T j ≠ 0) (x : Scalar) : Function.Bijective (toShares T x) := by
  refine Finite.injective_iff_bijective.mp fun c c' h => ?_
  have h1 : ∀ j, Verif.Spec.evalAt (shamirList x fun i => c i.castSucc) (T j).val = Verif.Spec.evalAt (shamirList x fun i => c' i.castSucc) (T j).val := by
    intro j
    have := congrFun h j.castSucc
    simpa [toShares] using this
  have h2 : c (Fin.last n) = c' (Fin.last n) := by
    have := congrFun h (Fin.last n)
    simpa [toShares] using this
  have h3 := (C80_shares_uniform T hT h0 x).1 (funext h1)
  funext i
  refine Fin.lastCases h2 (fun j => ?_) i
  exact congrFun h3 j

theorem coinPoly_secretCoins (x : Scalar) (c : Fin (t.toNat + 1) → Scalar) : coinPoly t (Verif.Spec.secretCoins x c) = shamirList x fun i => c i.castSucc := by
  unfold coinPoly shamirList
  refine congrArg₂ List.cons rfl ?_
  refine List.ext_getElem (by simp) fun i h1 h2 => ?_
  have hi : i < t.toNat := by simpa using h1
  simp [Verif.Spec.secretCoins, hi.le]

theorem standIn_given {T : Fin t.toNat → ID} (hT : Function.Injective T) (x : Scalar) (c : Fin (t.toNat + 1) → Scalar) :
    Verif.Spec.standIn sha (List.ofFn T) (Keygen.Spec.givenOf (G := G) t (Verif.Spec.secretCoins x c)) =
      Verif.Spec.standIn sha (List.ofFn T) (Verif.Spec.givenFrom T (x • base) (toShares T x c)) := by
  refine C80_standIn_local sha _ _ _ rfl ?_ ?_
  · show Verif.Spec.secretCoins x c (t.toNat + 1) = toShares T x c (Fin.last _)
    simp [Verif.Spec.secretCoins, toShares]
    rfl
  · intro j hj
    obtain ⟨i, rfl⟩ := List.mem_ofFn.mp hj
    show Verif.Spec.evalAt (coinPoly t (Verif.Spec.secretCoins x c)) (T i).val = dite _ _ _
    have h : ∃ k, T k = T i := ⟨i, rfl⟩
    rw [dif_pos h, hT h.choose_spec, coinPoly_secretCoins]
    simp [toShares]

/-- C92: whatever `t` parties do and in whatever order things happen, what they see of a key generation with the secret `x` has, up to a probability of
`(t + 1) / 2^259`, the distribution of what they see of a stand-in that is given the public key of `x` and `t + 1` uniform scalars. -/
theorem C92_view (x : Scalar) (h0 : (0 : ID) ∉ ids) (T : Fin t.toNat → ID) (hT : Function.Injective T) (hT0 : ∀ j, T j ≠ 0) (hTs : ∀ j, T j ≠ self)
    (hs : newKeygenState sha self ids t timeout now = .ok s₀) (P : List (Op G × Ret G) → Prop) :
    |Verif.Spec.prob (fun β : Fin (t.toNat + 1) → Verif.Spec.Block => ∃ h s, Hist (Keygen.impl sha) s₀ h s ∧
        Verif.Spec.Draws (Verif.Spec.secretCoins x fun i => Verif.Spec.scalarOf (β i)) h ∧ P (Verif.Spec.viewOf (List.ofFn T) h)) -
      Verif.Spec.prob (fun v : Fin (t.toNat + 1) → Scalar => ∃ h s, Hist (Verif.Spec.standIn sha (List.ofFn T) (Verif.Spec.givenFrom T (x • base) v)) s₀ h s ∧
        Verif.Spec.Draws (fun _ => 0) h ∧ P h)| ≤ (t.toNat + 1) / 2 ^ 259 := by
  have hl : (List.ofFn T).Nodup := List.nodup_ofFn.mpr hT
  have hl0 : (0 : ID) ∉ List.ofFn T := fun h => by
    obtain ⟨j, hj⟩ := List.mem_ofFn.mp h
    exact hT0 j hj
  have hls : self ∉ List.ofFn T := fun h => by
    obtain ⟨j, hj⟩ := List.mem_ofFn.mp h
    exact hTs j hj
  have hlen : (List.ofFn T).length = t.toNat := List.length_ofFn
  have tr := Random.transfer (ι := Fin (t.toNat + 1)) fun c => ∃ h s, Hist (Keygen.impl sha) s₀ h s ∧ Verif.Spec.Draws (Verif.Spec.secretCoins x c) h ∧
    P (Verif.Spec.viewOf (List.ofFn T) h)
  rw [Fintype.card_fin] at tr
  have e : ∀ c : Fin (t.toNat + 1) → Scalar, (∃ h s, Hist (Keygen.impl sha) s₀ h s ∧ Verif.Spec.Draws (Verif.Spec.secretCoins x c) h ∧ P (Verif.Spec.viewOf (List.ofFn T) h)) ↔
      ∃ h s, Hist (Verif.Spec.standIn sha (List.ofFn T) (Verif.Spec.givenFrom T (x • base) (Equiv.ofBijective _ (toShares_bijective T hT hT0 x) c))) s₀ h s ∧
        Verif.Spec.Draws (fun _ => 0) h ∧ P h := by
    intro c
    have hsi : Verif.Spec.standIn sha (List.ofFn T) (Verif.Spec.givenFrom T (x • base) (Equiv.ofBijective _ (toShares_bijective T hT hT0 x) c)) =
      Verif.Spec.standIn sha (List.ofFn T) (Keygen.Spec.givenOf (G := G) t (Verif.Spec.secretCoins x c)) := (standIn_given hT x c).symm
    rw [hsi]
    constructor
    · rintro ⟨h, s, hh, hd, hP⟩
      obtain ⟨s', hh', _⟩ := C80_view _ h0 hl hl0 hls hlen hs hh hd
      exact ⟨_, s', hist_blind hh', draws_blind _, by rw [← viewOf_eq]; exact hP⟩
    · rintro ⟨h', s', hh', hd, hP⟩
      obtain ⟨h, s, hh, heq, _⟩ := C80_view_converse (Verif.Spec.secretCoins x c) h0 hl hl0 hls hlen hs (hist_recoin (Verif.Spec.secretCoins x c) hh') (draws_recoin _ _)
      refine ⟨h, s, hh, ?_, ?_⟩
      · intro ord c' r hm
        exact draws_recoin (Verif.Spec.secretCoins x c) h' ord c' (seen (Verif.Spec.sees (List.ofFn T)) r) (by
          rw [heq]
          exact List.mem_map.mpr ⟨_, hm, rfl⟩)
      · rw [viewOf_eq, ← heq, List.map_map]
        rw [← blind_of_zero hd] at hP
        refine Eq.mp (congrArg P (List.map_congr_left fun p _ => ?_)) hP
        show _ = (Verif.Spec.blindOp (recoin _ p.1), p.2)
        rw [blind_recoin]
  have hq : Verif.Spec.prob (fun c : Fin (t.toNat + 1) → Scalar => ∃ h s, Hist (Keygen.impl sha) s₀ h s ∧ Verif.Spec.Draws (Verif.Spec.secretCoins x c) h ∧
      P (Verif.Spec.viewOf (List.ofFn T) h)) =
    Verif.Spec.prob (fun v : Fin (t.toNat + 1) → Scalar => ∃ h s, Hist (Verif.Spec.standIn sha (List.ofFn T) (Verif.Spec.givenFrom T (x • base) v)) s₀ h s ∧
        Verif.Spec.Draws (fun _ => 0) h ∧ P h) := by
    rw [← Random.prob_equiv (Equiv.ofBijective _ (toShares_bijective T hT hT0 x)) fun v : Fin (t.toNat + 1) → Scalar => ∃ h s,
      Hist (Verif.Spec.standIn sha (List.ofFn T) (Verif.Spec.givenFrom T (x • base) v)) s₀ h s ∧ Verif.Spec.Draws (fun _ => 0) h ∧ P h]
    exact congrArg Verif.Spec.prob (funext fun c => propext (e c))
  rw [← hq]
  push_cast at tr
  exact tr

end Verif.Props
