import Mathlib.Data.Fintype.CardEmbedding
import Mathlib.Tactic.LinearCombination
import Verif.Props.Random
import Verif.Props.Once
import Verif.Props.SignNet
import Verif.Spec.Reuse

/-!
C96: what happens when the two nonces of a signer are used again.  `pkg/frost/sign/round0.go:13-27` takes them from `crypto/rand` only.
-/

namespace Verif.Props

open Verif State Sign

variable {G : Type} [RGroup G] {sha : Sha512}

/-! ### The nonces depend on nothing but the source -/

/-- C96, refuted: the commitments that a session sends depend on the two scalars it draws and on nothing else.  Two sessions with different messages,
signers, keys and secrets send the same commitments if the source repeats itself. -/
theorem C96_not_hedged (secret secret' : SecretShare G) (shares shares' : Public G) (ids ids' : IDSlice) (message message' : Bytes) (timeout now timeout' now' : Nat)
    (s₀ s₀' : State G (Sign.Round G)) (h₀ : newSignState sha ids secret shares message timeout now = .ok s₀) (hnd : ids.Nodup)
    (h₀' : newSignState sha ids' secret' shares' message' timeout' now' = .ok s₀') (hnd' : ids'.Nodup) (hid : secret.id = secret'.id)
    (ord ord' : MapOrder) (coins coins' : Coins) (h0 : coins 0 = coins' 0) (h1 : coins 1 = coins' 1)
    (s s' : State G (Sign.Round G)) (out out' : List (Message G)) (hs : State.step (Sign.impl sha) s₀ (.processAll ord coins) = some (s, .messages out))
    (hs' : State.step (Sign.impl sha) s₀' (.processAll ord' coins') = some (s', .messages out')) (hne : out ≠ []) (hne' : out' ≠ []) : out = out' := by
  have key : ∀ (secret : SecretShare G) (shares : Public G) (ids : IDSlice) (message : Bytes) (timeout now : Nat) (s₀ : State G (Sign.Round G)),
      newSignState sha ids secret shares message timeout now = .ok s₀ → ids.Nodup → ∀ (ord : MapOrder) (coins : Coins) (s : State G (Sign.Round G)) (out : List (Message G)),
      State.step (Sign.impl sha) s₀ (.processAll ord coins) = some (s, .messages out) → out ≠ [] →
      out = [Message.newSign1 secret.id (coins 0 • base) (coins 1 • base)] := by
    intro secret shares ids message timeout now s₀ h₀ hnd ord coins s out hs hne
    have hh := (Hist.nil (impl := Sign.impl sha) (s := s₀)).snoc hs
    obtain ⟨r₀, hst, rfl⟩ := sign_start_of_new h₀ hnd
    obtain ⟨n, h1, _⟩ := sent secret shares ids message timeout now r₀ hst hh
    have hem : Spec.emitted ([] ++ [(Op.processAll ord coins, Ret.messages out)]) = out := by simp [Spec.emitted]
    have hmem : ∀ {ord' : MapOrder} {coins' : Coins} {r : Ret G}, (Op.processAll ord' coins', r) ∈ ([] ++ [(Op.processAll ord coins, Ret.messages out)] : List (Op G × Ret G)) → coins' = coins := by
      intro _ _ _ h
      simp at h
      exact h.1.2
    match n, h1 with
    | 0, h1 => exact absurd (hem.symm.trans h1) hne
    | 1, ⟨D, E, h1, ord', coins', r, h2, h3, h4⟩ =>
      rw [hem] at h1
      rw [hmem h2] at h3 h4
      rw [h1, h3, h4]
    | 2, ⟨D, E, z, h1, h2, h3⟩ =>
      obtain ⟨⟨_, _, _, _, h4⟩, _⟩ := h2
      simp at h4
      rw [hem, ← h4.2] at h1
      simp at h1
  rw [key _ _ _ _ _ _ _ h₀ hnd _ _ _ _ hs hne, key _ _ _ _ _ _ _ h₀' hnd' _ _ _ _ hs' hne', hid, h0, h1]

/-! ### Three responses give the share -/

/-- C96, refuted: if a signer sends the same commitments in three sessions, its secret share can be computed from the three responses, with what every
other signer knows, namely the commitments `D`, `E` of each session, unless one number is 0, which can be seen.  The messages and the sets of signers may be different or the same. -/
theorem C96_three_sessions_reveal (secret : SecretShare G) (shares : Public G) (hX : shares.shares.get? secret.id = some (secret.secret • base))
    (ids : Fin 3 → IDSlice) (message : Fin 3 → Bytes) (timeout now : Fin 3 → Nat) (s₀ s : Fin 3 → State G (Sign.Round G)) (h : Fin 3 → List (Op G × Ret G))
    (h₀ : ∀ k, newSignState sha (ids k) secret shares (message k) (timeout k) (now k) = .ok (s₀ k)) (hnd : ∀ k, (ids k).Nodup)
    (hh : ∀ k, Hist (Sign.impl sha) (s₀ k) (h k) (s k)) (D₀ E₀ : G) (z : Fin 3 → Scalar)
    (hsent : ∀ k, Message.newSign1 secret.id D₀ E₀ ∈ Spec.emitted (h k)) (hz : ∀ k, Message.newSign2 secret.id (z k) ∈ Spec.emitted (h k)) :
    (∃ D E : Fin 3 → ID → G, ∀ k, Spec.Commitments secret.id (ids k) (h k) (D k) (E k)) ∧
    ∀ D E : Fin 3 → ID → G, (∀ k, Spec.Commitments secret.id (ids k) (h k) (D k) (E k)) →
      let ρ := fun k => Spec.rho sha (ids k) (message k) (D k) (E k) secret.id
      let w := fun k => Spec.shareFactor sha (ids k) (message k) shares.groupKey (D k) (E k) secret.id
      (Spec.reuseDet ρ w ≠ 0 → secret.secret = Spec.recoverShare ρ w z) := by
  have key : ∀ k, ∃ D E, Spec.Commitments secret.id (ids k) (h k) D E ∧ D secret.id = D₀ ∧ E secret.id = E₀ ∧ z k • (base : G) =
      Spec.nonce sha (ids k) (message k) D E secret.id + Spec.chal sha (ids k) (message k) shares.groupKey D E • Spec.weightedShare shares (ids k) secret.id := by
    intro k
    obtain ⟨_, D, E, h1, h2⟩ := C45_sent_share_valid secret shares (ids k) (message k) (timeout k) (now k) (s₀ k) (h₀ k) (hnd k) hX (hh k) _ ⟨z k⟩ (hz k) rfl
    refine ⟨D, E, h1, ?_, ?_, h2⟩ <;>
    · obtain ⟨⟨ord, coins, _, _, h3⟩, _⟩ := h1
      have h4 := mem_emitted h3 List.mem_cons_self
      have h5 := hsent k
      have h6 := hz k
      rcases C47_at_most_one_share secret shares (ids k) (message k) (timeout k) (now k) (s₀ k) (h₀ k) (hnd k) (hh k) with h7 | ⟨D', E', h7⟩ | ⟨D', E', z', h7⟩ <;>
        rw [h7] at h4 h5 h6
      · cases h4
      · simp [Message.newSign1, Message.newSign2] at h6
      · simp [Message.newSign1, Message.newSign2] at h4 h5
        first | exact h4.1.trans h5.1.symm | exact h4.2.trans h5.2.symm
  choose D' E' h1' h2' h3' h4' using key
  refine ⟨⟨D', E', h1'⟩, ?_⟩
  intro D E h1 ρ w hdet
  have hsame : ∀ k, ∀ id ∈ ids k, D' k id = D k id ∧ E' k id = E k id := fun k =>
    C26_sign_commitments secret shares (ids k) (message k) (timeout k) (now k) (s₀ k) (h₀ k) (hnd k) (hh k) _ _ _ _ (h1' k) (h1 k)
  have hmem : ∀ k, secret.id ∈ ids k := fun k => (C42_accepted secret shares (ids k) (message k) (timeout k) (now k) (s₀ k) (h₀ k)).1
  have h2 : ∀ k, D k secret.id = D₀ := fun k => (hsame k _ (hmem k)).1.symm.trans (h2' k)
  have h3 : ∀ k, E k secret.id = E₀ := fun k => (hsame k _ (hmem k)).2.symm.trans (h3' k)
  have h4 : ∀ k, z k • (base : G) = Spec.nonce sha (ids k) (message k) (D k) (E k) secret.id +
      Spec.chal sha (ids k) (message k) shares.groupKey (D k) (E k) • Spec.weightedShare shares (ids k) secret.id := fun k => by
    rw [h4' k, Sign.nonce_congr (hsame k) _ (hmem k), Sign.chal_congr (hsame k)]
  obtain ⟨⟨_, coins, g1, g2, _⟩, _⟩ := h1 0
  have hD : ∀ k, D k secret.id = coins 0 • base := fun k => by rw [h2, ← h2 0, g1]
  have hE : ∀ k, E k secret.id = coins 1 • base := fun k => by rw [h3, ← h3 0, g2]
  have hlin : ∀ k, z k = coins 0 + ρ k * coins 1 + w k * secret.secret := by
    intro k
    apply smul_base_injective (G := G)
    rw [h4 k, Spec.nonce, hD, hE, Spec.weightedShare, hX, Option.getD_some, smul_smul, smul_smul, smul_smul, ← add_smul, ← add_smul]
    congr 1
    simp only [ρ, w, Spec.shareFactor]
    ring
  rw [Spec.recoverShare, eq_div_iff hdet, Spec.reuseDet, hlin 0, hlin 1, hlin 2]
  ring

/-- C96: two responses are not enough: with different binding factors, every share is possible, each with exactly one pair of nonces. -/
theorem C96_two_hide (ρ w z : Fin 2 → Scalar) (hρ : ρ 0 ≠ ρ 1) (share : Scalar) : ∃! de : Scalar × Scalar, ∀ k, z k = de.1 + ρ k * de.2 + w k * share := by
  have h : ρ 1 - ρ 0 ≠ 0 := sub_ne_zero.mpr hρ.symm
  let e := ((z 1 - w 1 * share) - (z 0 - w 0 * share)) / (ρ 1 - ρ 0)
  have he : e * (ρ 1 - ρ 0) = (z 1 - w 1 * share) - (z 0 - w 0 * share) := div_mul_cancel₀ _ h
  refine ⟨(z 0 - w 0 * share - ρ 0 * e, e), ?_, ?_⟩
  · intro k
    fin_cases k
    · simp
    · simp
      linear_combination -he
  · rintro ⟨d', e'⟩ hde
    have h0 := hde 0
    have h1 := hde 1
    simp only at h0 h1
    have : e' = e := by
      apply mul_right_cancel₀ h
      rw [he]
      linear_combination h0 - h1
    subst this
    ext
    · simp only; linear_combination -h0
    · rfl

/-! ### How likely this is with a good source -/

theorem descFactorial_ratio (n : Nat) : (1 : ℝ) - n * (n - 1) / 2 / q ≤ (q.descFactorial n : ℝ) / q ^ n ∧ (q.descFactorial n : ℝ) / q ^ n ≤ 1 := by
  have hq : (0 : ℝ) < q := by exact_mod_cast (by decide +kernel : 0 < q)
  refine ⟨?_, ?_⟩
  swap
  · rw [div_le_one (by positivity)]
    exact_mod_cast Nat.descFactorial_le_pow q n
  induction n with
  | zero => simp
  | succ n ih =>
    have h1 : (q.descFactorial n : ℝ) / q ^ n ≤ 1 := by
      rw [div_le_one (by positivity)]
      exact_mod_cast Nat.descFactorial_le_pow q n
    have h2 : ((q - n : ℕ) : ℝ) ≥ q - n := by
      rw [ge_iff_le, sub_le_iff_le_add]
      exact_mod_cast Nat.sub_le_iff_le_add.mp (le_refl (q - n))
    have h3 : (0 : ℝ) ≤ (q.descFactorial n : ℝ) / q ^ n := by positivity
    rw [Nat.descFactorial_succ, pow_succ]
    push_cast
    have h4 : (((q - n : ℕ) : ℝ) * (q.descFactorial n : ℝ)) / (q ^ n * q) = ((q - n : ℕ) : ℝ) / q * ((q.descFactorial n : ℝ) / q ^ n) := by field_simp
    rw [h4]
    have h5 : 1 - (n : ℝ) / q ≤ ((q - n : ℕ) : ℝ) / q := by
      rw [le_div_iff₀ hq, sub_mul, one_mul, div_mul_cancel₀ _ hq.ne']
      exact h2
    have h6 : (1 - (n : ℝ) / q) * ((q.descFactorial n : ℝ) / q ^ n) ≤ ((q - n : ℕ) : ℝ) / q * ((q.descFactorial n : ℝ) / q ^ n) := mul_le_mul_of_nonneg_right h5 h3
    have h7 : (n : ℝ) / q * ((q.descFactorial n : ℝ) / q ^ n) ≤ n / q := mul_le_of_le_one_right (by positivity) h1
    have h8 : (((n : ℝ) + 1) * ((n : ℝ) + 1 - 1)) / 2 / q = n * (n - 1) / 2 / q + n / q := by field_simp; ring
    rw [h8]
    nlinarith

/-- C96: with a uniform source, `n` scalars, say both nonces of `n / 2` sessions, are all different except with a probability of about `n² / 2^253`. -/
theorem C96_repeat_unlikely {ι : Type} [Fintype ι] :
    1 - (Fintype.card ι * (Fintype.card ι - 1) / 2 / 2 ^ 252 + Fintype.card ι / 2 ^ 259 : ℝ) ≤
      Spec.prob fun β : ι → Spec.Block => Function.Injective fun i => Spec.scalarOf (β i) := by
  classical
  have h1 := abs_le.mp (C92_transfer (ι := ι) fun f => Function.Injective f)
  have hq : (2 : ℝ) ^ 252 ≤ q := by exact_mod_cast (by decide +kernel : 2 ^ 252 ≤ q)
  have h2 : Spec.prob (fun f : ι → Scalar => Function.Injective f) = (q.descFactorial (Fintype.card ι) : ℝ) / q ^ Fintype.card ι := by
    unfold Spec.prob
    rw [Nat.card_congr (Equiv.subtypeInjectiveEquivEmbedding ι Scalar), Nat.card_eq_fintype_card, Fintype.card_embedding_eq, Nat.card_fun, Nat.card_zmod, ZMod.card,
      Nat.card_eq_fintype_card]
    push_cast
    rfl
  have h3 := (descFactorial_ratio (Fintype.card ι)).1
  have h4 : (Fintype.card ι * (Fintype.card ι - 1) / 2 / q : ℝ) ≤ Fintype.card ι * (Fintype.card ι - 1) / 2 / 2 ^ 252 := by
    have : (0 : ℝ) ≤ Fintype.card ι * (Fintype.card ι - 1) / 2 := by
      rcases Nat.eq_zero_or_pos (Fintype.card ι) with h | h
      · rw [h]; simp
      · have : (1 : ℝ) ≤ Fintype.card ι := by exact_mod_cast h
        have : (0 : ℝ) ≤ Fintype.card ι - 1 := by linarith
        positivity
    gcongr
  linarith [h1.1]

end Verif.Props
