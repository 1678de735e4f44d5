import Verif.Spec.SignView
import Verif.Props.SignBlame
import Verif.Props.SignBind
import Verif.Props.Demo

/-!
C90: the messages of a signing session can be made up from public data, given the choice of two hash values.
-/

namespace Verif.Props

open State Sign

variable {G : Type} [RGroup G] {sha : Sha512}

/-- The places where the hash function is changed are not looked at otherwise: the message is not the input of the binding factor, and the
input of the challenge is not that of a binding factor. -/
def Spec.Unused (sha : Sha512) (ids : List ID) (message : Bytes) (A : G) (i : ID) (D E : ID → G) (a : Bytes) (ha : a.length = 64) : Prop :=
  message ≠ Spec.bindingInput sha i message (Spec.commitmentList ids D E) ∧
  ∀ j ∈ ids, Spec.challengeInput (Spec.groupNonce (Spec.programmed₁ sha ids message i D E a ha) ids message D E) A message ≠
    Spec.bindingInput sha j message (Spec.commitmentList ids D E)

section

variable {ids : List ID} {message : Bytes} {A : G} {i : ID} {D E : ID → G} {a b : Bytes} {ha : a.length = 64} {hb : b.length = 64}

theorem challengeInput_ne (R A : G) (message : Bytes) : message ≠ Spec.challengeInput R A message := by
  intro h
  have h := congrArg List.length h
  have hl : (RGroup.bytesEd25519 R).length = 32 := RGroup.bytesEd25519_length R
  rw [Spec.challengeInput, List.length_append, List.length_append, hl] at h
  omega

theorem programmed_message (hf : Spec.Unused sha ids message A i D E a ha) :
    (Spec.programmed₁ sha ids message i D E a ha).sum message = sha.sum message ∧
    (Spec.programmed sha ids message A i D E a b ha hb).sum message = sha.sum message := by
  have h1 : (Spec.programmed₁ sha ids message i D E a ha).sum message = sha.sum message := if_neg hf.1
  exact ⟨h1, (if_neg (challengeInput_ne _ _ _)).trans h1⟩

theorem bindingInput_congr {sha' : Sha512} (h : sha'.sum message = sha.sum message) (j : ID) (B : Bytes) :
    Spec.bindingInput sha' j message B = Spec.bindingInput sha j message B := by
  unfold Spec.bindingInput
  rw [h]

theorem programmed_rho (hf : Spec.Unused sha ids message A i D E a ha) {j : ID} (hj : j ∈ ids) :
    Spec.rho (Spec.programmed sha ids message A i D E a b ha hb) ids message D E j =
      Spec.rho (Spec.programmed₁ sha ids message i D E a ha) ids message D E j := by
  obtain ⟨h1, h2⟩ := programmed_message (b := b) (hb := hb) hf
  unfold Spec.rho Spec.bindingFactor
  rw [bindingInput_congr h2, bindingInput_congr h1]
  congr 2
  exact if_neg (hf.2 j hj).symm

/-- C90: the binding factors and the challenge are as chosen, and the other binding factors are not changed. -/
theorem C90_programmed (hi : i ∈ ids) (hf : Spec.Unused sha ids message A i D E a ha) :
    Spec.rho (Spec.programmed sha ids message A i D E a b ha hb) ids message D E i = (Spec.leValue a : Scalar) ∧
    (∀ j ∈ ids, j ≠ i → Spec.rho (Spec.programmed sha ids message A i D E a b ha hb) ids message D E j = Spec.rho sha ids message D E j) ∧
    Spec.chal (Spec.programmed sha ids message A i D E a b ha hb) ids message A D E = (Spec.leValue b : Scalar) := by
  obtain ⟨h1, h2⟩ := programmed_message (b := b) (hb := hb) hf
  refine ⟨?_, fun j hj hne => ?_, ?_⟩
  · rw [programmed_rho hf hi]
    unfold Spec.rho Spec.bindingFactor
    rw [bindingInput_congr h1]
    congr 2
    exact if_pos rfl
  · rw [programmed_rho hf hj]
    unfold Spec.rho Spec.bindingFactor
    rw [bindingInput_congr h1]
    congr 2
    exact if_neg fun h => hne (C48_binding_input_injective sha j i message message ids ids D E D E h).1
  · unfold Spec.chal Spec.challenge
    have : Spec.groupNonce (Spec.programmed sha ids message A i D E a b ha hb) ids message D E =
        Spec.groupNonce (Spec.programmed₁ sha ids message i D E a ha) ids message D E := by
      unfold Spec.groupNonce
      congr 1
      apply List.map_congr_left
      intro j hj
      unfold Spec.nonce
      rw [programmed_rho hf hj]
    rw [this]
    congr 2
    exact if_pos rfl

end

/-- C90: whatever the others send and whatever the schedule, a session of a signer with the hash function of `simulate` sends the messages
of `simulate`, or fewer: with the nonces `z - ρ e - c λ x` and `e`, if the commitments it accepts are those the others answer with.  All
of `simulate` is public; the secret share `x` is in the first nonce only. -/
theorem C90_simulation (ids : IDSlice) (hnd : ids.Nodup) (message : Bytes) (secret : SecretShare G) (shares : Public G)
    (hX : shares.shares.get? secret.id = some (secret.secret • base)) (others : G → G → ID → G × G) (z e : Scalar) (a b : Bytes) (ha : a.length = 64)
    (hb : b.length = 64) (S : Spec.Simulated G)
    (hS : S = Spec.simulate sha ids message shares.groupKey secret.id (Spec.weightedShare shares ids secret.id) others z e a b ha hb)
    (hf : Spec.Unused sha ids message shares.groupKey secret.id S.D S.E a ha) (timeout now : Nat) (s₀ s : State G (Sign.Round G))
    (h₀ : newSignState S.sha ids secret shares message timeout now = .ok s₀) (h : List (Op G × Ret G)) (hh : Hist (Sign.impl S.sha) s₀ h s)
    (hcoins : ∀ ord c r, (Op.processAll ord c, r) ∈ h →
      c 0 = z - (Spec.leValue a : Scalar) * e - (Spec.leValue b : Scalar) * (Spec.weight secret.id ids * secret.secret) ∧ c 1 = e)
    (hothers : ∀ j ∈ ids, j ≠ secret.id → ∀ D E, Spec.GotNonces secret.id ids h j D E → D = S.D j ∧ E = S.E j) :
    Spec.emitted h <+: [Message.newSign1 secret.id (S.D secret.id) (S.E secret.id), Message.newSign2 secret.id z] := by
  obtain ⟨hi, _, _⟩ := C42_accepted secret shares ids message timeout now s₀ h₀
  obtain ⟨r₀, hs, rfl⟩ := sign_start_of_new h₀ hnd
  have hD : S.D secret.id = Spec.simulatedD (Spec.weightedShare shares ids secret.id) z e a b := by
    rw [hS]; simp [Spec.simulate, Spec.simulatedAll]
  have hE : S.E secret.id = e • base := by
    rw [hS]; simp [Spec.simulate, Spec.simulatedAll]
  have hY : Spec.weightedShare shares ids secret.id = (Spec.weight secret.id ids * secret.secret) • (base : G) := by
    rw [Spec.weightedShare, hX, mul_smul]; rfl
  have hown : ∀ c : Coins, c 0 = z - (Spec.leValue a : Scalar) * e - (Spec.leValue b : Scalar) * (Spec.weight secret.id ids * secret.secret) →
      c 0 • (base : G) = S.D secret.id := by
    intro c hc
    rw [hc, hD, hY, Spec.simulatedD, sub_smul, sub_smul, mul_smul, mul_smul]
  obtain ⟨n, h1, _⟩ := sent secret shares ids message timeout now r₀ hs hh
  match n, h1 with
  | 0, h1 =>
    rw [show Spec.emitted h = [] from h1]
    exact List.nil_prefix
  | 1, ⟨D, E, h1, ord, c, r, h2, h3, h4⟩ =>
    obtain ⟨g1, g2⟩ := hcoins ord c r h2
    rw [h1, h3, h4, hown c g1, g2, ← hE]
    exact ⟨_, rfl⟩
  | 2, ⟨D, E, z', h1, hcom, h3⟩ =>
    have hag : ∀ j ∈ ids, D j = S.D j ∧ E j = S.E j := by
      intro j hj
      by_cases hji : j = secret.id
      · obtain ⟨⟨ord, c, k1, k2, k3⟩, _⟩ := hcom
        obtain ⟨g1, g2⟩ := hcoins ord c _ k3
        rw [hji, k1, k2, hown c g1, g2, hE]
        exact ⟨rfl, rfl⟩
      · exact hothers j hj hji _ _ (hcom.2 j hj hji)
    obtain ⟨q1, _, q3⟩ := C90_programmed (b := b) (hb := hb) hi hf
    have hsha : S.sha = Spec.programmed sha ids message shares.groupKey secret.id S.D S.E a b ha hb := by rw [hS]; rfl
    rw [← hsha] at q1 q3
    have hB : Spec.commitmentList ids D E = Spec.commitmentList ids S.D S.E := nonce_congr (message := message) hag
    have hrho : ∀ j, Spec.rho S.sha ids message D E j = Spec.rho S.sha ids message S.D S.E j := by
      intro j; unfold Spec.rho; rw [hB]
    have hchal : Spec.chal S.sha ids message shares.groupKey D E = Spec.chal S.sha ids message shares.groupKey S.D S.E := by
      unfold Spec.chal Spec.groupNonce
      congr 2
      apply List.map_congr_left
      intro j hj
      unfold Spec.nonce
      rw [hrho, (hag j hj).1, (hag j hj).2]
    rw [Spec.nonce, hrho, hchal, q1, q3, (hag _ hi).1, (hag _ hi).2, hD, hE, hY, Spec.simulatedD, mul_smul] at h3
    have hz : z' = z := by
      apply smul_base_injective (G := G)
      rw [h3]
      abel
    rw [h1, hz, (hag _ hi).1, (hag _ hi).2]

/-- C90: for any hash values and any second nonce, each signature share belongs to exactly one first nonce, and so is uniform if the
first nonce is; the same for the commitment of the simulation, whatever the secret share. -/
theorem C90_uniform (x e : Scalar) (a b : Bytes) :
    Function.Bijective fun z : Scalar => z - (Spec.leValue a : Scalar) * e - (Spec.leValue b : Scalar) * x := by
  constructor
  · intro z z' h
    simpa using h
  · intro d
    exact ⟨d + (Spec.leValue b : Scalar) * x + (Spec.leValue a : Scalar) * e, by simp⟩

namespace Demo

theorem run_ops {R : Type} {impl : RoundImpl G R} {s t : State G R} {ops : List (Op G)} {h : List (Op G × Ret G)} (hr : run impl s ops = some (h, t)) :
    h.map Prod.fst = ops := by
  induction ops generalizing s h with
  | nil => cases hr; rfl
  | cons op ops ih =>
    unfold run at hr
    split at hr
    · cases hr
    · split at hr
      · cases hr
      · rename_i h' t' hr'
        cases hr
        rw [List.map_cons, ih hr']

/-- Two hash values. -/
def digestA : Bytes := 7 :: List.replicate 63 0

/-- Two hash values. -/
def digestB : Bytes := 9 :: List.replicate 63 0

/-- Party 1 of the signers 1 and 3 says a made-up share 100; party 3 answers with commitments that depend on those of party 1. -/
def simulated : Spec.Simulated Toy :=
  Spec.simulate toySha [1, 3] [1, 2, 3] (Toy.of 21) 1 (Spec.weightedShare key [1, 3] 1) (fun D E _ => (D + Toy.of 11, E + Toy.of 12)) 100 14 digestA digestB
    (by decide) (by decide)

/-- The nonce of the real session. -/
def realNonce : Scalar := 100 - (Spec.leValue digestA : Scalar) * 14 - (Spec.leValue digestB : Scalar) * (Spec.weight 1 [1, 3] * 45)

/-- The real session. -/
def simulatedOps : List (Op Toy) := [.processAll .insertion (coins [realNonce, 14]), .handle (Message.newSign1 3 (simulated.D 3) (simulated.E 3)),
  .processAll .reversed (coins [realNonce, 14])]

/-- The hypotheses of `C90_simulation` are met by a session that sends both messages. -/
example : Spec.Unused toySha [1, 3] [1, 2, 3] key.groupKey 1 simulated.D simulated.E digestA (by decide) ∧
    ∃ s₀ h s, newSignState simulated.sha [1, 3] ⟨1, 45, Toy.of 45⟩ key [1, 2, 3] 10 0 = .ok s₀ ∧ Hist (Sign.impl simulated.sha) s₀ h s ∧
      (∀ ord c r, (Op.processAll ord c, r) ∈ h → c 0 = realNonce ∧ c 1 = 14) ∧
      (∀ j ∈ ([1, 3] : List ID), j ≠ 1 → ∀ D E, Spec.GotNonces 1 [1, 3] h j D E → D = simulated.D j ∧ E = simulated.E j) ∧
      Spec.emitted h = [Message.newSign1 1 (simulated.D 1) (simulated.E 1), Message.newSign2 1 100] := by
  refine ⟨by unfold Spec.Unused; decide +kernel, ?_⟩
  obtain ⟨r, h1, h2⟩ := signRound_ok
  have hrun : (signRound0.bind fun r => (run (Sign.impl simulated.sha) (newBaseState (Sign.impl simulated.sha) r 10 0) simulatedOps).map fun x =>
      decide (Spec.emitted x.1 = [Message.newSign1 1 (simulated.D 1) (simulated.E 1), Message.newSign2 1 100])) = some true := by decide +kernel
  rw [h2] at hrun
  simp only [Option.bind_some] at hrun
  obtain ⟨⟨h, s⟩, hx, he⟩ := Option.map_eq_some_iff.mp hrun
  have hops := run_ops hx
  refine ⟨_, h, s, newSignState_ok.mpr ⟨r, h1, rfl⟩, run_hist hx, ?_, ?_, by simpa using he⟩
  · intro ord c r hm
    have := List.mem_map_of_mem (f := Prod.fst) hm
    rw [hops] at this
    simp only [simulatedOps, List.mem_cons, Op.processAll.injEq, List.not_mem_nil, or_false, reduceCtorEq, false_or] at this
    rcases this with ⟨_, rfl⟩ | ⟨_, rfl⟩ <;> exact ⟨rfl, rfl⟩
  · rintro j - - D E ⟨m, k, hm, _, rfl, _, hk, rfl, rfl, _⟩
    have := List.mem_map_of_mem (f := Prod.fst) hm
    rw [hops] at this
    simp only [simulatedOps, List.mem_cons, Op.handle.injEq, List.not_mem_nil, or_false, reduceCtorEq, false_or] at this
    subst this
    cases hk
    exact ⟨rfl, rfl⟩

end Demo

end Verif.Props
