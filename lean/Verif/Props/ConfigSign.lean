import Verif.Props.SignAgree
import Verif.Props.Config
import Verif.Props.Domain
import Verif.Props.Random

/-!
C123: signers that were started with different messages, lists of signers or public keys.
-/

namespace Verif.Props

open Verif State Sign Outcome

variable {G : Type} [RGroup G] {sha : Sha512}

/-- The commitments that `b` took from `a` are those that `a` drew, if nobody alters messages. -/
theorem own_commitments {a b : SecretShare G} {pa : Public G} {idsa idsb : IDSlice} {ma : Bytes} {ta na : Nat} {sa sa' : State G (Sign.Round G)}
    (hsa : newSignState sha idsa a pa ma ta na = .ok sa) (hnda : idsa.Nodup) {ha hb : List (Op G × Ret G)} (hha : Hist (Sign.impl sha) sa ha sa')
    (hmem : a.id ∈ idsb) (hne : a.id ≠ b.id) (hauth : Spec.Authentic a.id hb ha) {D E D' E' : ID → G} (hc : Spec.Commitments a.id idsa ha D E)
    (hc' : Spec.Commitments b.id idsb hb D' E') : D a.id = D' a.id ∧ E a.id = E' a.id := by
  obtain ⟨m, k, g1, _, g3, _, g5, g6, g7, _⟩ := hc'.2 a.id hmem hne
  have hm := hauth m g1 g3
  obtain ⟨ord, coins, _, _, h3⟩ := hc.1
  have hown : Message.newSign1 a.id (D a.id) (E a.id) ∈ Spec.emitted ha := by
    unfold Spec.emitted
    rw [List.mem_flatMap]
    exact ⟨_, h3, by simp⟩
  have uniq : ∀ D₀ E₀, Message.newSign1 a.id D₀ E₀ ∈ Spec.emitted ha → m = Message.newSign1 a.id D₀ E₀ := by
    intro D₀ E₀ h0
    rcases C47_at_most_one_share a pa idsa ma ta na sa hsa hnda hha with h | ⟨D₁, E₁, h⟩ | ⟨D₁, E₁, z, h⟩
    · rw [h] at hm
      exact absurd hm List.not_mem_nil
    · rw [h, List.mem_singleton] at hm h0
      rw [hm, h0]
    · rw [h] at hm h0
      simp only [List.mem_cons, List.not_mem_nil, or_false] at hm h0
      rcases hm with hm | hm
      · rcases h0 with h0 | h0
        · rw [hm, h0]
        · exact absurd (congrArg (fun x => x.sign1) h0) (by simp [Message.newSign1, Message.newSign2])
      · rw [hm] at g5
        cases g5
  have := uniq _ _ hown
  rw [this] at g5
  cases g5
  exact ⟨g6, g7⟩

/-- The share that a session sends, whether or not its secret share matches its public share. -/
theorem sent_share {secret : SecretShare G} {shares : Public G} {ids : IDSlice} {message : Bytes} {timeout now : Nat}
    {s₀ s : State G (Sign.Round G)} (h₀ : newSignState sha ids secret shares message timeout now = .ok s₀) (hnd : ids.Nodup)
    {h : List (Op G × Ret G)} (hh : Hist (Sign.impl sha) s₀ h s) {m : Message G} {z : Sign2} (hm : m ∈ Spec.emitted h) (hz : m.sign2 = some z) :
    m = Message.newSign2 secret.id z.Zi ∧ ∃ D E, Spec.Commitments secret.id ids h D E ∧ z.Zi • (base : G) =
      Spec.nonce sha ids message D E secret.id + Spec.chal sha ids message shares.groupKey D E • (Spec.weight secret.id ids • secret.secret • (base : G)) := by
  obtain ⟨r₀, hs, rfl⟩ := sign_start_of_new h₀ hnd
  obtain ⟨n, h1, _⟩ := sent secret shares ids message timeout now r₀ hs hh
  match n, h1 with
  | 0, h1 =>
    rw [show Spec.emitted h = [] from h1] at hm
    cases hm
  | 1, ⟨D, E, h1, _⟩ =>
    rw [h1] at hm
    rw [List.mem_singleton] at hm
    rw [hm] at hz
    cases hz
  | 2, ⟨D, E, z', h1, h2, h3⟩ =>
    rw [h1] at hm
    simp only [List.mem_cons, List.not_mem_nil, or_false] at hm
    rcases hm with rfl | rfl
    · cases hz
    · cases hz
      exact ⟨rfl, D, E, h2, h3⟩

/-- When a signer `b` accepts the share of an honest signer `a` that was given another message, list of signers or key: exactly if the
two sides, with the binding factor, challenge, weight and secret as `a` has them and as `b` has them (`y` is the logarithm of the public share that
`b` has for `a`), happen to be equal.  Otherwise `b` blames `a`. -/
theorem C123_accepted_iff {a b : SecretShare G} {pa pb : Public G} {idsa idsb : IDSlice} {ma mb : Bytes} {ta na tb nb : Nat}
    {sa sb sa' sb' : State G (Sign.Round G)} (hsa : newSignState sha idsa a pa ma ta na = .ok sa) (hsb : newSignState sha idsb b pb mb tb nb = .ok sb)
    (hnda : idsa.Nodup) (hndb : idsb.Nodup) (y : Scalar)
    (hY : pb.shares.get? a.id = some (y • base)) {ha hb : List (Op G × Ret G)} (hha : Hist (Sign.impl sha) sa ha sa')
    (hhb : Hist (Sign.impl sha) sb hb sb') (hmem : a.id ∈ idsb) (hne : a.id ≠ b.id) (hauth : Spec.Authentic a.id hb ha)
    (m : Message G) (z : Sign2) (hm : m ∈ Spec.emitted ha) (hz : m.sign2 = some z) (hd : sb'.done = false) (hn : sb'.roundNumber = 2) :
    ∃ D E D' E' e, Spec.Commitments a.id idsa ha D E ∧ Spec.Commitments b.id idsb hb D' E' ∧ E a.id = e • (base : G) ∧
      ∀ (msgs : List (Option (Message G))) (r : Sign.Round G), Spec.Fed (Sign.impl sha).processMessage sb'.round msgs r →
        let ok := Spec.rho sha idsa ma D E a.id * e + Spec.chal sha idsa ma pa.groupKey D E * (Spec.weight a.id idsa * a.secret) =
          Spec.rho sha idsb mb D' E' a.id * e + Spec.chal sha idsb mb pb.groupKey D' E' * (Spec.weight a.id idsb * y)
        (ok → ∃ r', (Sign.impl sha).processMessage r (some m) = .ok r') ∧
        (¬ ok → ∃ er, (Sign.impl sha).processMessage r (some m) = .err (er, r) ∧ er.partyID = a.id) := by
  obtain ⟨hmeq, D, E, h1, h2⟩ := sent_share hsa hnda hha hm hz
  obtain ⟨D', E', h3, h4⟩ := C45_share_accepted_iff b pb idsb mb tb nb sb hsb hndb hhb hd hn
  have hfrom : m.header.fromID = a.id := by rw [hmeq]; rfl
  obtain ⟨hDD, hEE⟩ := own_commitments hsa hnda hha hmem hne hauth h1 h3
  obtain ⟨ord, coins, hD, hE, _⟩ := h1.1
  refine ⟨D, E, D', E', coins 1, h1, h3, hE, ?_⟩
  intro msgs r hfed ok
  have h5 := h4 msgs r hfed m z (by rw [hfrom]; exact hmem) hz
  rw [hfrom] at h5
  have hiff : (z.Zi • (base : G) = Spec.nonce sha idsb mb D' E' a.id +
      Spec.chal sha idsb mb pb.groupKey D' E' • Spec.weightedShare pb idsb a.id) ↔ ok := by
    rw [h2]
    simp only [Spec.nonce, Spec.weightedShare, hY, Option.getD_some, ← hDD, ← hEE, hD, hE, smul_smul, ← add_smul]
    constructor
    · intro h
      have := smul_base_injective (G := G) h
      simp only [ok]
      linear_combination this
    · intro h
      congr 1
      simp only [ok] at h
      linear_combination h
  simp only [hiff] at h5
  exact h5

/-- A signer `b` that finishes without error was not misled about what honest signers signed, but for a coincidence of hash values: every
honest signer `a` of its list has sent a share, and the equation of `C123_accepted_iff` holds. -/
theorem C123_success {a b : SecretShare G} {pa pb : Public G} {idsa idsb : IDSlice} {ma mb : Bytes} {ta na tb nb : Nat}
    {sa sb sa' sb' : State G (Sign.Round G)} (hsa : newSignState sha idsa a pa ma ta na = .ok sa) (hsb : newSignState sha idsb b pb mb tb nb = .ok sb)
    (hnda : idsa.Nodup) (hndb : idsb.Nodup) (y : Scalar)
    (hY : pb.shares.get? a.id = some (y • base)) {ha hb : List (Op G × Ret G)} (hha : Hist (Sign.impl sha) sa ha sa')
    (hhb : Hist (Sign.impl sha) sb hb sb') (hmem : a.id ∈ idsb) (hne : a.id ≠ b.id) (hauth : Spec.Authentic a.id hb ha)
    (hok : sb'.done = true ∧ sb'.err = none) :
    (∃ z, Message.newSign2 a.id z ∈ Spec.emitted ha) ∧
    ∃ D E D' E' e, Spec.Commitments a.id idsa ha D E ∧ Spec.Commitments b.id idsb hb D' E' ∧ E a.id = e • (base : G) ∧
      Spec.rho sha idsa ma D E a.id * e + Spec.chal sha idsa ma pa.groupKey D E * (Spec.weight a.id idsa * a.secret) =
        Spec.rho sha idsb mb D' E' a.id * e + Spec.chal sha idsb mb pb.groupKey D' E' * (Spec.weight a.id idsb * y) := by
  obtain ⟨rb, hstb, rfl⟩ := sign_start_of_new hsb hndb
  obtain ⟨D', E', z, h3, h4, _⟩ := sign_finished_spec hstb ((Sign.running hstb hhb).2 hok.1 hok.2)
  obtain ⟨⟨m, k, g1, _, g3, _, g5, g6⟩, h5⟩ := h4 a.id hmem hne
  have hm := hauth m g1 g3
  obtain ⟨hmeq, D, E, h1, h2⟩ := sent_share hsa hnda hha hm g5
  obtain ⟨hDD, hEE⟩ := own_commitments hsa hnda hha hmem hne hauth h1 h3
  obtain ⟨ord, coins, hD, hE, _⟩ := h1.1
  refine ⟨⟨k.Zi, hmeq ▸ hm⟩, D, E, D', E', coins 1, h1, h3, hE, ?_⟩
  rw [g6] at h2
  rw [h2] at h5
  simp only [Spec.nonce, Spec.weightedShare, hY, Option.getD_some, ← hDD, ← hEE, hD, hE, smul_smul, ← add_smul] at h5
  have := smul_base_injective (G := G) h5
  linear_combination this

/-- How rare the coincidence is for different messages: of the `2^512` values that the hash function can have where signer `b` computes its challenge,
all others fixed, at most `2^512 / q + 1` make the two sides of the equation equal.  The hypotheses `hma`, `hAa` and `hAb` say that this place is
not used for anything else (C98); `w'` is not 0 unless the share of `a` is. -/
theorem C123_chance (sha : Sha512) (idsa idsb : List ID) (ma mb : Bytes) (Aa Ab : G) (D E D' E' : ID → G) (i : ID) (e w w' : Scalar) (hw' : w' ≠ 0)
    (hdiff : ma ≠ mb) (hma : ma ≠ Spec.challengeInput (Spec.groupNonce sha idsb mb D' E') Ab mb)
    (hAa : RGroup.bytesEd25519 Ab ≠ ((sha.sum ma).drop 18).take 32) (hAb : RGroup.bytesEd25519 Ab ≠ ((sha.sum mb).drop 18).take 32) :
    let sha' := fun b : Spec.Block => Spec.program sha (Spec.challengeInput (Spec.groupNonce sha idsb mb D' E') Ab mb) b.1 b.2
    Nat.card {b : Spec.Block // Spec.rho (sha' b) idsa ma D E i * e + Spec.chal (sha' b) idsa ma Aa D E * w =
      Spec.rho (sha' b) idsb mb D' E' i * e + Spec.chal (sha' b) idsb mb Ab D' E' * w'} ≤ 2 ^ 512 / q + 1 := by
  intro sha'
  have hsum : ∀ (b : Spec.Block) x, x ≠ Spec.challengeInput (Spec.groupNonce sha idsb mb D' E') Ab mb → (sha' b).sum x = sha.sum x :=
    fun b x hx => if_neg hx
  have hmb : mb ≠ Spec.challengeInput (Spec.groupNonce sha idsb mb D' E') Ab mb := by
    intro h
    have := congrArg List.length h
    simp only [Spec.challengeInput, List.length_append, RGroup.bytesEd25519_length] at this
    omega
  have hrho : ∀ (b : Spec.Block) (ids : List ID) (m : Bytes) (C C' : ID → G) (j : ID), m ≠ Spec.challengeInput (Spec.groupNonce sha idsb mb D' E') Ab mb →
      RGroup.bytesEd25519 Ab ≠ ((sha.sum m).drop 18).take 32 → Spec.rho (sha' b) ids m C C' j = Spec.rho sha ids m C C' j := by
    intro b ids m C C' j hm hA
    unfold Spec.rho Spec.bindingFactor
    have : Spec.bindingInput (sha' b) j m (Spec.commitmentList ids C C') = Spec.bindingInput sha j m (Spec.commitmentList ids C C') := by
      unfold Spec.bindingInput
      rw [hsum b m hm]
    rw [this, hsum b _ (C98_separated sha m Ab hA j _ _ _)]
  have hR : ∀ (b : Spec.Block) (ids : List ID) (m : Bytes) (C C' : ID → G), m ≠ Spec.challengeInput (Spec.groupNonce sha idsb mb D' E') Ab mb →
      RGroup.bytesEd25519 Ab ≠ ((sha.sum m).drop 18).take 32 → Spec.groupNonce (sha' b) ids m C C' = Spec.groupNonce sha ids m C C' := by
    intro b ids m C C' hm hA
    unfold Spec.groupNonce Spec.nonce
    congr 1
    apply List.map_congr_left
    intro j _
    rw [hrho b ids m C C' j hm hA]
  have hca : ∀ b : Spec.Block, Spec.chal (sha' b) idsa ma Aa D E = Spec.chal sha idsa ma Aa D E := by
    intro b
    unfold Spec.chal
    rw [hR b idsa ma D E hma hAa]
    unfold Spec.challenge
    rw [hsum b _ ?_]
    intro h
    rw [Spec.challengeInput] at h
    exact hdiff (List.append_inj' h (by
      have := congrArg List.length h
      simp only [List.length_append, RGroup.bytesEd25519_length] at this
      omega)).2
  have hcb : ∀ b : Spec.Block, Spec.chal (sha' b) idsb mb Ab D' E' = Spec.scalarOf b := by
    intro b
    unfold Spec.chal
    rw [hR b idsb mb D' E' hmb hAb]
    unfold Spec.challenge Spec.scalarOf
    have : (sha' b).sum (RGroup.bytesEd25519 (Spec.groupNonce sha idsb mb D' E') ++ RGroup.bytesEd25519 Ab ++ mb) = b.1 := if_pos rfl
    rw [this]
  have key : ∀ b : Spec.Block, (Spec.rho (sha' b) idsa ma D E i * e + Spec.chal (sha' b) idsa ma Aa D E * w =
      Spec.rho (sha' b) idsb mb D' E' i * e + Spec.chal (sha' b) idsb mb Ab D' E' * w') ↔
      Spec.scalarOf b = (Spec.rho sha idsa ma D E i * e + Spec.chal sha idsa ma Aa D E * w - Spec.rho sha idsb mb D' E' i * e) / w' := by
    intro b
    rw [hrho b idsa ma D E i hma hAa, hrho b idsb mb D' E' i hmb hAb, hca, hcb, eq_div_iff hw']
    constructor <;> intro h <;> linear_combination -h
  rw [Nat.card_congr (Equiv.subtypeEquivRight key), C92_count]
  split <;> omega

namespace Demo

/-- The first round of signing `message` by parties 1 and 2, for party `i`. -/
def pround (i : ID) (message : Bytes) : Option (Sign.Round Toy) := match Sign.newRound [1, 2] (skey i) key message with
  | .ok r => some r
  | _ => none

/-- A signing session of party `i` with parties 1 and 2. -/
theorem sign2_of_run (sha : Sha512) (i : ID) (message : Bytes) (ops : List (Op Toy)) (p : List (Op Toy × Ret Toy) → State Toy (Sign.Round Toy) → Bool)
    (h : ((pround i message).bind fun r => (run (Sign.impl sha) (newBaseState (Sign.impl sha) r 10 0) ops).map fun x => p x.1 x.2) = some true) :
    ∃ s₀ h s, Sign.newSignState sha [1, 2] (skey i) key message 10 0 = .ok s₀ ∧ Hist (Sign.impl sha) s₀ h s ∧ p h s = true := by
  unfold pround at h
  split at h
  · rename_i r hr
    obtain ⟨hh, s, h3, h4⟩ := of_run h
    exact ⟨_, hh, s, newSignState_ok.mpr ⟨r, hr, rfl⟩, h3, h4⟩
  · cases h

/-- Whether all messages accepted from `b` are in the list. -/
def takenIn (b : ID) (l : List (Message Toy)) (h : List (Op Toy × Ret Toy)) : Bool := h.all fun x => match x with
  | (.handle m, .handled none) => decide (m.header.fromID = b → m ∈ l)
  | _ => true

theorem authentic_of {b : ID} {ha hb : List (Op Toy × Ret Toy)} (h : takenIn b (Spec.emitted hb) ha = true) : Spec.Authentic b ha hb := by
  intro m hm
  have := List.all_eq_true.mp h _ hm
  exact of_decide_eq_true this

end Demo

open Demo in
/-- C123, refuted: party 1 is asked to sign 1, 2, 3 and party 2 to sign 9.  Both are honest and get each other's messages as sent; each of them
ends with an error that blames the other. -/
theorem C123_blamed_refuted : ∃ s₁ h₁ t₁ s₂ h₂ t₂, Sign.newSignState sumSha [1, 2] (skey 1) key [1, 2, 3] 10 0 = .ok s₁ ∧
    Sign.newSignState sumSha [1, 2] (skey 2) key [9] 10 0 = .ok s₂ ∧ Hist (Sign.impl sumSha) s₁ h₁ t₁ ∧ Hist (Sign.impl sumSha) s₂ h₂ t₂ ∧
    Spec.Authentic 2 h₁ h₂ ∧ Spec.Authentic 1 h₂ h₁ ∧ t₁.done = true ∧ t₁.err = some ⟨2, 2, .badSigShare⟩ ∧ t₂.done = true ∧
    t₂.err = some ⟨1, 2, .badSigShare⟩ := by
  obtain ⟨s₁, h₁, t₁, a1, a2, a3⟩ := sign2_of_run sumSha 1 [1, 2, 3] [.processAll .insertion (coins [13, 14]),
    .handle (Message.newSign1 2 (Toy.of 15) (Toy.of 16)), .processAll .insertion (coins []), .handle (Message.newSign2 2 (-1117)),
    .processAll .insertion (coins [])]
    (fun h s => decide (s.done = true ∧ s.err = some ⟨2, 2, .badSigShare⟩ ∧
      Spec.emitted h = [Message.newSign1 1 (Toy.of 13) (Toy.of 14), Message.newSign2 1 20163] ∧
      takenIn 2 [Message.newSign1 2 (Toy.of 15) (Toy.of 16), Message.newSign2 2 (-1117)] h = true)) (by decide +kernel)
  obtain ⟨s₂, h₂, t₂, b1, b2, b3⟩ := sign2_of_run sumSha 2 [9] [.processAll .insertion (coins [15, 16]),
    .handle (Message.newSign1 1 (Toy.of 13) (Toy.of 14)), .processAll .insertion (coins []), .handle (Message.newSign2 1 20163),
    .processAll .insertion (coins [])]
    (fun h s => decide (s.done = true ∧ s.err = some ⟨1, 2, .badSigShare⟩ ∧
      Spec.emitted h = [Message.newSign1 2 (Toy.of 15) (Toy.of 16), Message.newSign2 2 (-1117)] ∧
      takenIn 1 [Message.newSign1 1 (Toy.of 13) (Toy.of 14), Message.newSign2 1 20163] h = true)) (by decide +kernel)
  simp only [decide_eq_true_eq] at a3 b3
  exact ⟨s₁, h₁, t₁, s₂, h₂, t₂, a1, b1, a2, b2, authentic_of (b3.2.2.1 ▸ a3.2.2.2), authentic_of (a3.2.2.1 ▸ b3.2.2.2), a3.1, a3.2.1, b3.1, b3.2.1⟩

end Verif.Props
