import Verif.Lemmas.SignInv
import Verif.Lemmas.StateFirst
import Verif.Props.Keygen

/-!
C30 (signing), C42, C44 to C47, C49, C33 and C66 (signing): signing sessions receiving arbitrary messages.  Concrete sessions are
in `Verif/Props/Demo.lean`.
-/

namespace Verif.Props

open Verif State Sign Outcome

variable {G : Type} [RGroup G] {sha : Sha512}

/-! ### C42 -/

theorem newSignState_ok {secret : SecretShare G} {shares : Public G} {ids : IDSlice} {message : Bytes} {timeout now : Nat}
    {s : State G (Sign.Round G)} : newSignState sha ids secret shares message timeout now = .ok s ↔
      ∃ r₀, Sign.newRound ids secret shares message = .ok r₀ ∧ s = newBaseState (Sign.impl sha) r₀ timeout now := by
  unfold newSignState
  simp only [bind_eq_ok, pure_def, Outcome.ok.injEq]
  constructor
  · rintro ⟨r, h1, rfl⟩; exact ⟨r, h1, rfl⟩
  · rintro ⟨r, h1, rfl⟩; exact ⟨r, h1, rfl⟩

/-- If `NewSignState` succeeds, the signers contain the owner of the secret share, are parties of the key with a public share, and
none of them has ID 0. -/
theorem C42_accepted (secret : SecretShare G) (shares : Public G) (ids : IDSlice) (message : Bytes) (timeout now : Nat)
    (s : State G (Sign.Round G)) (h : newSignState sha ids secret shares message timeout now = .ok s) :
    secret.id ∈ ids ∧ (∀ id ∈ ids, id ∈ shares.partyIDs ∧ id ≠ 0 ∧ shares.shares.get? id ≠ none) ∧ s.round.output.signature = none := by
  obtain ⟨r₀, h1, rfl⟩ := newSignState_ok.mp h
  obtain ⟨h2, h3, parties, h4, rfl⟩ := newRound_ok.mp h1
  refine ⟨IDSlice.contains_sound h2, fun id hid => ?_, rfl⟩
  obtain ⟨g1, g2, g3⟩ := (setupLoop_ok h4).1 id hid
  exact ⟨IDSlice.contains_sound (IDSlice.isSubsetOf_iff_contains.mp h3 id hid), g1, g3⟩

/-- It succeeds for every sorted list of parties of the key that contains the owner of the secret share and does not contain 0,
provided all of them have a public share.  Nothing else matters: not the number of signers, not the threshold, not whether the
secret share matches its public share. -/
theorem C42_accepts (secret : SecretShare G) (shares : Public G) (ids : IDSlice) (message : Bytes) (timeout now : Nat)
    (hs : ids.Pairwise (· ≤ ·)) (hp : shares.partyIDs.Pairwise (· ≤ ·)) (hm : secret.id ∈ ids)
    (h : ∀ id ∈ ids, id ∈ shares.partyIDs ∧ id ≠ 0 ∧ shares.shares.get? id ≠ none) :
    ∃ s, newSignState sha ids secret shares message timeout now = .ok s := by
  obtain ⟨parties, hpar⟩ := setupLoop_of (l := ids) (ids := ids) (shares := shares.shares) [] fun id hid => ⟨(h id hid).2.1, hid, (h id hid).2.2⟩
  exact ⟨_, newSignState_ok.mpr ⟨_, newRound_ok.mpr ⟨IDSlice.contains_complete hs hm, (C06_isSubsetOf_iff ids hp).mpr fun x hx => (h x hx).1,
    parties, hpar, rfl⟩, rfl⟩⟩

/-- Against the README, which asks for at least `t + 1` signers: one signer alone is accepted, whatever the threshold. -/
theorem C42_single_signer_accepted (secret : SecretShare G) (shares : Public G) (message : Bytes) (timeout now : Nat)
    (hp : shares.partyIDs.Pairwise (· ≤ ·)) (hm : secret.id ∈ shares.partyIDs) (h0 : secret.id ≠ 0)
    (hx : shares.shares.get? secret.id ≠ none) :
    ∃ s, newSignState sha [secret.id] secret shares message timeout now = .ok s :=
  C42_accepts secret shares [secret.id] message timeout now (by simp) hp (by simp) (by simp [hm, h0, hx])

/-- A signer that is a party of the key but has no entry in the map of public shares crashes `NewSignState`. -/
theorem C42_missing_share_crashes (secret : SecretShare G) (shares : Public G) (ids : IDSlice) (message : Bytes) (timeout now : Nat)
    (hs : ids.Pairwise (· ≤ ·)) (hp : shares.partyIDs.Pairwise (· ≤ ·)) (hm : secret.id ∈ ids)
    (h : ∀ id ∈ ids, id ∈ shares.partyIDs ∧ id ≠ 0) (hmiss : ∃ id ∈ ids, shares.shares.get? id = none) :
    newSignState sha ids secret shares message timeout now = .panic := by
  have key : ∀ (l : List ID) (m : GoMap (Signer G)), (∀ id ∈ l, id ∈ ids) → (∃ id ∈ l, shares.shares.get? id = none) →
      setupLoop ids shares.shares l m = .panic := by
    intro l
    induction l with
    | nil => rintro _ _ ⟨_, h, _⟩; cases h
    | cons a l ih =>
      intro m hl hex
      have ha := hl a List.mem_cons_self
      simp only [setupLoop, ID.lagrange_eq, if_neg (h a ha).2, if_pos ha, Outcome.failIf_neg (h a ha).2, Outcome.ok_bind]
      cases hX : shares.shares.get? a with
      | none => rfl
      | some X =>
        rw [Outcome.deref_some, Outcome.ok_bind]
        refine ih _ (fun id hid => hl id (List.mem_cons_of_mem _ hid)) ?_
        obtain ⟨id, hid, hn⟩ := hex
        rcases List.mem_cons.mp hid with rfl | hid
        · rw [hX] at hn; cases hn
        · exact ⟨id, hid, hn⟩
  unfold newSignState Sign.newRound Keygen.newBaseRound
  rw [Outcome.failIf_neg (by simpa using IDSlice.contains_complete hs hm), Outcome.ok_bind,
    Outcome.failIf_neg (by simpa using (C06_isSubsetOf_iff ids hp).mpr fun x hx => (h x hx).1), Outcome.ok_bind, Outcome.ok_bind,
    key ids [] (fun _ h => h) hmiss]
  rfl

/-- The owner missing from the signers, or a signer that is not a party of the key, or signer 0 (when all have a public share) is
refused with an error. -/
theorem C42_refused (secret : SecretShare G) (shares : Public G) (ids : IDSlice) (message : Bytes) (timeout now : Nat)
    (hsh : ∀ id ∈ ids, shares.shares.get? id ≠ none)
    (h : secret.id ∉ ids ∨ (∃ id ∈ ids, id ∉ shares.partyIDs) ∨ 0 ∈ ids) :
    ∃ e, (newSignState sha ids secret shares message timeout now : GoRes (State G (Sign.Round G))) = .err e := by
  cases hr : (newSignState sha ids secret shares message timeout now : GoRes (State G (Sign.Round G))) with
  | err e => exact ⟨e, rfl⟩
  | ok s =>
    exfalso
    obtain ⟨h1, h2, _⟩ := C42_accepted secret shares ids message timeout now s hr
    rcases h with h | ⟨id, hid, h⟩ | h
    · exact h h1
    · exact h (h2 id hid).1
    · exact (h2 0 h).2.1 rfl
  | panic =>
    exfalso
    have key : ∀ (l : List ID) (m : GoMap (Signer G)), (∀ id ∈ l, id ∈ ids) → setupLoop ids shares.shares l m ≠ .panic := by
      intro l
      induction l with
      | nil => intro m _ h; cases h
      | cons a l ih =>
        intro m hl
        have ha := hl a List.mem_cons_self
        simp only [setupLoop, ID.lagrange_eq]
        by_cases h0 : a = 0
        · rw [Outcome.failIf_pos h0]; exact fun h => by cases h
        · rw [Outcome.failIf_neg h0, Outcome.ok_bind, if_neg h0, if_pos ha, Outcome.ok_bind]
          obtain ⟨X, hX⟩ := Option.ne_none_iff_exists'.mp (hsh a ha)
          rw [hX, Outcome.deref_some, Outcome.ok_bind]
          exact ih _ fun id hid => hl id (List.mem_cons_of_mem _ hid)
    unfold newSignState Sign.newRound Keygen.newBaseRound at hr
    simp only [bind_eq_panic, failIf_eq_panic, failIf_eq_ok, pure_def, reduceCtorEq, and_false, exists_false, or_false, false_or,
      ID.lagrange_eq] at hr
    obtain ⟨_, _, _, _, _, _, hr⟩ := hr
    rcases hr with hr | ⟨_, _, hr⟩
    · exact key ids [] (fun _ h => h) hr
    · split at hr <;> try cases hr
      split at hr <;> cases hr

/-! ### What a session works with -/

theorem sign_start_of_new {secret : SecretShare G} {shares : Public G} {ids : IDSlice} {message : Bytes} {timeout now : Nat}
    {s₀ : State G (Sign.Round G)} (h : newSignState sha ids secret shares message timeout now = .ok s₀) (hnd : ids.Nodup) :
    ∃ r₀, Sign.Start r₀ secret shares ids message ∧ s₀ = newBaseState (Sign.impl sha) r₀ timeout now := by
  obtain ⟨r₀, h1, h2⟩ := newSignState_ok.mp h
  exact ⟨r₀, ⟨h1, hnd⟩, h2⟩

/-- The commitments `D`, `E` of `id` were accepted, and are not the identity. -/
def Spec.GotNonces (self : ID) (ids : List ID) (h : List (Op G × Ret G)) (id : ID) (D E : G) : Prop :=
  ∃ m k, (Op.handle m, Ret.handled none) ∈ h ∧ Spec.ForUs self ids m ∧ m.header.fromID = id ∧ m.header.type = 3 ∧
    m.sign1 = some k ∧ k.Di = D ∧ k.Ei = E ∧ D ≠ 0 ∧ E ≠ 0

/-- The signature share `z` of `id` was accepted for storage. -/
def Spec.GotSigShare (self : ID) (ids : List ID) (h : List (Op G × Ret G)) (id : ID) (z : Scalar) : Prop :=
  ∃ m k, (Op.handle m, Ret.handled none) ∈ h ∧ Spec.ForUs self ids m ∧ m.header.fromID = id ∧ m.header.type = 4 ∧
    m.sign2 = some k ∧ k.Zi = z

/-- The commitments of all signers in a session: those it drew and broadcast itself, and those accepted from the others. -/
def Spec.Commitments (self : ID) (ids : List ID) (h : List (Op G × Ret G)) (D E : ID → G) : Prop :=
  (∃ ord coins, D self = coins 0 • base ∧ E self = coins 1 • base ∧
    (Op.processAll ord coins, Ret.messages [Message.newSign1 self (D self) (E self)]) ∈ h) ∧
  ∀ id ∈ ids, id ≠ self → Spec.GotNonces self ids h id (D id) (E id)

/-- The public share of a signer, weighted for this set of signers. -/
def Spec.weightedShare (shares : Public G) (ids : List ID) (id : ID) : G :=
  Spec.weight id ids • (shares.shares.get? id).getD 0

theorem pubOf_eq (shares : Public G) (ids : List ID) : pubOf shares ids = Spec.weightedShare shares ids := by
  funext id
  rw [pubOf, Spec.weightedShare, weight_eq]

theorem commitments_of {r₀ : Sign.Round G} {self : ID} {ids : IDSlice} (e1 : r₀.selfID = self) (e2 : r₀.partyIDs = ids)
    {h : List (Op G × Ret G)} {d e : Scalar} {l₁ : List (ID × Option (Message G))} {D E : ID → G} (h1 : Sign.Drawn r₀ h d e)
    (h2 : Ready (Sign.impl sha) r₀ h 1 l₁) (h3 : ∀ k v, (k, v) ∈ l₁ → Sign.Valid1 v) (h4 : Coms r₀.selfID d e l₁ D E) :
    Spec.Commitments self ids h D E := by
  have e1' : (Sign.impl sha).selfID r₀ = self := e1
  have e2' : (Sign.impl sha).partyIDs r₀ = ids := e2
  rw [e1] at h4
  constructor
  · obtain ⟨ord, coins, rfl, rfl, h5⟩ := h1
    rw [e1] at h5
    exact ⟨ord, coins, h4.ownD, h4.ownE, by rw [h4.ownD, h4.ownE]; exact h5⟩
  · intro id hid hne
    obtain ⟨v, hv⟩ := (mem_of_ready h2 (k := id)).mpr (by rw [e1', e2']; exact ⟨hid, hne⟩)
    obtain ⟨m, k, rfl, g2, g3, g4⟩ := h3 id v hv
    obtain ⟨m', k1, k2, k3, k4, k5⟩ := h2.later (by omega) id _ hv
    cases k1
    rw [e1', e2'] at k5
    have k3 : some (3 : MsgType) = some m.header.type := k3
    obtain ⟨c1, c2⟩ := h4.others id _ hv
    have d1 : DOf (some m) = k.Di := by simp [DOf, g2]
    have d2 : EOf (some m) = k.Ei := by simp [EOf, g2]
    rw [c1, c2, d1, d2]
    exact ⟨m, k, k4, k5, k2, (Option.some.inj k3).symm, g2, rfl, rfl, g3, g4⟩

/-- The share an honest signer computes satisfies the equation checked by the others: `[z]B = Rᵢ + [c](λᵢ Aᵢ)`. -/
theorem C45_honest_share_passes (sha : Sha512) (ids : List ID) (message : Bytes) (Y : G) (D E : ID → G) (i : ID) (d e share : Scalar)
    (hD : D i = d • base) (hE : E i = e • base) :
    Spec.respond sha ids message Y D E i d e share • (base : G) =
      Spec.nonce sha ids message D E i + Spec.chal sha ids message Y D E • (share • (base : G)) := by
  unfold Spec.respond Spec.nonce
  rw [hD, hE, smul_smul, smul_smul, ← add_smul, ← add_smul]
  congr 1
  ring

/-- What a session that finished without error did: `D`, `E` are the commitments of all signers, `z` their shares. -/
theorem sign_finished_spec {secret : SecretShare G} {shares : Public G} {ids : IDSlice} {message : Bytes} {r₀ : Sign.Round G}
    (hs : Sign.Start r₀ secret shares ids message) {h : List (Op G × Ret G)} {r : Sign.Round G}
    (hf : Sign.Finished sha r₀ (pubOf shares ids) h r) :
    ∃ (D E : ID → G) (z : ID → Scalar), Spec.Commitments secret.id ids h D E ∧
      (∀ id ∈ ids, id ≠ secret.id → Spec.GotSigShare secret.id ids h id (z id) ∧ z id • (base : G) =
        Spec.nonce sha ids message D E id + Spec.chal sha ids message shares.groupKey D E • Spec.weightedShare shares ids id) ∧
      z secret.id • (base : G) = Spec.nonce sha ids message D E secret.id +
        Spec.chal sha ids message shares.groupKey D E • (Spec.weight secret.id ids • secret.secret • (base : G)) ∧
      r.output.signature = some ⟨Spec.groupNonce sha ids message D E, (ids.map z).sum⟩ ∧
      PublicKey.verify sha shares.groupKey message ⟨Spec.groupNonce sha ids message D E, (ids.map z).sum⟩ = .ok true := by
  obtain ⟨_, e1, e2, e3, e4, e5, _⟩ := hs.eq
  obtain ⟨d, e, l₁, D, E, l₂, z, h1, h2, h3, h4, h5, h6, h7, h8, h9, _⟩ := hf
  have hc := commitments_of e1 e2 h1 h2 h3 h4
  rw [e1, e2, e3, e4, e5] at h6
  rw [e2, e3, e4] at h7
  rw [e2, e3] at h8
  rw [e2, e3, e4] at h9
  have e1' : (Sign.impl sha).selfID r₀ = secret.id := e1
  have e2' : (Sign.impl sha).partyIDs r₀ = ids := e2
  refine ⟨D, E, z, hc, ?_, ?_, by rw [h8], h9⟩
  · intro id hid hne
    obtain ⟨v, hv⟩ := (mem_of_ready h5 (k := id)).mpr (by rw [e1', e2']; exact ⟨hid, hne⟩)
    obtain ⟨g1, g2⟩ := h7 id v hv
    have g3 := g2.Z
    obtain ⟨m, k, rfl, g4, _⟩ := g2
    obtain ⟨m', k1, k2, k3, k4, k5⟩ := h5.later (by omega) id _ hv
    cases k1
    rw [e1', e2'] at k5
    have k3 : some (4 : MsgType) = some m.header.type := k3
    rw [g1, g3, ← pubOf_eq]
    exact ⟨⟨m, k, k4, k5, k2, (Option.some.inj k3).symm, g4, by simp [ZOf, g4]⟩, rfl⟩
  · rw [h6, weight_eq, smul_smul (ID.lagrangeVal _ _)]
    rw [e1] at h4
    exact C45_honest_share_passes sha ids message shares.groupKey D E secret.id d e _ h4.ownD h4.ownE

/-! ### C44 -/

theorem sign_running_lt_three {r₀ : Sign.Round G} {P : ID → G} {n : Nat} {h : List (Op G × Ret G)} {r : Sign.Round G}
    (hr : Sign.Running sha r₀ P n h r) : n < 3 := by
  match n, hr with
  | 0, _ | 1, _ | 2, _ => omega

/-- While a session runs, and after it was aborted, it has no signature. -/
theorem C44_no_signature_without_success (secret : SecretShare G) (shares : Public G) (ids : IDSlice) (message : Bytes)
    (timeout now : Nat) (s₀ : State G (Sign.Round G)) (h₀ : newSignState sha ids secret shares message timeout now = .ok s₀)
    (hnd : ids.Nodup) {h : List (Op G × Ret G)} {s : State G (Sign.Round G)} (hh : Hist (Sign.impl sha) s₀ h s)
    (hns : ¬ (s.done = true ∧ s.err = none)) : s.round.output.signature = none := by
  obtain ⟨r₀, hs, rfl⟩ := sign_start_of_new h₀ hnd
  obtain ⟨_, _, _, _, _, _, _, hout, _⟩ := hs.eq
  have hrun : ∀ h s, Hist (Sign.impl sha) (newBaseState (Sign.impl sha) r₀ timeout now) h s → s.done = false → s.round.output = {} := by
    intro h s hh hd
    have := (Sign.running hs hh).1 hd
    have hlt := sign_running_lt_three this
    rcases (by omega : s.roundNumber = 0 ∨ s.roundNumber = 1 ∨ s.roundNumber = 2) with hn | hn | hn <;> rw [hn] at this
    · rw [show s.round = r₀ from this]; exact hout
    · obtain ⟨_, _, _, _, _, h4⟩ := this; rw [h4]; exact hout
    · obtain ⟨_, _, _, _, _, _, _, _, _, _, _, _, h4⟩ := this; rw [h4]; exact hout
  suffices hsuf : s.round.output = {} by rw [hsuf]
  cases hd : s.done with
  | false => exact hrun h s hh hd
  | true =>
    obtain ⟨r, hq, hr⟩ := hist_abort (Sign.impl_stable sha) (fun r => r.output = {}) hrun
      (by
        intro r m r' hq hp
        simp only [Sign.impl] at hp
        split at hp
        · cases hp; exact hq
        · obtain ⟨_, _, _, _, _, _, _, _, rfl⟩ := Sign.process1_ok.mp hp; exact hq
        · obtain ⟨_, _, _, _, _, _, _, _, _, rfl⟩ := Sign.process2_ok.mp hp; exact hq)
      (by
        intro r m e r' hq hp
        simp only [Sign.impl] at hp
        split at hp
        · cases hp
        · obtain ⟨_, _, _, _, _, _, rfl⟩ := Sign.process1_err.mp hp; exact hq
        · obtain ⟨_, _, _, _, _, _, _, _, _, _, rfl⟩ := Sign.process2_err.mp hp; exact hq)
      (by
        intro ord coins r e r' hq hg
        simp only [Sign.impl] at hg
        split at hg
        · exact absurd hg (Sign.noErr_generate0 _ _ _)
        · exact absurd hg (Sign.noErr_generate1 _ _ _ _)
        · obtain ⟨_, _, rfl⟩ := Sign.generate2_err.mp hg; exact hq)
      hh (fun he => hns ⟨hd, he⟩)
    have hr : Sign.reset r = some s.round := hr
    rw [← Option.some.inj hr]
    exact hq

/-- A signature is output only if signing finished without error, and it verifies for the message under the group key. -/
theorem C44_output_verifies (secret : SecretShare G) (shares : Public G) (ids : IDSlice) (message : Bytes) (timeout now : Nat)
    (s₀ : State G (Sign.Round G)) (h₀ : newSignState sha ids secret shares message timeout now = .ok s₀) (hnd : ids.Nodup)
    {h : List (Op G × Ret G)} {s : State G (Sign.Round G)} (hh : Hist (Sign.impl sha) s₀ h s) (sig : Signature G)
    (hsig : s.round.output.signature = some sig) :
    s.done = true ∧ s.err = none ∧ PublicKey.verify sha shares.groupKey message sig = .ok true := by
  by_cases hns : s.done = true ∧ s.err = none
  · obtain ⟨r₀, hs, rfl⟩ := sign_start_of_new h₀ hnd
    obtain ⟨D, E, z, _, _, _, h4, h5⟩ := sign_finished_spec hs ((Sign.running hs hh).2 hns.1 hns.2)
    rw [h4] at hsig
    cases hsig
    exact ⟨hns.1, hns.2, h5⟩
  · rw [C44_no_signature_without_success secret shares ids message timeout now s₀ h₀ hnd hh hns] at hsig
    cases hsig

/-- Conversely, a session that finished without error has a signature. -/
theorem C44_success_has_signature (secret : SecretShare G) (shares : Public G) (ids : IDSlice) (message : Bytes) (timeout now : Nat)
    (s₀ : State G (Sign.Round G)) (h₀ : newSignState sha ids secret shares message timeout now = .ok s₀) (hnd : ids.Nodup)
    {h : List (Op G × Ret G)} {s : State G (Sign.Round G)} (hh : Hist (Sign.impl sha) s₀ h s) (hd : s.done = true) (he : s.err = none) :
    s.round.output.signature ≠ none := by
  obtain ⟨r₀, hs, rfl⟩ := sign_start_of_new h₀ hnd
  obtain ⟨D, E, z, _, _, _, h4, h5⟩ := sign_finished_spec hs ((Sign.running hs hh).2 hd he)
  rw [h4]
  simp

/-! ### C46 -/

theorem sum_shares {ids : List ID} {z : ID → Scalar} {N P : ID → G} {c : Scalar}
    (h : ∀ id ∈ ids, z id • (base : G) = N id + c • P id) :
    (ids.map z).sum • (base : G) = (ids.map N).sum + c • (ids.map P).sum := by
  induction ids with
  | nil => simp
  | cons a l ih =>
    rw [List.map_cons, List.map_cons, List.map_cons, List.sum_cons, List.sum_cons, List.sum_cons, add_smul,
      ih fun id hid => h id (List.mem_cons_of_mem _ hid), h a List.mem_cons_self, smul_add]
    abel

/-- If a session succeeds, then the weighted public shares of its signers add up to the group key, unless the challenge is zero.
So signers whose weighted shares do not add up to the group key produce no signature, although `NewSignState` accepts them
(`C42_accepts`). -/
theorem C46_success_needs_key (secret : SecretShare G) (shares : Public G) (ids : IDSlice) (message : Bytes) (timeout now : Nat)
    (s₀ : State G (Sign.Round G)) (h₀ : newSignState sha ids secret shares message timeout now = .ok s₀) (hnd : ids.Nodup)
    (hX : shares.shares.get? secret.id = some (secret.secret • base))
    {h : List (Op G × Ret G)} {s : State G (Sign.Round G)} (hh : Hist (Sign.impl sha) s₀ h s) (hd : s.done = true) (he : s.err = none) :
    ∃ D E, Spec.Commitments secret.id ids h D E ∧
      (Spec.chal sha ids message shares.groupKey D E = 0 ∨ (ids.map (Spec.weightedShare shares ids)).sum = shares.groupKey) := by
  obtain ⟨r₀, hs, rfl⟩ := sign_start_of_new h₀ hnd
  obtain ⟨D, E, z, h1, h2, h3, h4, h5⟩ := sign_finished_spec hs ((Sign.running hs hh).2 hd he)
  refine ⟨D, E, h1, ?_⟩
  have hall : ∀ id ∈ ids, z id • (base : G) =
      Spec.nonce sha ids message D E id + Spec.chal sha ids message shares.groupKey D E • Spec.weightedShare shares ids id := by
    intro id hid
    by_cases hself : id = secret.id
    · rw [hself, h3, Spec.weightedShare, hX]
      rfl
    · exact (h2 id hid hself).2
  have hsum := sum_shares hall
  obtain ⟨b, hb1, hb2⟩ := C50_verify_iff sha shares.groupKey message ⟨Spec.groupNonce sha ids message D E, (ids.map z).sum⟩
  rw [hb1] at h5
  have heq := hb2.mp (Outcome.ok.inj h5)
  simp only [] at heq
  rw [hsum] at heq
  have h6 := add_left_cancel heq
  have h7 : Spec.chal sha ids message shares.groupKey D E • ((ids.map (Spec.weightedShare shares ids)).sum - shares.groupKey) = 0 := by
    rw [smul_sub, sub_eq_zero]
    exact h6
  rcases smul_eq_zero.mp h7 with h8 | h8
  · exact Or.inl h8
  · exact Or.inr (sub_eq_zero.mp h8)

open Polynomial in
theorem lagrange_missing {ids : List ID} (hnd : ids.Nodup) (f : Scalar[X]) (hf : f.natDegree = ids.length) (hpos : ids ≠ []) :
    (ids.map fun i => ID.lagrangeVal i ids * f.eval i.val).sum = f.eval 0 - f.leadingCoeff * (ids.map fun i => - i.val).prod := by
  -- subtract the multiple of the nodal polynomial
  let w : Scalar[X] := (ids.map fun i => X - C i.val).prod
  have hwm : ∀ l : List ID, ((l.map fun i => X - C i.val).prod : Scalar[X]).Monic ∧
      ((l.map fun i => X - C i.val).prod : Scalar[X]).natDegree = l.length := by
    intro l
    induction l with
    | nil => simp
    | cons a l ih =>
      rw [List.map_cons, List.prod_cons]
      refine ⟨(monic_X_sub_C _).mul ih.1, ?_⟩
      rw [(monic_X_sub_C _).natDegree_mul ih.1, ih.2, natDegree_X_sub_C, List.length_cons, add_comm]
  have hw : w.Monic := (hwm ids).1
  have hwd : w.natDegree = ids.length := (hwm ids).2
  have hw0 : ∀ i ∈ ids, w.eval i.val = 0 := by
    intro i hi
    rw [eval_list_prod, List.map_map]
    apply List.prod_eq_zero
    exact List.mem_map.mpr ⟨i, hi, by simp⟩
  have hlen : 0 < ids.length := List.length_pos_iff.mpr hpos
  have hf0 : f ≠ 0 := by rintro rfl; simp at hf; exact hpos (by simpa using hf.symm)
  have hdeg : (f - C f.leadingCoeff * w).degree < ids.length := by
    have h1 : (C f.leadingCoeff * w).degree = f.degree := by
      rw [degree_C_mul (leadingCoeff_ne_zero.mpr hf0), degree_eq_natDegree hw.ne_zero, degree_eq_natDegree hf0, hwd, hf]
    have h2 : (C f.leadingCoeff * w).leadingCoeff = f.leadingCoeff := by
      rw [leadingCoeff_mul, leadingCoeff_C, hw.leadingCoeff, mul_one]
    have := degree_sub_lt_left h1.symm hf0 h2.symm
    rw [degree_eq_natDegree hf0, hf] at this
    exact this
  have hmain := ID.lagrangeVal_sum hnd _ hdeg
  have hcongr : (ids.map fun i => ID.lagrangeVal i ids * (f - C f.leadingCoeff * w).eval i.val) =
      ids.map fun i => ID.lagrangeVal i ids * f.eval i.val := by
    apply List.map_congr_left
    intro i hi
    rw [eval_sub, eval_mul, hw0 i hi, mul_zero, sub_zero]
  rw [hcongr] at hmain
  rw [hmain, eval_sub, eval_mul, eval_C, eval_list_prod, List.map_map]
  congr 2
  simp [Function.comp_def]

open Polynomial in
/-- `t` signers of a key whose secret polynomial has degree exactly `t` never produce a signature, unless the challenge is zero:
whatever messages arrive, the session does not finish without error. -/
theorem C46_t_signers_fail (secret : SecretShare G) (shares : Public G) (ids : IDSlice) (message : Bytes) (timeout now : Nat)
    (s₀ : State G (Sign.Round G)) (h₀ : newSignState sha ids secret shares message timeout now = .ok s₀) (hnd : ids.Nodup)
    (f : Scalar[X]) (hgk : shares.groupKey = f.eval 0 • base) (hsec : secret.secret = f.eval (secret.id.toNat : Scalar))
    (hsh : ∀ id ∈ ids, shares.shares.get? id = some (f.eval (id.toNat : Scalar) • base)) (hdeg : f.natDegree = ids.length)
    {h : List (Op G × Ret G)} {s : State G (Sign.Round G)} (hh : Hist (Sign.impl sha) s₀ h s)
    (hc : ∀ D E, Spec.Commitments secret.id ids h D E → Spec.chal sha ids message shares.groupKey D E ≠ 0) :
    ¬ (s.done = true ∧ s.err = none) ∧ s.round.output.signature = none := by
  have hmem := C42_accepted secret shares ids message timeout now s₀ h₀
  suffices hns : ¬ (s.done = true ∧ s.err = none) from
    ⟨hns, C44_no_signature_without_success secret shares ids message timeout now s₀ h₀ hnd hh hns⟩
  rintro ⟨hd, he⟩
  obtain ⟨D, E, h1, h2⟩ := C46_success_needs_key secret shares ids message timeout now s₀ h₀ hnd
    (by rw [hsh _ hmem.1, hsec]) hh hd he
  rcases h2 with h2 | h2
  · exact hc D E h1 h2
  · have h3 : (ids.map (Spec.weightedShare shares ids)) = (ids.map fun i => (ID.lagrangeVal i ids * f.eval i.val) • (base : G)) := by
      apply List.map_congr_left
      intro i hi
      rw [Spec.weightedShare, weight_eq, hsh i hi, mul_smul]
      rfl
    have h4 : ∀ l : List ID, (l.map fun i => (ID.lagrangeVal i ids * f.eval i.val) • (base : G)).sum =
        (l.map fun i => ID.lagrangeVal i ids * f.eval i.val).sum • (base : G) := by
      intro l
      induction l with
      | nil => simp
      | cons a l ih => simp only [List.map_cons, List.sum_cons, ih, add_smul]
    rw [h3, h4, lagrange_missing hnd f hdeg (List.ne_nil_of_mem hmem.1), hgk, sub_smul, sub_eq_self, smul_eq_zero] at h2
    rcases h2 with h2 | h2
    · have hf0 : f ≠ 0 := by
        rintro rfl
        simp at hdeg
        exact List.ne_nil_of_mem hmem.1 (by simpa using hdeg.symm)
      rcases mul_eq_zero.mp h2 with h5 | h5
      · exact hf0 (leadingCoeff_eq_zero.mp h5)
      · rw [List.prod_eq_zero_iff] at h5
        obtain ⟨i, hi, h6⟩ := List.mem_map.mp h5
        have : i.val = (0 : ID).val := by rw [neg_eq_zero.mp h6]; simp [ID.val]
        exact (hmem.2.1 i hi).2.1 (ID.val_injective this)
    · exact RGroup.base_ne_zero h2

end Verif.Props
