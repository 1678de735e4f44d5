import Verif.Props.Sign

/-!
C30, C33, C45, C47, C49 and C66 for signing: shares, blame and what is sent, whatever the others send.
-/

namespace Verif.Props

open Verif State Sign Outcome

variable {G : Type} [RGroup G] {sha : Sha512}

theorem sign_prefix0 {r r' : Sign.Round G} {l : List (Option (Message G))} (hf : Spec.Fed (Sign.impl sha).processMessage r l r')
    (hs : r.stage = .r0) : r' = r := by
  induction hf with
  | nil => rfl
  | cons h1 _ ih =>
    simp only [Sign.impl, hs] at h1
    cases h1
    exact ih hs

theorem sign_prefix1 {r r' : Sign.Round G} {l : List (Option (Message G))} (hf : Spec.Fed (Sign.impl sha).processMessage r l r')
    (hs : r.stage = .r1) : r' = { r with parties := r'.parties } ∧ r'.parties.keys = r.parties.keys := by
  induction hf with
  | nil => exact ⟨rfl, rfl⟩
  | cons h1 _ ih =>
    simp only [Sign.impl, hs] at h1
    obtain ⟨m, k, p, rfl, _, _, _, h2, rfl⟩ := Sign.process1_ok.mp h1
    obtain ⟨h3, h4⟩ := ih hs
    exact ⟨by rw [h3], h4.trans (GoMap.keys_set_of_mem _ (GoMap.mem_keys_iff.mpr ⟨p, h2⟩))⟩

theorem sign_prefix2 {r r' : Sign.Round G} {l : List (Option (Message G))} (hf : Spec.Fed (Sign.impl sha).processMessage r l r')
    (hs : r.stage = .r2) : r' = { r with parties := r'.parties } ∧
      ∀ k, (r'.parties.get? k).map (fun p => (p.pub, p.Ri)) = (r.parties.get? k).map fun p => (p.pub, p.Ri) := by
  induction hf with
  | nil => exact ⟨rfl, fun _ => rfl⟩
  | cons h1 _ ih =>
    simp only [Sign.impl, hs] at h1
    obtain ⟨m, k, p, Ri, rfl, h2, _, _, _, rfl⟩ := Sign.process2_ok.mp h1
    obtain ⟨h3, h4⟩ := ih hs
    refine ⟨by rw [h3], fun k' => (h4 k').trans ?_⟩
    simp only []
    by_cases hk : k' = m.header.fromID
    · subst hk; rw [GoMap.get?_set_same, h2]; rfl
    · rw [GoMap.get?_set_ne _ _ hk]

/-! ### C49 -/

/-- In round 1, after any messages, a message from another signer with a payload is accepted if neither commitment is the identity,
and otherwise it is an error that blames its sender. -/
theorem C49_identity_refused (secret : SecretShare G) (shares : Public G) (ids : IDSlice) (message : Bytes) (timeout now : Nat)
    (s₀ : State G (Sign.Round G)) (h₀ : newSignState sha ids secret shares message timeout now = .ok s₀) (hnd : ids.Nodup)
    {h : List (Op G × Ret G)} {s : State G (Sign.Round G)} (hh : Hist (Sign.impl sha) s₀ h s) (hd : s.done = false)
    (hn : s.roundNumber = 1) (msgs : List (Option (Message G))) (r : Sign.Round G)
    (hfed : Spec.Fed (Sign.impl sha).processMessage s.round msgs r) (m : Message G) (k : Sign1 G) (hm : m.header.fromID ∈ ids)
    (hk : m.sign1 = some k) :
    ((k.Di = 0 ∨ k.Ei = 0) → ∃ e, (Sign.impl sha).processMessage r (some m) = .err (e, r) ∧ e.partyID = m.header.fromID) ∧
    (k.Di ≠ 0 → k.Ei ≠ 0 → ∃ r', (Sign.impl sha).processMessage r (some m) = .ok r') := by
  obtain ⟨r₀, hs, rfl⟩ := sign_start_of_new h₀ hnd
  obtain ⟨_, e1, e2, _⟩ := hs.eq
  have hrun := (Sign.running hs hh).1 hd
  rw [hn] at hrun
  obtain ⟨d, e, parties, _, h2, h3⟩ := hrun
  have hst : s.round.stage = .r1 := by rw [h3]
  obtain ⟨h4, h5⟩ := sign_prefix1 hfed hst
  have hst' : r.stage = .r1 := by rw [h4]; exact hst
  have hkeys : m.header.fromID ∈ r.parties.keys := by
    rw [h5, h3]
    exact (h2.keys _).mpr (by rw [e2]; exact hm)
  obtain ⟨p, hp⟩ := GoMap.mem_keys_iff.mp hkeys
  simp only [Sign.impl, hst']
  constructor
  · intro hz
    exact ⟨_, Sign.process1_err.mpr ⟨m, k, rfl, hk, hz, rfl, rfl⟩, rfl⟩
  · intro g1 g2
    exact ⟨_, Sign.process1_ok.mpr ⟨m, k, p, rfl, hk, g1, g2, hp, rfl⟩⟩

/-! ### C45 -/

/-- In round 2 a share `z` from signer `k` is accepted exactly when `[z]B = Rₖ + [c](λₖ Aₖ)`; otherwise it is an error that blames
its sender.  `D` and `E` are the commitments of the session. -/
theorem C45_share_accepted_iff (secret : SecretShare G) (shares : Public G) (ids : IDSlice) (message : Bytes) (timeout now : Nat)
    (s₀ : State G (Sign.Round G)) (h₀ : newSignState sha ids secret shares message timeout now = .ok s₀) (hnd : ids.Nodup)
    {h : List (Op G × Ret G)} {s : State G (Sign.Round G)} (hh : Hist (Sign.impl sha) s₀ h s) (hd : s.done = false)
    (hn : s.roundNumber = 2) :
    ∃ D E, Spec.Commitments secret.id ids h D E ∧ ∀ (msgs : List (Option (Message G))) (r : Sign.Round G),
      Spec.Fed (Sign.impl sha).processMessage s.round msgs r → ∀ (m : Message G) (z : Sign2), m.header.fromID ∈ ids → m.sign2 = some z →
        let ok := z.Zi • (base : G) = Spec.nonce sha ids message D E m.header.fromID +
          Spec.chal sha ids message shares.groupKey D E • Spec.weightedShare shares ids m.header.fromID
        (ok → ∃ r', (Sign.impl sha).processMessage r (some m) = .ok r') ∧
        (¬ ok → ∃ e, (Sign.impl sha).processMessage r (some m) = .err (e, r) ∧ e.partyID = m.header.fromID) := by
  obtain ⟨r₀, hs, rfl⟩ := sign_start_of_new h₀ hnd
  obtain ⟨_, e1, e2, e3, e4, _⟩ := hs.eq
  have hrun := (Sign.running hs hh).1 hd
  rw [hn] at hrun
  obtain ⟨d, e, l₁, D, E, parties, h1, h2, h3, h4, h5, _, h7⟩ := hrun
  refine ⟨D, E, commitments_of e1 e2 h1 h2 h3 h4, ?_⟩
  intro msgs r hfed m z hm hz
  have hst : s.round.stage = .r2 := by rw [h7]; rfl
  obtain ⟨h8, h9⟩ := sign_prefix2 hfed hst
  have hst' : r.stage = .r2 := by rw [h8]; exact hst
  have hget := h5.get m.header.fromID (by rw [e2]; exact hm)
  have hp := h9 m.header.fromID
  rw [h7] at hp
  simp only [round2] at hp
  rw [hget] at hp
  obtain ⟨p, hp1, hp2⟩ := Option.map_eq_some_iff.mp hp
  obtain ⟨hp3, hp4⟩ := Prod.mk.inj hp2
  have hC : r.C = Spec.chal sha ids message shares.groupKey D E := by
    rw [h8]
    show s.round.C = _
    rw [h7]
    simp only [round2, e2, e3, e4]
  have hRi : p.Ri = some (Spec.nonce sha ids message D E m.header.fromID) := by rw [hp4]; simp only [signer2, e2, e3]
  have hpub : p.pub = Spec.weightedShare shares ids m.header.fromID := by rw [hp3, ← pubOf_eq]; rfl
  simp only [Sign.impl, hst']
  constructor
  · intro hok
    exact ⟨_, Sign.process2_ok.mpr ⟨m, z, p, _, rfl, hp1, hz, hRi, by rw [hC, hpub]; exact hok, rfl⟩⟩
  · intro hok
    exact ⟨_, Sign.process2_err.mpr ⟨m, z, p, _, rfl, hp1, hz, hRi, by rw [hC, hpub]; exact hok, rfl, rfl⟩, rfl⟩

/-- If the weighted public shares of the signers add up to the group key and the own secret share is the right one, then a session
never fails without blaming somebody, except by timeout: if all shares are accepted, the signature verifies. -/
theorem C45_no_unattributed_failure (secret : SecretShare G) (shares : Public G) (ids : IDSlice) (message : Bytes) (timeout now : Nat)
    (s₀ : State G (Sign.Round G)) (h₀ : newSignState sha ids secret shares message timeout now = .ok s₀) (hnd : ids.Nodup)
    (hX : shares.shares.get? secret.id = some (secret.secret • base))
    (hsum : (ids.map (Spec.weightedShare shares ids)).sum = shares.groupKey)
    {h : List (Op G × Ret G)} {s : State G (Sign.Round G)} (hh : Hist (Sign.impl sha) s₀ h s) (e : StateErr) (he : s.err = some e)
    (hp : e.partyID = 0) : e.cause = .timeout := by
  obtain ⟨r₀, hs, rfl⟩ := sign_start_of_new h₀ hnd
  obtain ⟨hstage, e1, e2, e3, e4, e5, _, _, hc, _, _, _, hnz⟩ := hs.eq
  have e1' : (Sign.impl sha).selfID r₀ = secret.id := e1
  have e2' : (Sign.impl sha).partyIDs r₀ = ids := e2
  obtain ⟨h₁, op, ret, h₂, s₁, r, hsplit, hh₁, hd₁, he₁, hr₁, hr₂, hreset, hcause⟩ := abort_cause (Sign.impl_stable sha) hh e he
  have hrun := (Sign.running hs hh₁).1 hd₁
  have hlt := sign_running_lt_three hrun
  cases hcause with
  | timeout _ _ h0 => exact h0
  | process ord coins l₁ l₂ k m r' e' hfull hl hfed hpr hpe =>
    exfalso
    rw [hp] at hpe
    have hready := ready (Sign.impl_stable sha) hh₁ (by rw [e2']; exact hnd) (by rw [e1', e2']; exact IDSlice.contains_sound hc) hd₁ hfull ord
    have hkm : (k, m) ∈ ord.order _ s₁.received := by rw [hl]; exact List.mem_append_right _ List.mem_cons_self
    have hnon : ∀ m', m = some m' → m'.header.fromID ≠ 0 := by
      intro m' hm'
      by_cases hn0 : s₁.roundNumber = 0
      · have := hready.first hn0 k m hkm
        rw [hm'] at this
        cases this
      · obtain ⟨m'', g1, g2, _⟩ := hready.later hn0 k m hkm
        rw [hm'] at g1
        cases g1
        have := (mem_of_ready hready).mp ⟨m, hkm⟩
        rw [e2'] at this
        rw [g2]
        exact (hnz k this.1).1
    simp only [Sign.impl] at hpr
    split at hpr
    · cases hpr
    · obtain ⟨m', _, g1, _, _, g2, _⟩ := Sign.process1_err.mp hpr
      exact hnon m' g1 (by rw [g2] at hpe; exact hpe.symm)
    · obtain ⟨m', _, _, _, g1, _, _, _, _, g2, _⟩ := Sign.process2_err.mp hpr
      exact hnon m' g1 (by rw [g2] at hpe; exact hpe.symm)
  | generate ord coins r₁ e' hfull hpl hg hpe =>
    exfalso
    have hready := ready (Sign.impl_stable sha) hh₁ (by rw [e2']; exact hnd) (by rw [e1', e2']; exact IDSlice.contains_sound hc) hd₁ hfull ord
    have hfed := fed_of_processLoop hpl
    rcases (by omega : s₁.roundNumber = 0 ∨ s₁.roundNumber = 1 ∨ s₁.roundNumber = 2) with hn | hn | hn <;> rw [hn] at hrun
    · have hrun : s₁.round = r₀ := hrun
      rw [hrun] at hfed
      have := sign_prefix0 hfed hstage
      rw [this] at hg
      simp only [Sign.impl, hstage] at hg
      exact Sign.noErr_generate0 _ _ _ hg
    · obtain ⟨_, _, _, _, _, h3⟩ := hrun
      have hst : s₁.round.stage = .r1 := by rw [h3]
      have hst' : r₁.stage = .r1 := by rw [(sign_prefix1 hfed hst).1]; exact hst
      simp only [Sign.impl, hst'] at hg
      exact Sign.noErr_generate1 _ _ _ _ hg
    · obtain ⟨d, e', l₁, D, E, parties, h1, h2, h3, h4, h5, _, h7⟩ := hrun
      rw [h7] at hpl
      rw [hn] at hready
      have hmem : r₀.selfID ∈ r₀.partyIDs := by rw [e2, e1]; exact IDSlice.contains_sound hc
      obtain ⟨z, parties', k1, k2, rfl, k4⟩ := Sign.step2 (by rw [e2]; exact hnd) hmem h5 hready hpl
      have hg : generate2 _ _ _ = _ := hg
      obtain ⟨hv, _⟩ := Sign.generate2_err.mp hg
      rw [k4] at hv
      have hgk : (round2 sha r₀ d e' D E parties').groupKey = shares.groupKey := e4
      have hmsg : (round2 sha r₀ d e' D E parties').message = message := e3
      rw [hgk, hmsg, e2, e3] at hv
      rw [e1, e2, e3, e4, e5] at k1
      rw [e2, e3, e4] at k2
      rw [e1] at h4
      obtain ⟨b, hb1, hb2⟩ := C50_verify_iff sha shares.groupKey message ⟨Spec.groupNonce sha ids message D E, (ids.map z).sum⟩
      rw [hb1] at hv
      have hb : b = false := Outcome.ok.inj hv
      have hall : ∀ id ∈ ids, z id • (base : G) =
          Spec.nonce sha ids message D E id + Spec.chal sha ids message shares.groupKey D E • Spec.weightedShare shares ids id := by
        intro id hid
        by_cases hself : id = secret.id
        · rw [hself, k1, C45_honest_share_passes sha ids message shares.groupKey D E secret.id d e' _ h4.ownD h4.ownE,
            Spec.weightedShare, hX, weight_eq, mul_smul]
          rfl
        · obtain ⟨v, hv⟩ := (mem_of_ready hready (k := id)).mpr (by rw [e1', e2']; exact ⟨hid, hself⟩)
          obtain ⟨g1, g2⟩ := k2 id v hv
          rw [g1, g2.Z, ← pubOf_eq]
      have := hb2.mpr (by
        simp only []
        rw [sum_shares hall, hsum]
        rfl)
      rw [hb] at this
      cases this

/-! ### C47 -/

/-- All messages returned by `ProcessAll` in a history. -/
def Spec.emitted (h : List (Op G × Ret G)) : List (Message G) :=
  h.flatMap fun x => match x.2 with
    | .messages out => out
    | _ => []

theorem emitted_snoc (h : List (Op G × Ret G)) (op : Op G) (out : List (Message G)) :
    Spec.emitted (h ++ [(op, .messages out)]) = Spec.emitted h ++ out := by
  simp [Spec.emitted]

theorem emitted_snoc_other (h : List (Op G × Ret G)) (x : Op G × Ret G) (hx : ∀ out, x.2 ≠ .messages out) :
    Spec.emitted (h ++ [x]) = Spec.emitted h := by
  obtain ⟨op, ret⟩ := x
  cases ret <;> simp [Spec.emitted] at hx ⊢

/-- What has been sent by the time round `n` runs. -/
def Sent (sha : Sha512) (secret : SecretShare G) (shares : Public G) (ids : IDSlice) (message : Bytes) (h : List (Op G × Ret G)) (n : Nat) :
    Prop :=
  match n with
  | 0 => Spec.emitted h = []
  | 1 => ∃ D E, Spec.emitted h = [Message.newSign1 secret.id D E] ∧
      ∃ ord coins r, (Op.processAll ord coins, r) ∈ h ∧ D = coins 0 • base ∧ E = coins 1 • base
  | 2 => ∃ D E z, Spec.emitted h = [Message.newSign1 secret.id (D secret.id) (E secret.id), Message.newSign2 secret.id z] ∧
      Spec.Commitments secret.id ids h D E ∧ z • (base : G) = Spec.nonce sha ids message D E secret.id +
        Spec.chal sha ids message shares.groupKey D E • (Spec.weight secret.id ids • secret.secret • (base : G))
  | _ => False

theorem Spec.Commitments.mono {self : ID} {ids : List ID} {h h' : List (Op G × Ret G)} {D E : ID → G} (hc : Spec.Commitments self ids h D E) :
    Spec.Commitments self ids (h ++ h') D E := by
  obtain ⟨⟨ord, coins, h1, h2, h3⟩, h4⟩ := hc
  refine ⟨⟨ord, coins, h1, h2, List.mem_append_left _ h3⟩, fun id hid hne => ?_⟩
  obtain ⟨m, k, g1, g2⟩ := h4 id hid hne
  exact ⟨m, k, List.mem_append_left _ g1, g2⟩

theorem Sent.mono {secret : SecretShare G} {shares : Public G} {ids : IDSlice} {message : Bytes} {h : List (Op G × Ret G)} {n : Nat}
    {x : Op G × Ret G} (hs : Sent sha secret shares ids message h n) (he : Spec.emitted (h ++ [x]) = Spec.emitted h) :
    Sent sha secret shares ids message (h ++ [x]) n := by
  match n, hs with
  | 0, hs => exact he.trans hs
  | 1, ⟨D, E, hs, ord, coins, r, h1, h2⟩ => exact ⟨D, E, he.trans hs, ord, coins, r, List.mem_append_left _ h1, h2⟩
  | 2, ⟨D, E, z, h1, h2, h3⟩ => exact ⟨D, E, z, he.trans h1, h2.mono, h3⟩

theorem mem_emitted {h : List (Op G × Ret G)} {op : Op G} {out : List (Message G)} {m : Message G} (h1 : (op, Ret.messages out) ∈ h)
    (h2 : m ∈ out) : m ∈ Spec.emitted h :=
  List.mem_flatMap.mpr ⟨_, h1, h2⟩

theorem sent (secret : SecretShare G) (shares : Public G) (ids : IDSlice) (message : Bytes) (timeout now : Nat)
    (r₀ : Sign.Round G) (hs : Sign.Start r₀ secret shares ids message)
    {h : List (Op G × Ret G)} {s : State G (Sign.Round G)} (hh : Hist (Sign.impl sha) (newBaseState (Sign.impl sha) r₀ timeout now) h s) :
    ∃ n, Sent sha secret shares ids message h n ∧ (s.done = false → n = s.roundNumber) := by
  obtain ⟨hstage, e1, e2, e3, e4, e5, _, _, hc, _, _, _, hnz⟩ := hs.eq
  induction hh with
  | nil => exact ⟨0, rfl, fun _ => rfl⟩
  | @snoc h s₁ s₂ op ret h1 hstep ih =>
    obtain ⟨n, ih1, ih2⟩ := ih
    have hrun₂ := (Sign.running hs (h1.snoc hstep)).1
    rcases step_cases hstep with ⟨m, e, rfl, rfl, h2⟩ | ⟨ord, coins, out, rfl, rfl, h2⟩ | ⟨dt, rfl, rfl, rfl⟩ |
      ⟨rfl, rfl, rfl | ⟨t, _, _, rfl⟩⟩ | ⟨rfl, rfl, ⟨_, rfl⟩ | ⟨_, _, rfl⟩ | ⟨r, _, _, _, _, rfl⟩⟩
    · refine ⟨n, ih1.mono (emitted_snoc_other _ _ (by simp)), ?_⟩
      cases handle_cases _ h2 <;> exact ih2
    · cases h2 with
      | idle => exact ⟨n, ih1.mono (by rw [emitted_snoc]; simp), ih2⟩
      | processErr | generateErr => exact ⟨n, ih1.mono (by rw [emitted_snoc]; simp), fun h => (nomatch h)⟩
      | last t types r₁ r r' _ hd hf hpl hg ht hn hr =>
        refine ⟨n, ih1.mono ?_, fun h => (nomatch h)⟩
        suffices out = [] by rw [emitted_snoc, this]; simp
        simp only [Sign.impl] at hg hn
        split at hg
        · rename_i hst
          obtain ⟨_, _, rfl, _⟩ := Sign.generate0_ok.mp hg
          simp [hst] at hn
        · rename_i hst
          obtain ⟨_, _, _, _, rfl, _⟩ := Sign.generate1_ok_fields hg
          simp [hst] at hn
        · exact (Sign.generate2_ok.mp hg).2.2.2
      | next t types r₁ r r' _ hd hf hpl hg ht hn =>
        refine ⟨n + 1, ?_, fun _ => by rw [ih2 hd]⟩
        have hrun := (Sign.running hs h1).1 hd
        have hlt := sign_running_lt_three hrun
        have hfed := fed_of_processLoop hpl
        have hn' := ih2 hd
        have hrun₂ := hrun₂ hd
        rcases (by omega : s₁.roundNumber = 0 ∨ s₁.roundNumber = 1 ∨ s₁.roundNumber = 2) with hk | hk | hk <;> rw [hk] at hrun hn' <;> subst hn'
        · have hrun : s₁.round = r₀ := hrun
          rw [hrun] at hfed
          rw [sign_prefix0 hfed hstage] at hg
          simp only [Sign.impl, hstage] at hg
          obtain ⟨_, _, _, rfl⟩ := Sign.generate0_ok.mp hg
          refine ⟨coins 0 • base, coins 1 • base, ?_, ord, coins, _, List.mem_append_right _ List.mem_cons_self, rfl, rfl⟩
          rw [emitted_snoc, show Spec.emitted h = [] from ih1, e1]
          rfl
        · obtain ⟨_, _, _, _, _, h3⟩ := hrun
          have hst : s₁.round.stage = .r1 := by rw [h3]
          have hst' : r₁.stage = .r1 := by rw [(sign_prefix1 hfed hst).1]; exact hst
          simp only [Sign.impl, hst'] at hg
          obtain ⟨_, _, _, z, _, rfl⟩ := Sign.generate1_ok_fields hg
          have hself : r₁.selfID = secret.id := by
            rw [(sign_prefix1 hfed hst).1, h3]; exact e1
          rw [hself] at hrun₂ ⊢
          obtain ⟨D₀, E₀, ih1, _⟩ := ih1
          have hrun₂ : Sign.Running sha r₀ (pubOf shares ids) (s₁.roundNumber + 1) _ _ := hrun₂
          rw [hk] at hrun₂
          obtain ⟨d, e, l₁, D, E, parties, g1, g2, g3, g4, g5, ⟨ord', coins', g6⟩, g7⟩ := hrun₂
          have hcom := commitments_of e1 e2 g1 g2 g3 g4
          have hem : Spec.emitted (h ++ [(Op.processAll ord coins, Ret.messages [Message.newSign2 secret.id z])]) =
              [Message.newSign1 secret.id D₀ E₀, Message.newSign2 secret.id z] := by rw [emitted_snoc, ih1]; rfl
          have hz := mem_emitted g6 List.mem_cons_self
          rw [hem] at hz
          have hD : (D₀ = D secret.id ∧ E₀ = E secret.id) := by
            obtain ⟨⟨ord'', coins'', _, _, g8⟩, _⟩ := hcom
            have := mem_emitted g8 List.mem_cons_self
            rw [hem] at this
            simp [Message.newSign1, Message.newSign2] at this
            exact ⟨this.1.symm, this.2.symm⟩
          rw [hD.1, hD.2] at hem
          refine ⟨D, E, z, hem, hcom, ?_⟩
          have hz' : z = Spec.respond sha ids message shares.groupKey D E secret.id d e (ID.lagrangeVal secret.id ids * secret.secret) := by
            rw [e1, e2, e3, e4, e5] at hz
            simp [Message.newSign1, Message.newSign2] at hz
            exact hz.symm
          rw [e1] at g4
          rw [hz', weight_eq, smul_smul (ID.lagrangeVal _ _)]
          exact C45_honest_share_passes sha ids message shares.groupKey D E secret.id d e _ g4.ownD g4.ownE
        · exfalso
          have hrun₂ : Sign.Running sha r₀ (pubOf shares ids) (s₁.roundNumber + 1) _ _ := hrun₂
          have := sign_running_lt_three hrun₂
          omega
    all_goals first
      | exact ⟨n, ih1.mono (emitted_snoc_other _ _ (by simp)), ih2⟩
      | exact ⟨n, ih1.mono (emitted_snoc_other _ _ (by simp)), fun h => (nomatch h)⟩

/-- In its whole lifetime a signing session sends nothing, or one `Sign1` message, or one `Sign1` and then one `Sign2` message. -/
theorem C47_at_most_one_share (secret : SecretShare G) (shares : Public G) (ids : IDSlice) (message : Bytes) (timeout now : Nat)
    (s₀ : State G (Sign.Round G)) (h₀ : newSignState sha ids secret shares message timeout now = .ok s₀) (hnd : ids.Nodup)
    {h : List (Op G × Ret G)} {s : State G (Sign.Round G)} (hh : Hist (Sign.impl sha) s₀ h s) :
    Spec.emitted h = [] ∨ (∃ D E, Spec.emitted h = [Message.newSign1 secret.id D E]) ∨
      ∃ D E z, Spec.emitted h = [Message.newSign1 secret.id D E, Message.newSign2 secret.id z] := by
  obtain ⟨r₀, hs, rfl⟩ := sign_start_of_new h₀ hnd
  obtain ⟨n, h1, _⟩ := sent secret shares ids message timeout now r₀ hs hh
  match n, h1 with
  | 0, h1 => exact Or.inl h1
  | 1, ⟨D, E, h1, _⟩ => exact Or.inr (Or.inl ⟨D, E, h1⟩)
  | 2, ⟨D, E, z, h1, _⟩ => exact Or.inr (Or.inr ⟨_, _, z, h1⟩)

/-- The share sent by a session satisfies the equation the others check, for the commitments the session received, if its secret
share matches its public share. -/
theorem C45_sent_share_valid (secret : SecretShare G) (shares : Public G) (ids : IDSlice) (message : Bytes) (timeout now : Nat)
    (s₀ : State G (Sign.Round G)) (h₀ : newSignState sha ids secret shares message timeout now = .ok s₀) (hnd : ids.Nodup)
    (hX : shares.shares.get? secret.id = some (secret.secret • base))
    {h : List (Op G × Ret G)} {s : State G (Sign.Round G)} (hh : Hist (Sign.impl sha) s₀ h s) (m : Message G) (z : Sign2)
    (hm : m ∈ Spec.emitted h) (hz : m.sign2 = some z) :
    m = Message.newSign2 secret.id z.Zi ∧ ∃ D E, Spec.Commitments secret.id ids h D E ∧ z.Zi • (base : G) =
      Spec.nonce sha ids message D E secret.id + Spec.chal sha ids message shares.groupKey D E • Spec.weightedShare shares ids secret.id := by
  obtain ⟨r₀, hs, rfl⟩ := sign_start_of_new h₀ hnd
  obtain ⟨n, h1, _⟩ := sent secret shares ids message timeout now r₀ hs hh
  match n, h1 with
  | 0, h1 =>
    rw [show Spec.emitted h = [] from h1] at hm
    cases hm
  | 1, ⟨D, E, h1, _⟩ =>
    rw [h1] at hm
    rw [List.mem_singleton] at hm
    rw [hm] at hz
    cases hz
  | 2, ⟨D, E, z', h1, h2, h3⟩ =>
    rw [h1] at hm
    simp only [List.mem_cons, List.not_mem_nil, or_false] at hm
    rcases hm with rfl | rfl
    · cases hz
    · cases hz
      refine ⟨rfl, D, E, h2, ?_⟩
      rw [Spec.weightedShare, hX]
      exact h3

theorem nonce_congr {ids : List ID} {message : Bytes} {D E D' E' : ID → G} (h : ∀ id ∈ ids, D id = D' id ∧ E id = E' id) :
    Spec.commitmentList ids D E = Spec.commitmentList ids D' E' := by
  unfold Spec.commitmentList
  rw [List.flatMap_congr]
  intro id hid
  rw [(h id hid).1, (h id hid).2]

/-- An honest signer is never blamed for its share: if two honest sessions (of signers `a` and `b`, for the same key, message and
signers) have seen the same commitments, then the share sent by `a` is accepted by `b`. -/
theorem C45_honest_share_accepted (a b : SecretShare G) (shares : Public G) (ids : IDSlice) (message : Bytes)
    (ta na tb nb : Nat) (sa sb : State G (Sign.Round G)) (hsa : newSignState sha ids a shares message ta na = .ok sa)
    (hsb : newSignState sha ids b shares message tb nb = .ok sb) (hnd : ids.Nodup)
    (hX : shares.shares.get? a.id = some (a.secret • base))
    {ha hb : List (Op G × Ret G)} {sa' sb' : State G (Sign.Round G)} (hha : Hist (Sign.impl sha) sa ha sa')
    (hhb : Hist (Sign.impl sha) sb hb sb')
    (hsame : ∀ D E D' E', Spec.Commitments a.id ids ha D E → Spec.Commitments b.id ids hb D' E' → ∀ id ∈ ids, D id = D' id ∧ E id = E' id)
    (m : Message G) (z : Sign2) (hm : m ∈ Spec.emitted ha) (hz : m.sign2 = some z) (hd : sb'.done = false) (hn : sb'.roundNumber = 2)
    (msgs : List (Option (Message G))) (r : Sign.Round G) (hfed : Spec.Fed (Sign.impl sha).processMessage sb'.round msgs r) :
    ∃ r', (Sign.impl sha).processMessage r (some m) = .ok r' := by
  obtain ⟨hmeq, D, E, h1, h2⟩ := C45_sent_share_valid a shares ids message ta na sa hsa hnd hX hha m z hm hz
  obtain ⟨D', E', h3, h4⟩ := C45_share_accepted_iff b shares ids message tb nb sb hsb hnd hhb hd hn
  have hmem := (C42_accepted a shares ids message ta na sa hsa).1
  have hfrom : m.header.fromID = a.id := by rw [hmeq]; rfl
  refine (h4 msgs r hfed m z (by rw [hfrom]; exact hmem) hz).1 ?_
  have hag := hsame D E D' E' h1 h3
  have hrho : ∀ id, Spec.rho sha ids message D E id = Spec.rho sha ids message D' E' id := by
    intro id
    unfold Spec.rho
    rw [nonce_congr (message := message) hag]
  have hnon : ∀ id ∈ ids, Spec.nonce sha ids message D E id = Spec.nonce sha ids message D' E' id := by
    intro id hid
    unfold Spec.nonce
    rw [hrho, (hag id hid).1, (hag id hid).2]
  have hgn : Spec.groupNonce sha ids message D E = Spec.groupNonce sha ids message D' E' := by
    unfold Spec.groupNonce
    rw [List.map_congr_left hnon]
  rw [h2, hfrom, hnon a.id hmem]
  unfold Spec.chal
  rw [hgn]

/-! ### C30 -/

/-- When signing aborts blaming somebody, that is another signer, from whom a message was accepted that fails the check of the
reported round: in round 1 a commitment is the identity, in round 2 the share does not satisfy its equation.  The reported round is
the one that was being processed, in which the session ended. -/
theorem C30_sign_blame (secret : SecretShare G) (shares : Public G) (ids : IDSlice) (message : Bytes) (timeout now : Nat)
    (s₀ : State G (Sign.Round G)) (h₀ : newSignState sha ids secret shares message timeout now = .ok s₀) (hnd : ids.Nodup)
    {h : List (Op G × Ret G)} {s : State G (Sign.Round G)} (hh : Hist (Sign.impl sha) s₀ h s) (e : StateErr) (he : s.err = some e)
    (hne : e.partyID ≠ 0) :
    e.partyID ∈ ids ∧ e.partyID ≠ secret.id ∧ e.roundNumber = s.roundNumber ∧
      ((e.roundNumber = 1 ∧ ∃ m k, (Op.handle m, Ret.handled none) ∈ h ∧ Spec.ForUs secret.id ids m ∧
          m.header.fromID = e.partyID ∧ m.header.type = 3 ∧ m.sign1 = some k ∧ (k.Di = 0 ∨ k.Ei = 0)) ∨
       (e.roundNumber = 2 ∧ ∃ D E z, Spec.Commitments secret.id ids h D E ∧ Spec.GotSigShare secret.id ids h e.partyID z ∧
          z • (base : G) ≠ Spec.nonce sha ids message D E e.partyID +
            Spec.chal sha ids message shares.groupKey D E • Spec.weightedShare shares ids e.partyID)) := by
  obtain ⟨r₀, hs, rfl⟩ := sign_start_of_new h₀ hnd
  obtain ⟨hstage, e1, e2, e3, e4, e5, _, _, hc, _, _, _, hnz⟩ := hs.eq
  have e1' : (Sign.impl sha).selfID r₀ = secret.id := e1
  have e2' : (Sign.impl sha).partyIDs r₀ = ids := e2
  obtain ⟨h₁, op, ret, h₂, s₁, r, hsplit, hh₁, hd₁, he₁, hr₁, hr₂, hreset, hcause⟩ := abort_cause (Sign.impl_stable sha) hh e he
  have hmono : ∀ {x}, x ∈ h₁ → x ∈ h := fun hx => hsplit ▸ List.mem_append_left _ hx
  have hrun := (Sign.running hs hh₁).1 hd₁
  have hlt := sign_running_lt_three hrun
  cases hcause with
  | timeout _ h0 => exact absurd h0 hne
  | generate ord coins r₁ e' _ _ hg hpe =>
    exfalso
    simp only [Sign.impl] at hg
    split at hg
    · exact Sign.noErr_generate0 _ _ _ hg
    · exact Sign.noErr_generate1 _ _ _ _ hg
    · obtain ⟨_, g2, _⟩ := Sign.generate2_err.mp hg
      rw [g2] at hpe
      exact hne hpe
  | process ord coins l₁ l₂ k m r' e' hfull hl hfed hp hpe =>
    have hready := ready (Sign.impl_stable sha) hh₁ (by rw [e2']; exact hnd) (by rw [e1', e2']; exact IDSlice.contains_sound hc) hd₁ hfull ord
    have hkm : (k, m) ∈ ord.order _ s₁.received := by rw [hl]; exact List.mem_append_right _ List.mem_cons_self
    by_cases hn0 : s₁.roundNumber = 0
    · exfalso
      rw [hn0] at hrun
      have hrun : s₁.round = r₀ := hrun
      rw [hrun] at hfed
      have := sign_prefix0 hfed hstage
      rw [this] at hp
      simp only [Sign.impl, hstage] at hp
      cases hp
    · obtain ⟨msg, rfl, hfrom, hty, hhand, hfor⟩ := hready.later hn0 k m hkm
      rw [e1', e2'] at hfor
      have hty : [MsgType.none, MsgType.sign1, MsgType.sign2][s₁.roundNumber]? = some msg.header.type := hty
      rcases (by omega : s₁.roundNumber = 1 ∨ s₁.roundNumber = 2) with hn | hn
      · rw [hn] at hrun hty
        obtain ⟨_, _, _, _, _, hround⟩ := hrun
        have hst : s₁.round.stage = .r1 := by rw [hround]
        have hst' : r'.stage = .r1 := by rw [(sign_prefix1 hfed hst).1]; exact hst
        simp only [Sign.impl, hst'] at hp
        obtain ⟨m', kg, hm', hk, hz, rfl, rfl⟩ := Sign.process1_err.mp hp
        cases hm'
        have hpid : e.partyID = msg.header.fromID := hpe
        exact ⟨hpid ▸ hfor.2.1, hpid ▸ hfor.1, by rw [hr₁, hr₂], Or.inl ⟨by rw [hr₁, hn], msg, kg, hmono hhand, hfor, hpid.symm,
          (Option.some.inj hty).symm, hk, hz⟩⟩
      · obtain ⟨D, E, hcom, hchk⟩ := C45_share_accepted_iff secret shares ids message timeout now _ h₀ hnd hh₁ hd₁ hn
        rw [hn] at hrun hty
        obtain ⟨_, _, _, _, _, _, _, _, _, _, _, _, hround⟩ := hrun
        have hst : s₁.round.stage = .r2 := by rw [hround]; rfl
        have hst' : r'.stage = .r2 := by rw [(sign_prefix2 hfed hst).1]; exact hst
        have hp0 := hp
        simp only [Sign.impl, hst'] at hp
        obtain ⟨m', kg, p, Ri, hm', _, hk, _, _, rfl, rfl⟩ := Sign.process2_err.mp hp
        cases hm'
        have hpid : e.partyID = msg.header.fromID := hpe
        refine ⟨hpid ▸ hfor.2.1, hpid ▸ hfor.1, by rw [hr₁, hr₂], Or.inr ⟨by rw [hr₁, hn], D, E, kg.Zi, ?_, ?_, ?_⟩⟩
        · rw [hsplit]; exact hcom.mono
        · exact ⟨msg, kg, hmono hhand, hfor, hpid.symm, (Option.some.inj hty).symm, hk, rfl⟩
        · intro hok
          rw [hpid] at hok
          obtain ⟨r'', hr''⟩ := (hchk _ _ hfed msg kg hfor.2.1 hk).1 hok
          rw [hr''] at hp0
          cases hp0

/-! ### C66 and C33 -/

/-- When a signing session has ended, for whatever reason, the nonces and the secret key share are zero. -/
theorem C66_sign_wiped (secret : SecretShare G) (shares : Public G) (ids : IDSlice) (message : Bytes) (timeout now : Nat)
    (s₀ : State G (Sign.Round G)) (h₀ : newSignState sha ids secret shares message timeout now = .ok s₀)
    {h : List (Op G × Ret G)} {s : State G (Sign.Round G)} (hh : Hist (Sign.impl sha) s₀ h s) (hd : s.done = true) :
    s.round.secretKeyShare = 0 ∧ s.round.d = 0 ∧ s.round.e = 0 ∧ s.round.parties = [] ∧ s.round.message = [] := by
  obtain ⟨r₀, _, rfl⟩ := newSignState_ok.mp h₀
  have hz : ∀ r r' : Sign.Round G, (Sign.impl sha).reset r = some r' →
      r'.secretKeyShare = 0 ∧ r'.d = 0 ∧ r'.e = 0 ∧ r'.parties = [] ∧ r'.message = [] := by
    intro r r' h
    have h : Sign.reset r = some r' := h
    cases h
    exact ⟨rfl, rfl, rfl, rfl, rfl⟩
  induction hh with
  | nil => cases hd
  | @snoc h s₁ s₂ op ret h1 hstep ih =>
    rcases step_cases hstep with ⟨m, e, rfl, rfl, h2⟩ | ⟨ord, coins, out, rfl, rfl, h2⟩ | ⟨dt, rfl, rfl, rfl⟩ |
      ⟨rfl, rfl, rfl | ⟨t, _, _, rfl⟩⟩ | ⟨rfl, rfl, ⟨_, rfl⟩ | ⟨_, _, rfl⟩ | ⟨r, _, _, _, hr, rfl⟩⟩
    · cases handle_cases _ h2 <;> exact ih hd
    · cases h2 with
      | idle => exact ih hd
      | processErr e r r' _ _ _ hr => exact hz _ _ hr
      | generateErr e r₁ r r' _ _ _ _ hr => exact hz _ _ hr
      | last t types r₁ r r' _ _ _ _ _ _ _ hr => exact hz _ _ hr
      | next t types r₁ r r' _ hd' => rw [show s₁.done = true from hd] at hd'; cases hd'
    · exact ih hd
    · exact ih hd
    · exact ih hd
    · exact ih hd
    · exact ih hd
    · exact hz _ _ hr

/-- No timeout ever crashes a signing session. -/
theorem C33_sign_timeout_safe (secret : SecretShare G) (shares : Public G) (ids : IDSlice) (message : Bytes) (timeout now : Nat)
    (s₀ : State G (Sign.Round G)) (h₀ : newSignState sha ids secret shares message timeout now = .ok s₀)
    {h : List (Op G × Ret G)} {s : State G (Sign.Round G)} (hh : Hist (Sign.impl sha) s₀ h s) :
    step (Sign.impl sha) s .callback ≠ none := by
  obtain ⟨r₀, _, rfl⟩ := newSignState_ok.mp h₀
  unfold step
  by_cases hf : s.timer.fired = 0
  · simp [hf]
  · rw [if_neg hf]
    cases hd : s.done with
    | true => simp [timeoutCallback, reportError, hd]
    | false =>
      have hcl : s.closed = false := by rw [(inv_hist (Sign.impl_stable sha) hh).closed, hd]
      unfold timeoutCallback
      rw [reportError_ok (Sign.impl sha) (s := { s with timer := { s.timer with fired := s.timer.fired - 1 } }) hd (show Sign.reset s.round = some _ from rfl) hcl]
      simp

end Verif.Props
