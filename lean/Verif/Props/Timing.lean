import Verif.Lemmas.Timing
import Verif.Props.SignBlame
import Verif.Props.Keygen

/-!
C99: which arguments the calls with a variable running time get.
-/

namespace Verif.Props

open Verif State Outcome

variable {G : Type} [RGroup G] {sha : Sha512}

/-! ### The functions with the log return what the functions without it return -/

theorem timed_lift_result {α : Type} (r : Keygen.Round G) (x : Timed G GoErr α) : (Timed.lift r x).result = Keygen.lift r x.result := by
  unfold Timed.lift Keygen.lift
  cases x.result <;> rfl

theorem timed_ite_result {ε α : Type} (c : Prop) [Decidable c] (x y : Timed G ε α) :
    (if c then x else y).result = if c then x.result else y.result := by
  split <;> rfl

theorem evaluateTimed_result (p : Exponent G) (x : Scalar) : (Exponent.evaluateTimed p x).result = Exponent.evaluate p x := by
  unfold Exponent.evaluateTimed Exponent.evaluate Exponent.evaluateVar
  rw [timed_ite_result, Timed.multi_result]
  rfl

theorem evaluateMultiTimed_result (p : Exponent G) (ids : List ID) (m : GoMap G) :
    (Exponent.evaluateMultiTimed p ids m).result = Exponent.evaluateMulti p ids m := by
  induction ids generalizing m with
  | nil => rfl
  | cons id ids ih =>
    unfold Exponent.evaluateMultiTimed Exponent.evaluateMulti
    simp only [Timed.bind_result, Timed.of_result, evaluateTimed_result, ih]

theorem schnorr_verifyTimed_result (proof : Schnorr) (id : ID) (pub : G) (context : Bytes) :
    (Schnorr.verifyTimed sha proof id pub context).result = Schnorr.verify sha proof id pub context := by
  unfold Schnorr.verifyTimed Schnorr.verify
  simp only [Timed.bind_result, Timed.of_result, Timed.pure_result, Timed.double]
  rfl

theorem publicKey_verifyTimed_result (pk : G) (message : Bytes) (sig : Signature G) :
    (PublicKey.verifyTimed sha pk message sig).result = PublicKey.verify sha pk message sig := by
  unfold PublicKey.verifyTimed PublicKey.verify
  simp only [Timed.bind_result, Timed.of_result, Timed.pure_result, Timed.double]
  rfl

theorem keygen_process1Timed_result (r : Keygen.Round G) (msg : Option (Message G)) :
    (Keygen.process1Timed sha r msg).result = Keygen.process1 sha r msg := by
  unfold Keygen.process1Timed Keygen.process1
  simp only [Timed.bind_result, Timed.of_result, timed_lift_result, schnorr_verifyTimed_result, timed_ite_result, Timed.pure_result]
  rfl

theorem keygen_process2Timed_result (r : Keygen.Round G) (msg : Option (Message G)) :
    (Keygen.process2Timed r msg).result = Keygen.process2 r msg := by
  unfold Keygen.process2Timed Keygen.process2
  simp only [Timed.bind_result, Timed.of_result, timed_lift_result, evaluateTimed_result, timed_ite_result, Timed.pure_result]
  rfl

theorem keygen_generate2Timed_result (r : Keygen.Round G) : (Keygen.generate2Timed r).result = Keygen.generate2 r := by
  unfold Keygen.generate2Timed Keygen.generate2
  simp only [Timed.bind_result, Timed.of_result, timed_lift_result, evaluateMultiTimed_result, timed_ite_result, Timed.pure_result]
  rfl

theorem sign_process2Timed_result (r : Sign.Round G) (msg : Option (Message G)) : (Sign.process2Timed r msg).result = Sign.process2 r msg := by
  unfold Sign.process2Timed Sign.process2
  simp only [Timed.bind_result, Timed.of_result, timed_ite_result, Timed.pure_result, Timed.double]
  rfl

theorem sign_generate2Timed_result (ord : MapOrder) (r : Sign.Round G) :
    (Sign.generate2Timed sha ord r).result = Sign.generate2 sha ord r := by
  unfold Sign.generate2Timed Sign.generate2
  simp only [Timed.bind_result, Timed.of_result, timed_ite_result, Timed.pure_result, Timed.lift, publicKey_verifyTimed_result]
  cases PublicKey.verify sha r.groupKey r.message ⟨r.R, (ord.order _ r.parties).foldl (fun S p => S + p.2.Zi) 0⟩ with
  | ok b => cases b <;> rfl
  | err e => rfl
  | panic => rfl

/-- `ProcessMessage` of the rounds of key generation, with the log. -/
def keygenP (sha : Sha512) (r : Keygen.Round G) (msg : Option (Message G)) : Timed G (StateErr × Keygen.Round G) (Keygen.Round G) :=
  match r.stage with
  | .r0 => .of (.ok r)
  | .r1 => Keygen.process1Timed sha r msg
  | .r2 => Keygen.process2Timed r msg

/-- `GenerateMessages` of the rounds of key generation, with the log. -/
def keygenG (sha : Sha512) (_ : MapOrder) (coins : Coins) (r : Keygen.Round G) :
    Timed G (StateErr × Keygen.Round G) (Keygen.Round G × List (Message G)) :=
  match r.stage with
  | .r0 => .of (Keygen.generate0 sha coins r)
  | .r1 => .of (Keygen.generate1 r)
  | .r2 => Keygen.generate2Timed r

/-- `ProcessMessage` of the rounds of signing, with the log. -/
def signP (r : Sign.Round G) (msg : Option (Message G)) : Timed G (StateErr × Sign.Round G) (Sign.Round G) :=
  match r.stage with
  | .r0 => .of (.ok r)
  | .r1 => .of (Sign.process1 r msg)
  | .r2 => Sign.process2Timed r msg

/-- `GenerateMessages` of the rounds of signing, with the log. -/
def signG (sha : Sha512) (ord : MapOrder) (coins : Coins) (r : Sign.Round G) :
    Timed G (StateErr × Sign.Round G) (Sign.Round G × List (Message G)) :=
  match r.stage with
  | .r0 => .of (Sign.generate0 coins r)
  | .r1 => .of (Sign.generate1 sha ord r)
  | .r2 => Sign.generate2Timed sha ord r

theorem keygen_timedImpl : (Keygen.timedImpl sha : RoundImpl G _) = Timed.impl (Keygen.impl sha) (keygenP sha) (keygenG sha) := rfl

theorem sign_timedImpl : (Sign.timedImpl sha : RoundImpl G _) = Timed.impl (Sign.impl sha) signP (signG sha) := rfl

theorem keygenP_result (r : Keygen.Round G) (m : Option (Message G)) : (keygenP sha r m).result = (Keygen.impl sha).processMessage r m := by
  simp only [keygenP, Keygen.impl]
  cases r.stage
  · rfl
  · exact keygen_process1Timed_result r m
  · exact keygen_process2Timed_result r m

theorem keygenG_result (ord : MapOrder) (coins : Coins) (r : Keygen.Round G) :
    (keygenG sha ord coins r).result = (Keygen.impl sha).generateMessages ord coins r := by
  simp only [keygenG, Keygen.impl]
  cases r.stage
  · rfl
  · rfl
  · exact keygen_generate2Timed_result r

theorem signP_result (r : Sign.Round G) (m : Option (Message G)) : (signP r m).result = (Sign.impl sha).processMessage r m := by
  simp only [signP, Sign.impl]
  cases r.stage
  · rfl
  · rfl
  · exact sign_process2Timed_result r m

theorem signG_result (ord : MapOrder) (coins : Coins) (r : Sign.Round G) :
    (signG sha ord coins r).result = (Sign.impl sha).generateMessages ord coins r := by
  simp only [signG, Sign.impl]
  cases r.stage
  · rfl
  · rfl
  · exact sign_generate2Timed_result ord r

/-- A session with the log and the session without it have the same histories: every operation returns the same, and the states differ only in
the log. -/
theorem C99_log_is_faithful (sha : Sha512) (r₀ : Sign.Round G) (q₀ : Keygen.Round G) (timeout now : Nat) (h : List (Op G × Ret G)) :
    (∀ s, Hist (Sign.impl sha) (newBaseState (Sign.impl sha) r₀ timeout now) h s ↔
      ∃ s', Hist (Sign.timedImpl sha) (newBaseState (Sign.timedImpl sha) (r₀, []) timeout now) h s' ∧ Timed.erase s' = s) ∧
    ∀ s, Hist (Keygen.impl sha) (newBaseState (Keygen.impl sha) q₀ timeout now) h s ↔
      ∃ s', Hist (Keygen.timedImpl sha) (newBaseState (Keygen.timedImpl sha) (q₀, []) timeout now) h s' ∧ Timed.erase s' = s := by
  constructor <;> intro s <;> constructor
  · exact fun hh => Timed.hist_log (p := signP) (g := signG sha) signP_result signG_result hh
  · rintro ⟨s', h1, rfl⟩
    exact Timed.hist_erase (p := signP) (g := signG sha) signP_result signG_result h1
  · exact fun hh => Timed.hist_log (p := keygenP sha) (g := keygenG sha) keygenP_result keygenG_result hh
  · rintro ⟨s', h1, rfl⟩
    exact Timed.hist_erase (p := keygenP sha) (g := keygenG sha) keygenP_result keygenG_result h1

/-! ### Signing -/

/-- The calls a signer may make: their arguments are computed from the commitments `D`, `E` sent by all signers, from the public key shares, the
list of signers and the message, and from the signature shares `z` sent by all signers. -/
inductive Spec.SignCall (sha : Sha512) (self : ID) (shares : Public G) (ids : List ID) (message : Bytes) (h : List (Op G × Ret G)) (D E : ID → G) :
    VarTime G → Prop
  | share (id : ID) (z : Scalar) (hid : id ∈ ids) (hne : id ≠ self) (hz : Spec.GotSigShare self ids h id z) :
      SignCall sha self shares ids message h D E
        (.double (Spec.chal sha ids message shares.groupKey D E) (-Spec.weightedShare shares ids id) z)
  | signature (z : ID → Scalar) (hz : ∀ id ∈ ids, id ≠ self → Spec.GotSigShare self ids h id (z id))
      (hown : Message.newSign2 self (z self) ∈ Spec.emitted h) :
      SignCall sha self shares ids message h D E (.double (Spec.chal sha ids message shares.groupKey D E) (-shares.groupKey) (ids.map z).sum)

theorem Spec.GotSigShare.mono {self : ID} {ids : List ID} {h h' : List (Op G × Ret G)} {id : ID} {z : Scalar}
    (hg : Spec.GotSigShare self ids h id z) : Spec.GotSigShare self ids (h ++ h') id z := by
  obtain ⟨m, k, h1, h2⟩ := hg
  exact ⟨m, k, List.mem_append_left _ h1, h2⟩

theorem gotSigShare_of_ready {r₀ : Sign.Round G} {self : ID} {ids : IDSlice} (e1 : r₀.selfID = self) (e2 : r₀.partyIDs = ids)
    {h : List (Op G × Ret G)} {l : List (ID × Option (Message G))} (hr : Ready (Sign.impl sha) r₀ h 2 l) {id : ID} {m : Message G} {k : Sign2}
    (hm : (id, some m) ∈ l) (hk : m.sign2 = some k) : m.header.fromID = id ∧ Spec.GotSigShare self ids h id k.Zi := by
  obtain ⟨m', k1, k2, k3, k4, k5⟩ := hr.later (by omega) id _ hm
  cases k1
  have e1' : (Sign.impl sha).selfID r₀ = self := e1
  have e2' : (Sign.impl sha).partyIDs r₀ = ids := e2
  rw [e1', e2'] at k5
  have k3 : some (4 : MsgType) = some m.header.type := k3
  exact ⟨k2, m, k, k4, k5, k2, (Option.some.inj k3).symm, hk, rfl⟩

/-- Every call with a variable running time that a signing session makes has arguments computed from public values. -/
theorem C99_sign (secret : SecretShare G) (shares : Public G) (ids : IDSlice) (message : Bytes) (timeout now : Nat)
    (r₀ : Sign.Round G) (h₀ : Sign.newRound ids secret shares message = .ok r₀) (hnd : ids.Nodup)
    {h : List (Op G × Ret G)} {s : State G (Sign.Round G × List (VarTime G))}
    (hh : Hist (Sign.timedImpl sha) (newBaseState (Sign.timedImpl sha) (r₀, []) timeout now) h s) (c : VarTime G) (hc : c ∈ s.round.2) :
    ∃ D E, Spec.Commitments secret.id ids h D E ∧ Spec.SignCall sha secret.id shares ids message h D E c := by
  have hs : Sign.Start r₀ secret shares ids message := ⟨h₀, hnd⟩
  obtain ⟨hstage, e1, e2, e3, e4, e5, _, _, hself, _⟩ := hs.eq
  have e1' : (Sign.impl sha).selfID r₀ = secret.id := e1
  have e2' : (Sign.impl sha).partyIDs r₀ = ids := e2
  obtain ⟨h₁, h₂, s₁, ord, rfl, hh₁, hd₁, hf₁, ho⟩ :=
    Timed.origin (p := signP) (g := signG sha) (pl := Sign.impl sha) signP_result signG_result hh rfl c hc
  rw [sign_timedImpl, Timed.erase_new] at hh₁
  have hready := ready (Sign.impl_stable sha) hh₁ (by rw [e2']; exact hnd) (by rw [e1', e2']; exact IDSlice.contains_sound hself) hd₁ hf₁ ord
  have hrun := (Sign.running hs hh₁).1 hd₁
  have hlt := sign_running_lt_three hrun
  rcases (by omega : s₁.roundNumber = 0 ∨ s₁.roundNumber = 1 ∨ s₁.roundNumber = 2) with hn | hn | hn <;> rw [hn] at hrun hready
  · exfalso
    have hrun : s₁.round = r₀ := hrun
    have hst : s₁.round.stage = .r0 := by rw [hrun]; exact hstage
    cases ho with
    | process l₁ l₂ k m r hl hfed hc =>
      have : r.stage = .r0 := by rw [sign_prefix0 hfed hst]; exact hst
      simp only [signP, this, Timed.of_log, List.not_mem_nil] at hc
    | generate coins r hl hc =>
      have : r.stage = .r0 := by rw [sign_prefix0 (fed_of_processLoop hl) hst]; exact hst
      simp only [signG, this, Timed.of_log, List.not_mem_nil] at hc
  · exfalso
    obtain ⟨_, _, _, _, _, h3⟩ := hrun
    have hst : s₁.round.stage = .r1 := by rw [h3]
    cases ho with
    | process l₁ l₂ k m r hl hfed hc =>
      have : r.stage = .r1 := by rw [(sign_prefix1 hfed hst).1]; exact hst
      simp only [signP, this, Timed.of_log, List.not_mem_nil] at hc
    | generate coins r hl hc =>
      have : r.stage = .r1 := by rw [(sign_prefix1 (fed_of_processLoop hl) hst).1]; exact hst
      simp only [signG, this, Timed.of_log, List.not_mem_nil] at hc
  · obtain ⟨d, e, l, D, E, parties, h1, h2, h3, h4, h5, ⟨ordₛ, coinsₛ, h6⟩, h7⟩ := hrun
    refine ⟨D, E, (commitments_of e1 e2 h1 h2 h3 h4).mono, ?_⟩
    have hst : s₁.round.stage = .r2 := by rw [h7]; rfl
    cases ho with
    | process l₁ l₂ k m r hl hfed hc =>
      obtain ⟨h8, h9⟩ := sign_prefix2 hfed hst
      have hst' : r.stage = .r2 := by rw [h8]; exact hst
      simp only [signP, hst', Sign.process2Timed, Timed.mem_bind_log, Timed.of_log, List.not_mem_nil, false_or, Timed.of_result, deref_eq_ok,
        Timed.mem_double_log] at hc
      obtain ⟨m, rfl, p, hp, z, hz, hc⟩ := hc
      have hC : r.C = Spec.chal sha ids message shares.groupKey D E := by
        rw [h8]
        show s₁.round.C = _
        rw [h7]
        simp only [Sign.round2, e2, e3, e4]
      obtain ⟨hfrom, hgot⟩ := gotSigShare_of_ready e1 e2 hready (by rw [hl]; exact List.mem_append_right _ List.mem_cons_self) hz
      have hin := (Sign.mem_of_ready hready (k := k)).mp ⟨some m, by rw [hl]; exact List.mem_append_right _ List.mem_cons_self⟩
      rw [e1', e2'] at hin
      rcases hc with hc | ⟨_, _, _, _, hc⟩
      · have hp' := h9 m.header.fromID
        rw [hp, h7] at hp'
        simp only [Sign.round2] at hp'
        rw [h5.get m.header.fromID (by rw [e2, hfrom]; exact hin.1)] at hp'
        obtain ⟨hpub, _⟩ := Prod.mk.inj (Option.some.inj hp')
        have hpub : p.pub = Spec.weightedShare shares ids k := by rw [hpub, ← pubOf_eq, hfrom]; rfl
        rw [hc, hC, hpub]
        exact .share k z.Zi hin.1 hin.2 hgot.mono
      · exfalso
        split at hc
        · cases hc
        · cases hc
    | generate coins r hl hc =>
      rw [h7] at hl
      have hmem : r₀.selfID ∈ r₀.partyIDs := by rw [e2, e1]; exact IDSlice.contains_sound hself
      obtain ⟨z, parties', k1, k2, rfl, k4⟩ := Sign.step2 (by rw [e2]; exact hnd) hmem h5 hready hl
      have hsum : (⟨(Sign.round2 sha r₀ d e D E parties').R, (ord.order _ (Sign.round2 sha r₀ d e D E parties').parties).foldl (fun S p => S + p.2.Zi) 0⟩ : Signature G) =
          ⟨Spec.groupNonce sha r₀.partyIDs r₀.message D E, (r₀.partyIDs.map z).sum⟩ := by
        rw [← k4, Sign.foldl_Zi, zero_add]
        simp only [Sign.finalSig]
        congr 1
        exact ((ord.perm _ _).map _).sum_eq
      have hst' : (Sign.round2 sha r₀ d e D E parties').stage = .r2 := rfl
      simp only [signG, hst', Sign.generate2Timed] at hc
      rw [hsum] at hc
      simp only [Timed.mem_bind_log, Timed.lift_log, PublicKey.verifyTimed, Timed.of_log, List.not_mem_nil, false_or, Timed.mem_double_log,
        Timed.of_result, Timed.pure_log, and_false, exists_false, or_false] at hc
      rcases hc with ⟨ch, hch, hc⟩ | ⟨_, _, hc⟩
      · have hgk : (Sign.round2 sha r₀ d e D E parties').groupKey = shares.groupKey := e4
        have hmsg : (Sign.round2 sha r₀ d e D E parties').message = message := e3
        rw [hgk, hmsg, e2, e3] at hch
        have hch : ch = Spec.chal sha ids message shares.groupKey D E := by
          rw [computeChallenge_eq] at hch
          exact (Outcome.ok.inj hch).symm
        rw [hc, hgk, hch, e2]
        refine .signature z (fun id hid hne => ?_) ?_
        · obtain ⟨v, hv⟩ := (Sign.mem_of_ready hready (k := id)).mpr (by rw [e1', e2']; exact ⟨hid, hne⟩)
          obtain ⟨g1, m, k, rfl, g2, _⟩ := k2 id v hv
          obtain ⟨_, hgot⟩ := gotSigShare_of_ready e1 e2 hready hv g2
          rw [g1, show Sign.ZOf (some m) = k.Zi from by simp [Sign.ZOf, g2]]
          exact hgot.mono
        · rw [← k1, e1] at h6
          exact mem_emitted (List.mem_append_left _ h6) List.mem_cons_self
      · exfalso
        split at hc
        · cases hc
        · split at hc
          · cases hc
          · cases hc

/-! ### Key generation -/

/-- The lists of points that everybody can compute: the commitments in the messages this party sent, those in the messages it accepted, and sums of
such lists. -/
inductive Spec.PublicList (self : ID) (ids : List ID) (h : List (Op G × Ret G)) : List G → Prop
  | own (m : Message G) (k : KeyGen1 G) (hm : m ∈ Spec.emitted h) (hk : m.keyGen1 = some k) : PublicList self ids h k.commitments
  | got (id : ID) (c : List G) (hc : Spec.GotCommitments self ids h id c) : PublicList self ids h c
  | add (a b : List G) (ha : PublicList self ids h a) (hb : PublicList self ids h b) (hl : a.length = b.length) :
      PublicList self ids h (List.zipWith (· + ·) a b)

/-- The calls a party may make in key generation: their arguments are computed from broadcast messages and from the identifiers of the parties. -/
inductive Spec.KeygenCall (self : ID) (ids : List ID) (h : List (Op G × Ret G)) : VarTime G → Prop
  | proof (m : Message G) (k : KeyGen1 G) (a : G) (hm : (Op.handle m, Ret.handled none) ∈ h) (hus : Spec.ForUs self ids m) (ht : m.header.type = 1)
      (hk : m.keyGen1 = some k) (ha : k.commitments[0]? = some a) : KeygenCall self ids h (.double k.proof.S (-a) k.proof.R)
  | share (id : ID) (c : List G) (hid : id ∈ ids) (hne : id ≠ self) (hc : Spec.GotCommitments self ids h id c) :
      KeygenCall self ids h (.multi ((List.range c.length).map (self.val ^ ·)) c)
  | key (id : ID) (c : List G) (hid : id ∈ ids) (hc : Spec.PublicList self ids h c) :
      KeygenCall self ids h (.multi ((List.range c.length).map (id.val ^ ·)) c)

theorem Spec.GotCommitments.mono {self : ID} {ids : List ID} {h h' : List (Op G × Ret G)} {id : ID} {c : List G}
    (hg : Spec.GotCommitments self ids h id c) : Spec.GotCommitments self ids (h ++ h') id c := by
  obtain ⟨m, k, h1, h2⟩ := hg
  exact ⟨m, k, List.mem_append_left _ h1, h2⟩

theorem evaluateTimed_log {p : Exponent G} {x : Scalar} {c : VarTime G} (h : c ∈ (Exponent.evaluateTimed p x).log) :
    c = .multi ((List.range p.length).map (x ^ ·)) p := by
  unfold Exponent.evaluateTimed at h
  split at h
  · cases h
  · rw [Timed.mem_multi_log h, Exponent.powersFrom_eq]

theorem evaluateMultiTimed_log {p : Exponent G} {ids : List ID} {m : GoMap G} {c : VarTime G} (h : c ∈ (Exponent.evaluateMultiTimed p ids m).log) :
    ∃ id ∈ ids, c = .multi ((List.range p.length).map (id.val ^ ·)) p := by
  induction ids generalizing m with
  | nil => cases h
  | cons id ids ih =>
    simp only [Exponent.evaluateMultiTimed, Timed.mem_bind_log, Timed.of_log, List.not_mem_nil, false_or, Timed.of_result, ID.scalar_eq,
      Outcome.ok.injEq, exists_eq_left'] at h
    rcases h with h | ⟨_, _, h⟩
    · exact ⟨id, List.mem_cons_self, evaluateTimed_log h⟩
    · obtain ⟨id', h1, h2⟩ := ih h
      exact ⟨id', List.mem_cons_of_mem _ h1, h2⟩

theorem publicList_fold {self : ID} {ids : List ID} {h : List (Op G × Ret G)} {l : List (ID × Option (Message G))} {a : Exponent G}
    (ha : Spec.PublicList self ids h a) (hl : ∀ k v, (k, v) ∈ l → Spec.PublicList self ids h (Keygen.commOf v)) :
    Spec.PublicList self ids h (l.foldl (fun a e => Keygen.addOrKeep a (Keygen.commOf e.2)) a) := by
  induction l generalizing a with
  | nil => exact ha
  | cons x l ih =>
    refine ih ?_ fun k v hk => hl k v (List.mem_cons_of_mem _ hk)
    simp only [Keygen.addOrKeep]
    split
    · rename_i he
      exact .add _ _ ha (hl x.1 x.2 List.mem_cons_self) he
    · exact ha

theorem generate2Timed_log {r : Keygen.Round G} {c : VarTime G} (h : c ∈ (Keygen.generate2Timed r).log) :
    ∃ sum, r.commitmentsSum = some sum ∧ c ∈ (Exponent.evaluateMultiTimed sum r.partyIDs []).log := by
  unfold Keygen.generate2Timed at h
  rw [Timed.mem_bind_log] at h
  rcases h with h | ⟨sum, h1, h⟩
  · cases h
  refine ⟨sum, deref_eq_ok.mp h1, ?_⟩
  rw [Timed.mem_bind_log, Timed.lift_log] at h
  rcases h with h | ⟨_, _, h⟩
  · exact h
  exfalso
  rw [Timed.mem_bind_log] at h
  rcases h with h | ⟨_, _, h⟩
  · cases h
  · split at h <;> cases h

/-- Every call with a variable running time that a session of key generation makes has arguments computed from public values. -/
theorem C99_keygen (self : ID) (ids : IDSlice) (t : UInt16) (timeout now : Nat) (r₀ : Keygen.Round G) (h₀ : Keygen.newRound self ids t = .ok r₀)
    (hnd : ids.Nodup) {h : List (Op G × Ret G)} {s : State G (Keygen.Round G × List (VarTime G))}
    (hh : Hist (Keygen.timedImpl sha) (newBaseState (Keygen.timedImpl sha) (r₀, []) timeout now) h s) (c : VarTime G) (hc : c ∈ s.round.2) :
    Spec.KeygenCall self ids h c := by
  have hs : Keygen.Start r₀ self ids t := ⟨h₀, hnd⟩
  obtain ⟨heq, _, _, hself⟩ := hs.eq
  have hstage : r₀.stage = .r0 := by rw [heq]
  have e1 : r₀.selfID = self := by rw [heq]
  have e2 : r₀.partyIDs = ids := by rw [heq]
  have e1' : (Keygen.impl sha).selfID r₀ = self := e1
  have e2' : (Keygen.impl sha).partyIDs r₀ = ids := e2
  obtain ⟨h₁, h₂, s₁, ord, rfl, hh₁, hd₁, hf₁, ho⟩ :=
    Timed.origin (p := keygenP sha) (g := keygenG sha) (pl := Keygen.impl sha) keygenP_result keygenG_result hh rfl c hc
  rw [keygen_timedImpl, Timed.erase_new] at hh₁
  have hready := ready (Keygen.impl_stable sha) hh₁ (by rw [e2']; exact hnd) (by rw [e1', e2']; exact IDSlice.contains_sound hself) hd₁ hf₁ ord
  have hl1 : ∀ {n l}, n ≠ 0 → Ready (Keygen.impl sha) r₀ h₁ n l → ∀ k v, (k, v) ∈ l → ∃ m, v = some m ∧ m.header.fromID = k := by
    intro n l hn hr k v hk
    obtain ⟨m, g1, g2, _⟩ := hr.later hn k v hk
    exact ⟨m, g1, g2⟩
  have hrun := (Keygen.running hs hh₁).1 hd₁
  generalize hn : s₁.roundNumber = n at hrun hready
  match n, hrun with
  | 0, hrun =>
    exfalso
    have hrun : s₁.round = r₀ := hrun
    have hst : s₁.round.stage = .r0 := by rw [hrun]; exact hstage
    have h0 : ∀ (l : List (Option (Message G))) (r r' : Keygen.Round G), Spec.Fed (Keygen.impl sha).processMessage r l r' → r.stage = .r0 → r'.stage = .r0 := by
      intro l r r' hfed
      induction hfed with
      | nil => exact id
      | cons h1 _ ih =>
        intro hst
        simp only [Keygen.impl, hst] at h1
        cases h1
        exact ih hst
    cases ho with
    | process l₁ l₂ k m r hl hfed hc =>
      simp only [keygenP, h0 _ _ _ hfed hst, Timed.of_log, List.not_mem_nil] at hc
    | generate coins r hl hc =>
      simp only [keygenG, h0 _ _ _ (fed_of_processLoop hl) hst, Timed.of_log, List.not_mem_nil] at hc
  | 1, ⟨f, _, _, _, h4⟩ =>
    have hst : s₁.round.stage = .r1 := by rw [h4]; rfl
    cases ho with
    | process l₁ l₂ k m r hl hfed hc =>
      have hst' := process_prefix1 hst hfed
      simp only [keygenP, hst', Keygen.process1Timed, Timed.mem_bind_log, Timed.of_log, List.not_mem_nil, false_or, Timed.of_result, deref_eq_ok,
        Timed.mem_double_log, Timed.lift_log, Keygen.lift_eq_ok, Exponent.constant, Schnorr.verifyTimed, Timed.pure_log, and_false, exists_false,
        or_false] at hc
      obtain ⟨m, rfl, kg, hk, a, ha, hc⟩ := hc
      have hc : c = .double kg.proof.S (-a) kg.proof.R := by
        rcases hc with hc | ⟨_, _, hc⟩
        · exact hc
        · exfalso
          split at hc
          · cases hc
          · simp [Timed.mem_bind_log, Timed.of_log, Timed.pure_log] at hc
      obtain ⟨m', g1, g2, g3, g4, g5⟩ := hready.later (by omega) k _ (by rw [hl]; exact List.mem_append_right _ List.mem_cons_self)
      cases g1
      rw [e1', e2'] at g5
      have g3 : some (1 : MsgType) = some m.header.type := g3
      rw [hc]
      exact .proof m kg a (List.mem_append_left _ g4) g5 (Option.some.inj g3).symm hk ha
    | generate coins r hl hc =>
      have hst' := process_prefix1 hst (fed_of_processLoop hl)
      simp only [keygenG, hst', Timed.of_log, List.not_mem_nil] at hc
  | 2, ⟨f, l, hn0, _, ⟨ordₛ, coinsₛ, _, hd⟩, h4, h5, _, _, h8⟩ =>
    have hst : s₁.round.stage = .r2 := by rw [h8]; rfl
    have hgot := fun {k v} hk => (got_of_ready hs h4 h5 (k := k) (v := v) hk).1
    cases ho with
    | process l₁ l₂ k m r hl hfed hc =>
      obtain ⟨hst', hcomm, hid⟩ := process_prefix2 hst hfed
      simp only [keygenP, hst', Keygen.process2Timed, Timed.mem_bind_log, Timed.of_log, List.not_mem_nil, false_or, Timed.of_result, deref_eq_ok,
        Timed.lift_log, Keygen.lift_eq_ok, ID.scalar_eq, Outcome.ok.injEq, exists_eq_left'] at hc
      obtain ⟨m, rfl, kg, hk, com, hcom, hc⟩ := hc
      have hc : c ∈ (Exponent.evaluateTimed com r.selfID.val).log := by
        rcases hc with hc | ⟨_, _, hc⟩
        · exact hc
        · exfalso
          split at hc
          · cases hc
          · cases hc
      have hkm : (k, some m) ∈ ord.order _ s₁.received := by rw [hl]; exact List.mem_append_right _ List.mem_cons_self
      obtain ⟨m', g1, g2, _⟩ := hready.later (by omega) k _ hkm
      cases g1
      have hin := (Sign.mem_of_ready hready (k := k)).mp ⟨some m, hkm⟩
      rw [hcomm, h8] at hcom
      have hcom : (Keygen.comms2 l).get? m.header.fromID = some com := hcom
      rw [Keygen.comms2, Keygen.get?_foldl_set _ _ _ (h4.keys.nodup_iff.mpr (List.Nodup.filter _ (by rw [e2']; exact hnd)))] at hcom
      have hself' : r.selfID = self := by rw [hid, h8]; exact e1
      rw [evaluateTimed_log hc, hself']
      obtain ⟨v, hv⟩ := (Sign.mem_of_ready h4 (k := k)).mpr hin
      rw [g2, Keygen.find?_of_mem (h4.keys.nodup_iff.mpr (List.Nodup.filter _ (by rw [e2']; exact hnd))) hv] at hcom
      cases hcom
      rw [e1', e2'] at hin
      exact .share k _ hin.1 hin.2 (hgot hv).mono
    | generate coins r hl hc =>
      rw [h8] at hl
      obtain ⟨_, rfl⟩ := (Keygen.loop2 (r := Keygen.round2 r₀ f l) rfl hn0 (hl1 (by omega) hready)).mp hl
      obtain ⟨sum, hsum, hc⟩ := generate2Timed_log (show c ∈ (Keygen.generate2Timed _).log from hc)
      have hsum : sum = Keygen.sum2 f l := (Option.some.inj hsum).symm
      obtain ⟨id, hid, rfl⟩ := evaluateMultiTimed_log hc
      rw [hsum]
      have hid : id ∈ r₀.partyIDs := hid
      rw [e2] at hid
      refine .key id _ hid (publicList_fold ?_ fun k v hk => .got k _ (hgot hk).mono)
      exact .own _ _ (mem_emitted (List.mem_append_left _ hd) List.mem_cons_self) rfl

/-! ### No call is missing from the log -/

theorem evaluateTimed_log_eq {p : Exponent G} {x : Scalar} (hx : x ≠ 0) :
    (Exponent.evaluateTimed p x).log = [.multi ((List.range p.length).map (x ^ ·)) p] := by
  unfold Exponent.evaluateTimed Timed.multi
  rw [if_neg hx, Exponent.powersFrom_eq, if_neg (by simp)]

theorem bind_log_ok {ε α β : Type} {x : Timed G ε α} {a : α} (h : x.result = .ok a) (f : α → Timed G ε β) : (x >>= f).log = x.log ++ (f a).log := by
  show (Timed.andThen x f).log = _
  unfold Timed.andThen
  rw [h]

theorem evaluateMultiTimed_log_eq {p : Exponent G} {ids : List ID} (h0 : ∀ id ∈ ids, id ≠ 0) (m : GoMap G) :
    (Exponent.evaluateMultiTimed p ids m).log = ids.map fun id => .multi ((List.range p.length).map (id.val ^ ·)) p := by
  induction ids generalizing m with
  | nil => rfl
  | cons id ids ih =>
    have hid : id.val ≠ 0 := fun h => h0 id List.mem_cons_self (ID.val_eq_zero.mp h)
    unfold Exponent.evaluateMultiTimed
    rw [bind_log_ok (a := id.val) (by rw [Timed.of_result, ID.scalar_eq]), Timed.of_log, List.nil_append]
    obtain ⟨e, he⟩ : ∃ e, (Exponent.evaluateTimed p id.val).result = .ok e := by
      rw [evaluateTimed_result, Exponent.evaluate_eq, if_neg hid]
      exact ⟨_, rfl⟩
    rw [bind_log_ok he, evaluateTimed_log_eq hid, ih fun i hi => h0 i (List.mem_cons_of_mem _ hi)]
    rfl

/-- Handling a message of round 1 or 2 of key generation makes exactly one call, the last step of key generation one for each party, handling a
signature share exactly one, and the last step of signing exactly one; all with the arguments of the code. -/
theorem C99_every_call_logged (sha : Sha512) (r : Keygen.Round G) (m : Message G) (k₁ : KeyGen1 G) (k₂ : KeyGen2) (a : G) (C sum : List G)
    (q : Sign.Round G) (p : Sign.Signer G) (z : Sign2) (ord : MapOrder) (h1 : m.keyGen1 = some k₁) (h2 : k₁.commitments[0]? = some a)
    (h3 : m.keyGen2 = some k₂) (h4 : r.commitments.get? m.header.fromID = some C) (h5 : r.selfID ≠ 0) (h6 : r.commitmentsSum = some sum)
    (h7 : ∀ id ∈ r.partyIDs, id ≠ 0) (h8 : q.parties.get? m.header.fromID = some p) (h9 : m.sign2 = some z) :
    (Keygen.process1Timed sha r (some m)).log = [.double k₁.proof.S (-a) k₁.proof.R] ∧
    (Keygen.process2Timed r (some m)).log = [.multi ((List.range C.length).map (r.selfID.val ^ ·)) C] ∧
    (Keygen.generate2Timed r).log = (r.partyIDs.map fun id => .multi ((List.range sum.length).map (id.val ^ ·)) sum) ∧
    (Sign.process2Timed q (some m)).log = [.double q.C (-p.pub) z.Zi] ∧
    (Sign.generate2Timed sha ord q).log =
      [.double (Spec.challenge sha q.R q.groupKey q.message) (-q.groupKey) ((ord.order _ q.parties).map fun e => e.2.Zi).sum] := by
  have hself : r.selfID.val ≠ 0 := fun h => h5 (ID.val_eq_zero.mp h)
  refine ⟨?_, ?_, ?_, ?_, ?_⟩
  · unfold Keygen.process1Timed
    rw [bind_log_ok (a := m) rfl, bind_log_ok (a := k₁) (by rw [Timed.of_result, h1]; rfl),
      bind_log_ok (a := a) (by rw [Timed.of_result, Exponent.constant, h2]; rfl)]
    obtain ⟨b, hb⟩ : ∃ b, (Timed.lift r (Schnorr.verifyTimed sha k₁.proof m.header.fromID a Keygen.ctx)).result = .ok b := by
      rw [timed_lift_result, schnorr_verifyTimed_result, Keygen.verify_eq]
      exact ⟨_, rfl⟩
    rw [bind_log_ok hb, Timed.lift_log]
    have hv : (Schnorr.verifyTimed sha k₁.proof m.header.fromID a Keygen.ctx).log = [.double k₁.proof.S (-a) k₁.proof.R] := by
      unfold Schnorr.verifyTimed
      rw [bind_log_ok (x := Timed.double _ _ _) rfl]
      show [_] ++ (Timed.andThen _ _).log = _
      unfold Timed.andThen
      cases (Timed.of (Schnorr.challenge sha m.header.fromID Keygen.ctx a (k₁.proof.S • -a + k₁.proof.R • base)) : Timed G GoErr Scalar).result <;> rfl
    rw [hv]
    simp only [Timed.of_log, List.nil_append]
    cases b
    · rfl
    · rw [if_neg (by simp), h6]
      rfl
  · unfold Keygen.process2Timed
    rw [bind_log_ok (a := m) rfl, bind_log_ok (a := k₂) (by rw [Timed.of_result, h3]; rfl),
      bind_log_ok (a := C) (by rw [Timed.of_result, h4]; rfl), bind_log_ok (a := r.selfID.val) (by rw [Timed.of_result, ID.scalar_eq]; rfl)]
    obtain ⟨e, he⟩ : ∃ e, (Timed.lift r (Exponent.evaluateTimed C r.selfID.val)).result = .ok e := by
      rw [timed_lift_result, evaluateTimed_result, Exponent.evaluate_eq, if_neg hself]
      exact ⟨_, rfl⟩
    rw [bind_log_ok he, Timed.lift_log, evaluateTimed_log_eq hself]
    simp only [Timed.of_log, List.nil_append]
    split <;> rfl
  · unfold Keygen.generate2Timed
    rw [bind_log_ok (a := sum) (by rw [Timed.of_result, h6]; rfl)]
    obtain ⟨e, he⟩ : ∃ e, (Timed.lift r (Exponent.evaluateMultiTimed sum r.partyIDs [])).result = .ok e := by
      obtain ⟨m', hm', _⟩ := evaluateMulti_eq sum r.partyIDs (fun h => h7 0 h rfl) []
      unfold Timed.lift
      rw [evaluateMultiTimed_result, hm']
      exact ⟨_, rfl⟩
    rw [bind_log_ok he, Timed.lift_log, evaluateMultiTimed_log_eq h7]
    simp only [Timed.of_log, List.nil_append]
    show _ ++ (Timed.andThen _ _).log = _
    unfold Timed.andThen
    split
    · split <;> simp [Timed.of_log, Timed.pure_log]
    · simp [Timed.of_log]
    · simp [Timed.of_log]
  · unfold Sign.process2Timed
    rw [bind_log_ok (a := m) rfl, bind_log_ok (a := p) (by rw [Timed.of_result, h8]; rfl), bind_log_ok (a := z) (by rw [Timed.of_result, h9]; rfl),
      bind_log_ok (x := Timed.double _ _ _) rfl]
    simp only [Timed.of_log, List.nil_append]
    show [_] ++ (Timed.andThen _ _).log = _
    unfold Timed.andThen
    split
    · dsimp only
      split <;> simp [Timed.of_log, Timed.pure_log]
    · simp [Timed.of_log]
    · simp [Timed.of_log]
  · unfold Sign.generate2Timed
    obtain ⟨b, hb, _⟩ := C50_verify_iff sha q.groupKey q.message ⟨q.R, (ord.order _ q.parties).foldl (fun S p => S + p.2.Zi) 0⟩
    have hl : (Timed.lift q (PublicKey.verifyTimed sha q.groupKey q.message ⟨q.R, (ord.order _ q.parties).foldl (fun S p => S + p.2.Zi) 0⟩)).result = .ok b := by
      unfold Timed.lift
      rw [publicKey_verifyTimed_result, hb]
    rw [bind_log_ok hl, Timed.lift_log]
    have hv : (PublicKey.verifyTimed sha q.groupKey q.message ⟨q.R, (ord.order _ q.parties).foldl (fun S p => S + p.2.Zi) 0⟩).log =
        [.double (Spec.challenge sha q.R q.groupKey q.message) (-q.groupKey) ((ord.order _ q.parties).map fun e => e.2.Zi).sum] := by
      unfold PublicKey.verifyTimed
      rw [bind_log_ok (by rw [Timed.of_result, computeChallenge_eq]), bind_log_ok (x := Timed.double _ _ _) rfl, Sign.foldl_Zi, zero_add]
      rfl
    rw [hv]
    split
    · rfl
    · split <;> rfl

end Verif.Props
