import Verif.Props.Keygen

/-!
C22, C33, C39 to C41 and C66 for key generation: what a session leaves behind, whatever the others sent.
-/

namespace Verif.Props

open Verif State Keygen Outcome Polynomial

variable {G : Type} [RGroup G] {sha : Sha512}

/-! ### C41 -/

/-- The two parts of the output are both nil until the session has finished without error, and both set from then on. -/
theorem C41_output_iff_success (self : ID) (ids : IDSlice) (t : UInt16) (timeout now : Nat) (s₀ : State G (Round G))
    (h₀ : newKeygenState sha self ids t timeout now = .ok s₀) (hnd : ids.Nodup) {h : List (Op G × Ret G)} {s : State G (Round G)}
    (hh : Hist (impl sha) s₀ h s) :
    (¬ (s.done = true ∧ s.err = none) → s.round.output.pub = none ∧ s.round.output.secretKey = none) ∧
    (s.done = true ∧ s.err = none → s.round.output.pub ≠ none ∧ s.round.output.secretKey ≠ none) := by
  obtain ⟨r₀, hs, rfl⟩ := start_of_new h₀ hnd
  obtain ⟨heq, _⟩ := hs.eq
  have hout : r₀.output = {} := by rw [heq]
  have hrun : ∀ h s, Hist (impl sha) (newBaseState (impl sha) r₀ timeout now) h s → s.done = false → s.round.output = {} := by
    intro h s hh hd
    have := (running hs hh).1 hd
    have hlt := running_lt_three this
    rcases (by omega : s.roundNumber = 0 ∨ s.roundNumber = 1 ∨ s.roundNumber = 2) with hn | hn | hn <;> rw [hn] at this
    · rw [show s.round = r₀ from this]; exact hout
    · obtain ⟨f, _, _, _, h4⟩ := this; rw [h4]; exact hout
    · obtain ⟨f, l, _, _, _, _, _, _, _, h4⟩ := this; rw [h4]; exact hout
  constructor
  · intro hns
    suffices hsuf : s.round.output = {} by rw [hsuf]; exact ⟨rfl, rfl⟩
    cases hd : s.done with
    | false => exact hrun h s hh hd
    | true =>
      obtain ⟨r, hq, hr⟩ := hist_abort (impl_stable sha) (fun r => r.output = {}) hrun
        (by
          intro r m r' hq hp
          simp only [impl] at hp
          split at hp
          · cases hp; exact hq
          · obtain ⟨_, _, _, _, _, _, _, _, _, rfl⟩ := process1_ok.mp hp; exact hq
          · obtain ⟨_, _, _, _, _, _, _, _, rfl⟩ := process2_ok.mp hp; exact hq)
        (by
          intro r m e r' hq hp
          simp only [impl] at hp
          split at hp
          · cases hp
          · obtain ⟨_, _, _, _, _, _, _, _, rfl⟩ := process1_err.mp hp; exact hq
          · obtain ⟨_, _, _, _, _, _, _, _, _, rfl⟩ := process2_err.mp hp; exact hq)
        (by
          intro ord coins r e r' hq hg
          simp only [impl] at hg
          split at hg
          · exact absurd hg (noErr_generate0 _ _ _ _)
          · exact absurd hg (noErr_generate1 _ _)
          · exact absurd hg (noErr_generate2 _ _))
        hh (fun he => hns ⟨hd, he⟩)
      obtain ⟨_, _, _, _, h4⟩ := reset_eq.mp (show reset _ = _ from hr)
      rw [h4]
      exact hq
  · rintro ⟨hd, he⟩
    obtain ⟨f, l₁, l₂, shares, gk, _, _, _, _, _, _, _, _, _, h10, _⟩ := (running hs hh).2 hd he
    rw [h10]
    simp [output3]

/-- Once the session has finished, successfully or not, its output never changes again. -/
theorem C41_output_final {s s' : State G (Round G)} {h : List (Op G × Ret G)} (hh : Hist (impl sha) s h s') (hd : s.done = true) :
    s'.round.output = s.round.output := by
  rw [(C28_frozen hh hd).1]

/-! ### C66 -/

/-- When a key generation session has ended, for whatever reason, the secret and all coefficients of the polynomial are zero. -/
theorem C66_keygen_wiped (self : ID) (ids : IDSlice) (t : UInt16) (timeout now : Nat) (s₀ : State G (Round G))
    (h₀ : newKeygenState sha self ids t timeout now = .ok s₀) (hnd : ids.Nodup) {h : List (Op G × Ret G)} {s : State G (Round G)}
    (hh : Hist (impl sha) s₀ h s) (hd : s.done = true) :
    s.round.secret = 0 ∧ ∃ p, s.round.polynomial = some p ∧ ∀ a ∈ p, a = 0 := by
  obtain ⟨r₀, hs, rfl⟩ := start_of_new h₀ hnd
  have hz : ∀ p : Poly, ∀ a ∈ Poly.reset p, a = 0 := by
    intro p a ha
    unfold Poly.reset at ha
    obtain ⟨_, _, h2⟩ := List.mem_map.mp ha
    exact h2.symm
  cases he : s.err with
  | none =>
    obtain ⟨f, l₁, l₂, shares, gk, _, _, _, _, _, _, _, _, _, _, h11, h12, _⟩ := (running hs hh).2 hd he
    exact ⟨h11, _, h12, hz _⟩
  | some e =>
    obtain ⟨_, _, _, _, _, r, _, _, _, _, _, _, hr, _⟩ := abort_cause (impl_stable sha) hh e he
    obtain ⟨p, c, _, _, h4⟩ := reset_eq.mp (show reset _ = _ from hr)
    rw [h4]
    exact ⟨rfl, _, rfl, hz p⟩

/-! ### C33 -/

/-- Key generation started with a timeout crashes when the timeout expires before the first `ProcessAll`: `Reset` dereferences the
polynomial, which does not exist yet. -/
theorem C33_keygen_timeout_crashes (self : ID) (ids : IDSlice) (t : UInt16) (d now : Nat) (hd : 0 < d) (s₀ : State G (Round G))
    (h₀ : newKeygenState sha self ids t d now = .ok s₀) :
    ∃ h s, Hist (impl sha) s₀ h s ∧ step (impl sha) s .callback = none := by
  obtain ⟨r₀, h1, rfl⟩ := newKeygenState_ok.mp h₀
  have hp : r₀.polynomial = none := by
    unfold newRound newBaseRound at h1
    simp only [bind_eq_ok, failIf_eq_ok, pure_def, Outcome.ok.injEq] at h1
    obtain ⟨_, _, _, _, _, _, h4⟩ := h1
    rw [← h4]
  let s₁ : State G (Round G) := { newBaseState (impl sha) r₀ d now with timer := ⟨d, now + d, some (now + d), 0⟩ }
  let s₂ : State G (Round G) := { newBaseState (impl sha) r₀ d now with timer := ⟨d, now + d, none, 1⟩ }
  have e1 : step (impl sha) (newBaseState (impl sha) r₀ d now) (.advance d) = some (s₁, .nothing) := by
    simp [step, newBaseState, Timer.new, hd, s₁]
  have e2 : step (impl sha) s₁ .fire = some (s₂, .nothing) := by
    simp [step, s₁, s₂, newBaseState]
  refine ⟨_, s₂, .snoc (.snoc .nil e1) e2, ?_⟩
  simp [step, s₂, newBaseState, timeoutCallback, reportError, finish, impl, reset, hp]

/-- After the first successful `ProcessAll` no timeout crashes a key generation session. -/
theorem C33_keygen_timeout_safe_partial (self : ID) (ids : IDSlice) (t : UInt16) (timeout now : Nat) (s₀ : State G (Round G))
    (h₀ : newKeygenState sha self ids t timeout now = .ok s₀) (hnd : ids.Nodup) {h : List (Op G × Ret G)} {s : State G (Round G)}
    (hh : Hist (impl sha) s₀ h s) (hn : s.roundNumber ≠ 0) : step (impl sha) s .callback ≠ none := by
  obtain ⟨r₀, hs, rfl⟩ := start_of_new h₀ hnd
  unfold step
  by_cases hf : s.timer.fired = 0
  · simp [hf]
  · rw [if_neg hf]
    cases hd : s.done with
    | true => simp [timeoutCallback, reportError, hd]
    | false =>
      have hcl : s.closed = false := by rw [(inv_hist (impl_stable sha) hh).closed, hd]
      have hrun := (running hs hh).1 hd
      have hlt := running_lt_three hrun
      have hreset : ∃ r', (impl sha).reset s.round = some r' := by
        rcases (by omega : s.roundNumber = 1 ∨ s.roundNumber = 2) with hn | hn <;> rw [hn] at hrun
        · obtain ⟨f, _, _, _, h4⟩ := hrun; rw [h4]; exact ⟨_, rfl⟩
        · obtain ⟨f, l, _, _, _, _, _, _, _, h4⟩ := hrun; rw [h4]; exact ⟨_, rfl⟩
      obtain ⟨r', hr'⟩ := hreset
      unfold timeoutCallback
      rw [reportError_ok (impl sha) (s := { s with timer := { s.timer with fired := s.timer.fired - 1 } }) hd hr' hcl]
      simp

/-! ### C22 -/

/-- A message of round 1 without payload, or with an empty list of commitments, crashes the party: once the messages of all
others are there and the rest are well formed, every call of `ProcessAll` panics. -/
theorem process1_panic {r : Round G} {m : Message G} (h : ∀ k, m.keyGen1 = some k → k.commitments = []) :
    process1 sha r (some m) = .panic := by
  unfold process1
  rw [Outcome.deref_some, Outcome.ok_bind]
  cases hk : m.keyGen1 with
  | none => rfl
  | some k =>
    have hc := h k hk
    simp [Outcome.deref, Exponent.constant, hc, lift]

theorem loop1_panic {l : List (ID × Option (Message G))} {r : Round G} {sum : Exponent G} (hs : r.stage = .r1)
    (hsum : r.commitmentsSum = some sum) {k₀ : ID} {m₀ : Message G} (hm : (k₀, some m₀) ∈ l)
    (hbad : ∀ k, m₀.keyGen1 = some k → k.commitments = []) (hrest : ∀ k v, (k, v) ∈ l → v = some m₀ ∨ Valid1 v) :
    processLoop (impl sha) l r = .panic := by
  induction l generalizing r sum with
  | nil => cases hm
  | cons a l ih =>
    obtain ⟨k, v⟩ := a
    unfold processLoop
    have himpl : (impl sha).processMessage r v = process1 sha r v := by simp only [impl]; rw [hs]
    rw [himpl]
    rcases hrest k v List.mem_cons_self with rfl | ⟨m, kg, rfl, h1, h2, h3⟩
    · rw [process1_panic hbad]
    · obtain ⟨c, hc⟩ := getElem?_zero_iff.mpr h2
      rw [process1_ok.mpr ⟨m, kg, c, sum, rfl, h1, hc, h3, hsum, rfl⟩]
      refine ih (sum := addOrKeep sum kg.commitments) ?_ rfl ?_ fun k v h => hrest k v (List.mem_cons_of_mem _ h)
      · exact hs
      rcases List.mem_cons.mp hm with hm | hm
      · cases hm
        exact absurd (hbad kg h1) h2
      · exact hm

theorem C22_bad_payload_crashes (self : ID) (ids : IDSlice) (t : UInt16) (timeout now : Nat) (s₀ : State G (Round G))
    (h₀ : newKeygenState sha self ids t timeout now = .ok s₀) (hnd : ids.Nodup) {h : List (Op G × Ret G)} {s : State G (Round G)}
    (hh : Hist (impl sha) s₀ h s) (hd : s.done = false) (hn : s.roundNumber = 1) (hf : s.received.length + 1 = ids.length)
    (m₀ : Message G) (hm : (m₀.header.fromID, some m₀) ∈ s.received)
    (hbad : m₀.keyGen1 = none ∨ ∃ k, m₀.keyGen1 = some k ∧ k.commitments = [])
    (hrest : ∀ m : Message G, (m.header.fromID, some m) ∈ s.received → m ≠ m₀ → ∃ k, m.keyGen1 = some k ∧ k.commitments ≠ [] ∧ k.proof.S = 0)
    (ord : MapOrder) (coins : Coins) : step (impl sha) s (.processAll ord coins) = none := by
  obtain ⟨r₀, hs, rfl⟩ := start_of_new h₀ hnd
  obtain ⟨heq, _, _, hc⟩ := hs.eq
  have e2 : (impl sha).partyIDs r₀ = ids := by rw [heq]; rfl
  have hi := inv_hist (impl_stable sha) hh
  have hrun := (running hs hh).1 hd
  rw [hn] at hrun
  obtain ⟨f, _, _, _, hround⟩ := hrun
  have hfull : s.received.length = (IDSlice.N ((impl sha).partyIDs s.round) - 1).toNat := by
    rw [hi.ids, e2, N_pred_eq (List.ne_nil_of_mem (IDSlice.contains_sound hc)) (nodup_ids_length hnd)]
    omega
  have hloop : processLoop (impl sha) (ord.order _ s.received) s.round = .panic := by
    have hp := ord.perm _ s.received
    refine loop1_panic (k₀ := m₀.header.fromID) (m₀ := m₀) (by rw [hround]; rfl) (by rw [hround]; rfl) (hp.mem_iff.mpr hm) ?_ ?_
    · rcases hbad with hb | ⟨k, hb, hb'⟩
      · intro k hk; rw [hb] at hk; cases hk
      · intro k' hk; rw [hb] at hk; cases hk; exact hb'
    · intro k v hkv
      have hkv := hp.mem_iff.mp hkv
      cases v with
      | none => exact absurd (hi.storedNone k hkv).1 (by omega)
      | some m =>
        obtain ⟨rfl, _⟩ := hi.stored k m hkv
        by_cases hmm : m = m₀
        · exact Or.inl (by rw [hmm])
        · obtain ⟨kg, a, b, c⟩ := hrest m hkv hmm
          exact Or.inr ⟨m, kg, rfl, a, b, c⟩
  unfold step processAll
  simp [hd, hfull, hloop]

/-! ### C39 -/

/-- The discrete logarithms of a list of commitments as a polynomial. -/
theorem evalAt_dlog (c : List G) (x : Scalar) : Spec.evalAt c x = Spec.evalAt (c.map dlog) x • (base : G) := by
  induction c with
  | nil => simp [Spec.evalAt]
  | cons a c ih =>
    simp only [List.map_cons, evalAt_cons, ih, add_smul, smul_eq_mul, mul_smul, dlog_spec]

theorem toPoly_natDegree_le {c : List Scalar} {t : Nat} (h : c.length ≤ t + 1) : (Spec.toPoly c).natDegree ≤ t := by
  rw [natDegree_le_iff_coeff_eq_zero]
  intro n hn
  rw [toPoly_coeff, List.getD_eq_getElem?_getD, List.getElem?_eq_none (by omega)]
  rfl

/-- Whatever the others sent, on success the public shares lie on one polynomial in the exponent of degree at most the
threshold, whose constant term is the group key, with one share for each participant and no other. -/
theorem C39_public_on_polynomial (self : ID) (ids : IDSlice) (t : UInt16) (timeout now : Nat) (s₀ : State G (Round G))
    (h₀ : newKeygenState sha self ids t timeout now = .ok s₀) (hnd : ids.Nodup) {h : List (Op G × Ret G)} {s : State G (Round G)}
    (hh : Hist (impl sha) s₀ h s) (hd : s.done = true) (he : s.err = none) :
    ∃ (F : Scalar[X]) (pub : Public G), F.natDegree ≤ t.toNat ∧ s.round.output.pub = some pub ∧ pub.partyIDs = ids ∧
      pub.threshold = t ∧ pub.groupKey = F.eval 0 • base ∧ (∀ id ∈ ids, pub.shares.get? id = some (F.eval id.val • base)) ∧
      ∀ id, id ∉ ids → pub.shares.get? id = none := by
  obtain ⟨r₀, hs, rfl⟩ := start_of_new h₀ hnd
  obtain ⟨f, C, z, _, _, _, _, _, pub, h6, h7, h8, _, _, h11, sum, h12, h13, h14⟩ := finished_spec hs ((running hs hh).2 hd he)
  refine ⟨Spec.toPoly (sum.map dlog), pub, toPoly_natDegree_le (by simp [h12]), h6, h7, h8, ?_, ?_, h11⟩
  · rw [h13, toPoly_eval, evalAt_dlog]
  · intro id hid
    rw [h14 id hid, toPoly_eval, evalAt_dlog]

/-- The secret share differs from its own public share by the shares of exactly those participants whose commitments did not
have `t + 1` entries: their commitments are left out of the sum, their shares are not. -/
theorem C39_own_share_exact (self : ID) (ids : IDSlice) (t : UInt16) (timeout now : Nat) (s₀ : State G (Round G))
    (h₀ : newKeygenState sha self ids t timeout now = .ok s₀) (hnd : ids.Nodup) {h : List (Op G × Ret G)} {s : State G (Round G)}
    (hh : Hist (impl sha) s₀ h s) (hd : s.done = true) (he : s.err = none) :
    ∃ (C : ID → List G) (sk : SecretShare G) (pub : Public G) (X : G), s.round.output.secretKey = some sk ∧
      s.round.output.pub = some pub ∧ pub.shares.get? self = some X ∧ sk.id = self ∧ sk.pub = sk.secret • base ∧
      (∀ id ∈ ids, id ≠ self → Spec.GotCommitments self ids h id (C id)) ∧
      sk.secret • (base : G) = X + ((ids.filter (· ≠ self)).map fun id =>
        if (C id).length = t.toNat + 1 then 0 else Spec.evalAt (C id) self.val).sum := by
  obtain ⟨r₀, hs, rfl⟩ := start_of_new h₀ hnd
  obtain ⟨_, _, _, hc⟩ := hs.eq
  obtain ⟨f, C, z, _, _, _, h4, h5, pub, h6, h7, h8, _, h10, _⟩ := finished_spec hs ((running hs hh).2 hd he)
  refine ⟨C, _, pub, _, h5, h6, h10 self (IDSlice.contains_sound hc), rfl, rfl,
    fun id hid hne => (h4 id (mem_others.mpr ⟨hid, hne⟩)).1, ?_⟩
  have key : ∀ l : List ID, (∀ id ∈ l, z id • (base : G) = Spec.evalAt (C id) self.val) → (l.map z).sum • (base : G) =
      (l.map fun k => if (C k).length = t.toNat + 1 then Spec.evalAt (C k) self.val else 0).sum +
      (l.map fun id => if (C id).length = t.toNat + 1 then 0 else Spec.evalAt (C id) self.val).sum := by
    intro l
    induction l with
    | nil => simp
    | cons a l ih =>
      intro hl
      have h1 := hl a List.mem_cons_self
      have h2 := ih fun id hid => hl id (List.mem_cons_of_mem _ hid)
      simp only [List.map_cons, List.sum_cons, add_smul, h1, h2]
      split_ifs <;> abel
  have := key (others self ids) fun id hid => (h4 id hid).2.2.2
  unfold others at this
  simp only [SecretShare.new, add_smul, others]
  rw [this]
  abel

/-- The own-share half of C39, with the assumption the code does not check: every accepted list of commitments has `t + 1`
entries. -/
theorem C39_own_share_partial (self : ID) (ids : IDSlice) (t : UInt16) (timeout now : Nat) (s₀ : State G (Round G))
    (h₀ : newKeygenState sha self ids t timeout now = .ok s₀) (hnd : ids.Nodup) {h : List (Op G × Ret G)} {s : State G (Round G)}
    (hh : Hist (impl sha) s₀ h s) (hd : s.done = true) (he : s.err = none)
    (hlen : ∀ id c, Spec.GotCommitments self ids h id c → c.length = t.toNat + 1) :
    ∃ (sk : SecretShare G) (pub : Public G), s.round.output.secretKey = some sk ∧ s.round.output.pub = some pub ∧ sk.id = self ∧
      pub.shares.get? self = some (sk.secret • base) ∧ sk.pub = sk.secret • base := by
  obtain ⟨C, sk, pub, X, h1, h2, h3, h4, h4', h5, h6⟩ := C39_own_share_exact self ids t timeout now s₀ h₀ hnd hh hd he
  refine ⟨sk, pub, h1, h2, h4, ?_, h4'⟩
  rw [h3, h6]
  have : ((ids.filter (· ≠ self)).map fun id => if (C id).length = t.toNat + 1 then 0 else Spec.evalAt (C id) self.val) =
      (ids.filter (· ≠ self)).map fun _ => (0 : G) := by
    apply List.map_congr_left
    intro id hid
    have hid := List.mem_filter.mp hid
    rw [if_pos (hlen id _ (h5 id hid.1 (by simpa using hid.2)))]
  rw [this]
  simp

end Verif.Props
