import Verif.Lemmas.ErrorValue
import Verif.Spec.Errors
import Verif.Props.Keygen
import Verif.Props.SignBlame

/-!
C109: what errors say and how they can be recognised.  Concrete cases are in `Verif/Cases/Errors.lean`.
-/

namespace Verif.Props

open Verif Verif.Spec State

variable {G R : Type} [RGroup G] {sha : Sha512}

/-! ### Reading a text -/

/-- A number followed by something that is not a digit can be read in one way only. -/
theorem number_prefix {d d' a a' : List UInt8} {n n' : Nat} (h : Number d n) (h' : Number d' n')
    (ha : ∀ c ∈ a.head?, ¬ (48 ≤ c.toNat ∧ c.toNat ≤ 57)) (ha' : ∀ c ∈ a'.head?, ¬ (48 ≤ c.toNat ∧ c.toNat ≤ 57))
    (heq : d ++ a = d' ++ a') : n = n' ∧ a = a' := by
  have key : ∀ (d d' : List UInt8), (∀ c ∈ d, 48 ≤ c.toNat ∧ c.toNat ≤ 57) → (∀ c ∈ d', 48 ≤ c.toNat ∧ c.toNat ≤ 57) →
      d ++ a = d' ++ a' → d = d' ∧ a = a' := by
    intro d
    induction d with
    | nil =>
      intro d' _ h2 h
      cases d' with
      | nil => exact ⟨rfl, h⟩
      | cons x d' =>
        exfalso
        rw [List.nil_append] at h
        exact ha x (by rw [h]; rfl) (h2 x List.mem_cons_self)
    | cons y d ih =>
      intro d' h1 h2 h
      cases d' with
      | nil =>
        exfalso
        rw [List.nil_append] at h
        exact ha' y (by rw [← h]; rfl) (h1 y List.mem_cons_self)
      | cons x d' =>
        obtain ⟨e1, e2⟩ := List.cons.inj h
        obtain ⟨i1, i2⟩ := ih d' (fun c hc => h1 c (List.mem_cons_of_mem _ hc)) (fun c hc => h2 c (List.mem_cons_of_mem _ hc)) e2
        exact ⟨by rw [e1, i1], i2⟩
  obtain ⟨e1, e2⟩ := key d d' h.1.2 h'.1.2 heq
  exact ⟨by rw [← h.2, ← h'.2, e1], e2⟩

theorem head_ascii {s : String} {c : Char} {t : List Char} (h : s.toList = c :: t) (rest : List UInt8) :
    (ascii s ++ rest).head? = some (UInt8.ofNat c.toNat) := by
  unfold ascii; rw [h]; rfl

/-- A text says at most one thing. -/
theorem saysAborted_unique {text c c' : List UInt8} {p r p' r' : Nat} (h : SaysAborted text p r c) (h' : SaysAborted text p' r' c') :
    p = p' ∧ r = r' ∧ c = c' := by
  obtain ⟨dp, dr, h1, h2, rfl⟩ := h
  obtain ⟨dp', dr', h1', h2', heq⟩ := h'
  simp only [List.append_assoc] at heq
  have heq := List.append_cancel_left heq
  obtain ⟨e1, heq⟩ := number_prefix h1 h1' (by rw [head_ascii (by rfl)]; decide) (by rw [head_ascii (by rfl)]; decide) heq
  have heq := List.append_cancel_left heq
  obtain ⟨e2, heq⟩ := number_prefix h2 h2' (by rw [head_ascii (by rfl)]; decide) (by rw [head_ascii (by rfl)]; decide) heq
  exact ⟨e1, e2, List.append_cancel_left heq⟩

/-- A text says at most one thing. -/
theorem saysBlamed_unique {text c c' : List UInt8} {p r q p' r' q' : Nat} (h : SaysBlamed text p r q c) (h' : SaysBlamed text p' r' q' c') :
    p = p' ∧ r = r' ∧ q = q' ∧ c = c' := by
  obtain ⟨dp, dr, dc, h1, h2, h3, rfl⟩ := h
  obtain ⟨dp', dr', dc', h1', h2', h3', heq⟩ := h'
  simp only [List.append_assoc] at heq
  have heq := List.append_cancel_left heq
  obtain ⟨e1, heq⟩ := number_prefix h1 h1' (by rw [head_ascii (by rfl)]; decide) (by rw [head_ascii (by rfl)]; decide) heq
  have heq := List.append_cancel_left heq
  obtain ⟨e2, heq⟩ := number_prefix h2 h2' (by rw [head_ascii (by rfl)]; decide) (by rw [head_ascii (by rfl)]; decide) heq
  have heq := List.append_cancel_left heq
  obtain ⟨e3, heq⟩ := number_prefix h3 h3' (by rw [head_ascii (by rfl)]; decide) (by rw [head_ascii (by rfl)]; decide) heq
  exact ⟨e1, e2, e3, List.append_cancel_left heq⟩

theorem number_formatUint (n : Nat) : Number (ID.formatUint n) n := formatUint_decimal n

/-- The text of the error of a session says its culprit, its round and its cause. -/
theorem says_value (lib : Bytes) (e : StateErr) : SaysAborted (e.value.text lib) e.partyID.toNat e.roundNumber (e.cause.value.text lib) :=
  ⟨_, _, number_formatUint _, number_formatUint _, rfl⟩

/-! ### The errors of sessions -/


/-- The errors with which a key generation can be aborted. -/
theorem keygen_cause (self : ID) (ids : IDSlice) (t : UInt16) (timeout now : Nat) (s₀ : State G (Keygen.Round G))
    (h₀ : Keygen.newKeygenState sha self ids t timeout now = .ok s₀) (hnd : ids.Nodup) {h : List (Op G × Ret G)} {s : State G (Keygen.Round G)}
    (hh : Hist (Keygen.impl sha) s₀ h s) (e : StateErr) (he : s.err = some e) :
    e.roundNumber = s.roundNumber ∧ ((e.partyID = 0 ∧ e.cause = .timeout) ∨
      (e.partyID ∈ ids ∧ e.partyID ≠ self ∧ ((e.roundNumber = 1 ∧ e.cause = .zkFailed) ∨ (e.roundNumber = 2 ∧ e.cause = .vssFailed)))) := by
  obtain ⟨r₀, hs, rfl⟩ := start_of_new h₀ hnd
  obtain ⟨heq, _, _, hc⟩ := hs.eq
  have e1 : (Keygen.impl sha).selfID r₀ = self := by rw [heq]; rfl
  have e2 : (Keygen.impl sha).partyIDs r₀ = ids := by rw [heq]; rfl
  have hstage : r₀.stage = .r0 := by rw [heq]
  obtain ⟨h₁, op, ret, h₂, s₁, r, hsplit, hh₁, hd₁, he₁, hr₁, hr₂, hreset, hcause⟩ := abort_cause (Keygen.impl_stable sha) hh e he
  refine ⟨by rw [hr₁, hr₂], ?_⟩
  have hrun := (Keygen.running hs hh₁).1 hd₁
  cases hcause with
  | timeout _ h0 h1 => exact Or.inl ⟨h0, h1⟩
  | generate ord coins r₁ e' _ _ hg =>
    exfalso
    simp only [Keygen.impl] at hg
    split at hg
    · exact Keygen.noErr_generate0 _ _ _ _ hg
    · exact Keygen.noErr_generate1 _ _ hg
    · exact Keygen.noErr_generate2 _ _ hg
  | process ord coins l₁ l₂ k m r' e' hfull hl hfed hp hpe hpc =>
    have hready := ready (Keygen.impl_stable sha) hh₁ (by rw [e2]; exact hnd) (by rw [e1, e2]; exact IDSlice.contains_sound hc) hd₁ hfull ord
    have hkm : (k, m) ∈ ord.order _ s₁.received := by rw [hl]; exact List.mem_append_right _ List.mem_cons_self
    have hlt := running_lt_three hrun
    by_cases hn0 : s₁.roundNumber = 0
    · exfalso
      rw [hn0] at hrun
      have hrun : s₁.round = r₀ := hrun
      have : ∀ (r r' : Keygen.Round G) (l : List (Option (Message G))), Spec.Fed (Keygen.impl sha).processMessage r l r' →
          r.stage = .r0 → r'.stage = .r0 := by
        intro r r' l hf
        induction hf with
        | nil => exact id
        | cons h1 _ ih =>
          intro hr
          simp only [Keygen.impl, hr] at h1
          cases h1
          exact ih hr
      have hst := this _ _ _ hfed (by rw [hrun]; exact hstage)
      simp only [Keygen.impl, hst] at hp
      cases hp
    · obtain ⟨msg, rfl, hfrom, hty, hhand, hfor⟩ := hready.later hn0 k m hkm
      rw [e1, e2] at hfor
      rcases (by omega : s₁.roundNumber = 1 ∨ s₁.roundNumber = 2) with hn | hn
      · rw [hn] at hrun
        obtain ⟨f, _, _, _, hround⟩ := hrun
        have hst := process_prefix1 (by rw [hround]; rfl) hfed
        simp only [Keygen.impl, hst] at hp
        obtain ⟨m', kg, c, hm', hk, hc', hS, rfl, rfl⟩ := Keygen.process1_err.mp hp
        cases hm'
        have hpid : e.partyID = msg.header.fromID := hpe
        exact Or.inr ⟨hpid ▸ hfor.2.1, hpid ▸ hfor.1, Or.inl ⟨by rw [hr₁, hn], hpc⟩⟩
      · rw [hn] at hrun
        obtain ⟨f, l', _, _, _, hready', hvalid, _, _, hround⟩ := hrun
        obtain ⟨hst, hcomm, hself⟩ := process_prefix2 (by rw [hround]; rfl) hfed
        simp only [Keygen.impl, hst] at hp
        obtain ⟨m', kg, c, hm', hk, hc', _, hne', rfl, rfl⟩ := Keygen.process2_err.mp hp
        cases hm'
        have hpid : e.partyID = msg.header.fromID := hpe
        exact Or.inr ⟨hpid ▸ hfor.2.1, hpid ▸ hfor.1, Or.inr ⟨by rw [hr₁, hn], hpc⟩⟩

/-- The errors with which a signing session can be aborted. -/
theorem sign_cause (secret : SecretShare G) (shares : Public G) (ids : IDSlice) (message : Bytes) (timeout now : Nat)
    (s₀ : State G (Sign.Round G)) (h₀ : Sign.newSignState sha ids secret shares message timeout now = .ok s₀) (hnd : ids.Nodup)
    {h : List (Op G × Ret G)} {s : State G (Sign.Round G)} (hh : Hist (Sign.impl sha) s₀ h s) (e : StateErr) (he : s.err = some e) :
    e.roundNumber = s.roundNumber ∧ ((e.partyID = 0 ∧ e.cause = .timeout) ∨ (e.partyID = 0 ∧ e.roundNumber = 2 ∧ e.cause = .badSignature) ∨
      (e.partyID ∈ ids ∧ e.partyID ≠ secret.id ∧
        ((e.roundNumber = 1 ∧ e.cause = .identityCommitment) ∨ (e.roundNumber = 2 ∧ e.cause = .badSigShare)))) := by
  obtain ⟨r₀, hs, rfl⟩ := sign_start_of_new h₀ hnd
  obtain ⟨hstage, e1, e2, e3, e4, e5, _, _, hc, _, _, _, hnz⟩ := hs.eq
  have e1' : (Sign.impl sha).selfID r₀ = secret.id := e1
  have e2' : (Sign.impl sha).partyIDs r₀ = ids := e2
  obtain ⟨h₁, op, ret, h₂, s₁, r, hsplit, hh₁, hd₁, he₁, hr₁, hr₂, hreset, hcause⟩ := abort_cause (Sign.impl_stable sha) hh e he
  refine ⟨by rw [hr₁, hr₂], ?_⟩
  have hrun := (Sign.running hs hh₁).1 hd₁
  have hlt := sign_running_lt_three hrun
  have hst0 : s₁.roundNumber = 0 → s₁.round.stage = .r0 := by
    intro hn
    rw [hn] at hrun
    have hrun : s₁.round = r₀ := hrun
    rw [hrun]; exact hstage
  have hst1 : s₁.roundNumber = 1 → s₁.round.stage = .r1 := by
    intro hn
    rw [hn] at hrun
    obtain ⟨_, _, _, _, _, hround⟩ := hrun
    rw [hround]
  cases hcause with
  | timeout _ h0 h1 => exact Or.inl ⟨h0, h1⟩
  | generate ord coins r₁ e' _ hpl hg hpe hpc =>
    have hfed := fed_of_processLoop hpl
    have hn : s₁.roundNumber = 2 := by
      by_contra hne
      rcases (by omega : s₁.roundNumber = 0 ∨ s₁.roundNumber = 1) with hn | hn
      · have h1 := hst0 hn
        have := sign_prefix0 hfed h1
        rw [this] at hg
        simp only [Sign.impl, h1] at hg
        exact Sign.noErr_generate0 _ _ _ hg
      · have h1 := hst1 hn
        have h2 : r₁.stage = .r1 := by rw [(sign_prefix1 hfed h1).1]; exact h1
        simp only [Sign.impl, h2] at hg
        exact Sign.noErr_generate1 _ _ _ _ hg
    simp only [Sign.impl] at hg
    split at hg
    · exact absurd hg (Sign.noErr_generate0 _ _ _)
    · exact absurd hg (Sign.noErr_generate1 _ _ _ _)
    · obtain ⟨_, g2, _⟩ := Sign.generate2_err.mp hg
      rw [g2] at hpe hpc
      exact Or.inr (Or.inl ⟨hpe, by rw [hr₁, hn], hpc⟩)
  | process ord coins l₁ l₂ k m r' e' hfull hl hfed hp hpe hpc =>
    have hready := ready (Sign.impl_stable sha) hh₁ (by rw [e2']; exact hnd) (by rw [e1', e2']; exact IDSlice.contains_sound hc) hd₁ hfull ord
    have hkm : (k, m) ∈ ord.order _ s₁.received := by rw [hl]; exact List.mem_append_right _ List.mem_cons_self
    by_cases hn0 : s₁.roundNumber = 0
    · exfalso
      have h1 := hst0 hn0
      have := sign_prefix0 hfed h1
      rw [this] at hp
      simp only [Sign.impl, h1] at hp
      cases hp
    · obtain ⟨msg, rfl, hfrom, hty, hhand, hfor⟩ := hready.later hn0 k m hkm
      rw [e1', e2'] at hfor
      rcases (by omega : s₁.roundNumber = 1 ∨ s₁.roundNumber = 2) with hn | hn
      · have hst' : r'.stage = .r1 := by rw [(sign_prefix1 hfed (hst1 hn)).1]; exact hst1 hn
        simp only [Sign.impl, hst'] at hp
        obtain ⟨m', kg, hm', hk, hz, rfl, rfl⟩ := Sign.process1_err.mp hp
        cases hm'
        have hpid : e.partyID = msg.header.fromID := hpe
        exact Or.inr (Or.inr ⟨hpid ▸ hfor.2.1, hpid ▸ hfor.1, Or.inl ⟨by rw [hr₁, hn], hpc⟩⟩)
      · rw [hn] at hrun
        obtain ⟨_, _, _, _, _, _, _, _, _, _, _, _, hround⟩ := hrun
        have hst : s₁.round.stage = .r2 := by rw [hround]; rfl
        have hst' : r'.stage = .r2 := by rw [(sign_prefix2 hfed hst).1]; exact hst
        simp only [Sign.impl, hst'] at hp
        obtain ⟨m', kg, p, Ri, hm', _, hk, _, _, rfl, rfl⟩ := Sign.process2_err.mp hp
        cases hm'
        have hpid : e.partyID = msg.header.fromID := hpe
        exact Or.inr (Or.inr ⟨hpid ▸ hfor.2.1, hpid ▸ hfor.1, Or.inr ⟨by rw [hr₁, hn], hpc⟩⟩)

/-- What the error of an aborted key generation says: nobody and "message timeout", or in round 1 another participant and "ZK Schnorr
failed", or in round 2 another participant and "VSS failed to validate".  The round is the one in which the session ended. -/
theorem C109_keygen_text (lib : Bytes) (self : ID) (ids : IDSlice) (t : UInt16) (timeout now : Nat) (s₀ : State G (Keygen.Round G))
    (h₀ : Keygen.newKeygenState sha self ids t timeout now = .ok s₀) (hnd : ids.Nodup) {h : List (Op G × Ret G)} {s : State G (Keygen.Round G)}
    (hh : Hist (Keygen.impl sha) s₀ h s) (e : StateErr) (he : s.err = some e) :
    SaysAborted (e.value.text lib) 0 s.roundNumber (ascii "message timeout") ∨
    ∃ id ∈ ids, id ≠ self ∧ ((s.roundNumber = 1 ∧ SaysAborted (e.value.text lib) id.toNat 1 (ascii "ZK Schnorr failed")) ∨
      (s.roundNumber = 2 ∧ SaysAborted (e.value.text lib) id.toNat 2 (ascii "VSS failed to validate"))) := by
  have hv := says_value lib e
  obtain ⟨hr, ⟨h1, h2⟩ | ⟨h1, h2, ⟨h3, h4⟩ | ⟨h3, h4⟩⟩⟩ := keygen_cause self ids t timeout now s₀ h₀ hnd hh e he
  · rw [h1, hr, h2] at hv; exact Or.inl hv
  · rw [h3, h4] at hv; exact Or.inr ⟨_, h1, h2, Or.inl ⟨hr ▸ h3, hv⟩⟩
  · rw [h3, h4] at hv; exact Or.inr ⟨_, h1, h2, Or.inr ⟨hr ▸ h3, hv⟩⟩

/-- What the error of an aborted signing session says. -/
theorem C109_sign_text (lib : Bytes) (secret : SecretShare G) (shares : Public G) (ids : IDSlice) (message : Bytes) (timeout now : Nat)
    (s₀ : State G (Sign.Round G)) (h₀ : Sign.newSignState sha ids secret shares message timeout now = .ok s₀) (hnd : ids.Nodup)
    {h : List (Op G × Ret G)} {s : State G (Sign.Round G)} (hh : Hist (Sign.impl sha) s₀ h s) (e : StateErr) (he : s.err = some e) :
    SaysAborted (e.value.text lib) 0 s.roundNumber (ascii "message timeout") ∨
    (s.roundNumber = 2 ∧ SaysAborted (e.value.text lib) 0 2 (ascii "full signature is invalid")) ∨
    ∃ id ∈ ids, id ≠ secret.id ∧
      ((s.roundNumber = 1 ∧ SaysAborted (e.value.text lib) id.toNat 1 (ascii "commitment Ei or Di was the identity")) ∨
      (s.roundNumber = 2 ∧ SaysAborted (e.value.text lib) id.toNat 2 (ascii "signature share is invalid"))) := by
  have hv := says_value lib e
  obtain ⟨hr, ⟨h1, h2⟩ | ⟨h1, h2, h3⟩ | ⟨h1, h2, ⟨h3, h4⟩ | ⟨h3, h4⟩⟩⟩ := sign_cause secret shares ids message timeout now s₀ h₀ hnd hh e he
  · rw [h1, hr, h2] at hv; exact Or.inl hv
  · rw [h1, h2, h3] at hv; exact Or.inr (Or.inl ⟨hr ▸ h2, hv⟩)
  · rw [h3, h4] at hv; exact Or.inr (Or.inr ⟨_, h1, h2, Or.inl ⟨hr ▸ h3, hv⟩⟩)
  · rw [h3, h4] at hv; exact Or.inr (Or.inr ⟨_, h1, h2, Or.inr ⟨hr ▸ h3, hv⟩⟩)

/-- Two aborted sessions of key generation whose errors read the same have the same error: culprit, round and cause can be told from the
text, whatever the sessions. -/
theorem C109_keygen_text_determines (lib : Bytes) (self self' : ID) (ids ids' : IDSlice) (t t' : UInt16) (timeout timeout' now now' : Nat)
    (s₀ s₀' : State G (Keygen.Round G)) (h₀ : Keygen.newKeygenState sha self ids t timeout now = .ok s₀)
    (h₀' : Keygen.newKeygenState sha self' ids' t' timeout' now' = .ok s₀') (hnd : ids.Nodup) (hnd' : ids'.Nodup)
    {h h' : List (Op G × Ret G)} {s s' : State G (Keygen.Round G)} (hh : Hist (Keygen.impl sha) s₀ h s) (hh' : Hist (Keygen.impl sha) s₀' h' s')
    (e e' : StateErr) (he : s.err = some e) (he' : s'.err = some e') (heq : e.value.text lib = e'.value.text lib) : e = e' := by
  obtain ⟨_, hc⟩ := keygen_cause self ids t timeout now s₀ h₀ hnd hh e he
  obtain ⟨_, hc'⟩ := keygen_cause self' ids' t' timeout' now' s₀' h₀' hnd' hh' e' he'
  obtain ⟨h1, h2, h3⟩ := saysAborted_unique (says_value lib e) (heq ▸ says_value lib e')
  obtain ⟨p, r, c⟩ := e
  obtain ⟨p', r', c'⟩ := e'
  simp only at hc hc' h1 h2 h3
  have h1 : p = p' := UInt16.toNat_inj.mp h1
  subst h1 h2
  rcases hc with ⟨_, rfl⟩ | ⟨_, _, ⟨_, rfl⟩ | ⟨_, rfl⟩⟩ <;> rcases hc' with ⟨_, rfl⟩ | ⟨_, _, ⟨_, rfl⟩ | ⟨_, rfl⟩⟩ <;>
    first
    | rfl
    | exact absurd h3 (by simp only [GoErr.value, ErrVal.text]; decide)

/-- The same for signing. -/
theorem C109_sign_text_determines (lib : Bytes) (secret secret' : SecretShare G) (shares shares' : Public G) (ids ids' : IDSlice)
    (message message' : Bytes) (timeout timeout' now now' : Nat) (s₀ s₀' : State G (Sign.Round G))
    (h₀ : Sign.newSignState sha ids secret shares message timeout now = .ok s₀)
    (h₀' : Sign.newSignState sha ids' secret' shares' message' timeout' now' = .ok s₀') (hnd : ids.Nodup) (hnd' : ids'.Nodup)
    {h h' : List (Op G × Ret G)} {s s' : State G (Sign.Round G)} (hh : Hist (Sign.impl sha) s₀ h s) (hh' : Hist (Sign.impl sha) s₀' h' s')
    (e e' : StateErr) (he : s.err = some e) (he' : s'.err = some e') (heq : e.value.text lib = e'.value.text lib) : e = e' := by
  obtain ⟨_, hc⟩ := sign_cause secret shares ids message timeout now s₀ h₀ hnd hh e he
  obtain ⟨_, hc'⟩ := sign_cause secret' shares' ids' message' timeout' now' s₀' h₀' hnd' hh' e' he'
  obtain ⟨h1, h2, h3⟩ := saysAborted_unique (says_value lib e) (heq ▸ says_value lib e')
  obtain ⟨p, r, c⟩ := e
  obtain ⟨p', r', c'⟩ := e'
  simp only at hc hc' h1 h2 h3
  have h1 : p = p' := UInt16.toNat_inj.mp h1
  subst h1 h2
  rcases hc with ⟨_, rfl⟩ | ⟨_, _, rfl⟩ | ⟨_, _, ⟨_, rfl⟩ | ⟨_, rfl⟩⟩ <;>
    rcases hc' with ⟨_, rfl⟩ | ⟨_, _, rfl⟩ | ⟨_, _, ⟨_, rfl⟩ | ⟨_, rfl⟩⟩ <;>
    first
    | rfl
    | exact absurd h3 (by simp only [GoErr.value, ErrVal.text, Sentinel.text]; decide)

/-! ### The errors of `HandleMessage` -/

/-- What the error of `HandleMessage` says: this party, and for a message with a sender the ID of the sender as the round and the round as
the culprit (see C65). -/
theorem C109_refused_text (lib : Bytes) (impl : RoundImpl G R) (s s' : State G R) (m : Message G) (e : HandleErr)
    (h : handleMessage impl s m = (s', some e)) :
    s' = s ∧ ∃ c, ((c = ascii "protocol already finished" ∧ s.done = true) ∨
        (c = ascii "no more messages being accepted" ∧ s.acceptedTypes = []) ∨
        (c = ascii "sender is not a party" ∧ (impl.partyIDs s.round).contains m.header.fromID = false) ∨
        (c = ascii "message from this party was already received" ∧ m.header.fromID ∈ s.received.keys) ∨
        (c = ascii "message type is not accepted for this type of round" ∧ m.header.type ∉ s.acceptedTypes)) ∧
      if m.header.fromID = 0 then SaysRefused (e.value.text lib) (impl.selfID s.round).toNat s.roundNumber c
      else SaysBlamed (e.value.text lib) (impl.selfID s.round).toNat m.header.fromID.toNat s.roundNumber c := by
  have key : ∀ c : GoErr, if m.header.fromID = 0 then
      SaysRefused ((wrapError impl s c m.header.fromID).value.text lib) (impl.selfID s.round).toNat s.roundNumber (c.value.text lib)
      else SaysBlamed ((wrapError impl s c m.header.fromID).value.text lib) (impl.selfID s.round).toNat m.header.fromID.toNat s.roundNumber
        (c.value.text lib) := by
    intro c
    unfold wrapError
    by_cases hz : m.header.fromID = 0
    · rw [if_pos hz, if_pos hz]
      exact ⟨_, _, number_formatUint _, number_formatUint _, rfl⟩
    · rw [if_neg hz, if_neg hz]
      exact ⟨_, _, _, number_formatUint _, number_formatUint _, number_formatUint _, rfl⟩
  cases handle_cases impl h
  case finished h1 => exact ⟨rfl, _, Or.inl ⟨rfl, h1⟩, key .finished⟩
  case noMore h1 h2 => exact ⟨rfl, _, Or.inr (Or.inl ⟨rfl, h2⟩), key .noMoreMessages⟩
  case notAParty _ _ h1 => exact ⟨rfl, _, Or.inr (Or.inr (Or.inl ⟨rfl, h1⟩)), key .notAParty⟩
  case already _ _ h1 => exact ⟨rfl, _, Or.inr (Or.inr (Or.inr (Or.inl ⟨rfl, h1⟩))), key .alreadyReceived⟩
  case badType _ _ h1 => exact ⟨rfl, _, Or.inr (Or.inr (Or.inr (Or.inr ⟨rfl, h1⟩))), key .typeNotAccepted⟩

/-! ### The errors of decoders -/

/-- The decoders that return errors as values decode what the others decode. -/
theorem C109_decoders (m : Message G) (data : Bytes) :
    ((∀ v, Header.unmarshalBinaryE data = .ok v ↔ Header.unmarshalBinary data = .ok v) ∧
      (∀ v : KeyGen1 G, KeyGen1.unmarshalBinaryE data = .ok v ↔ KeyGen1.unmarshalBinary data = .ok v) ∧
      (∀ v, KeyGen2.unmarshalBinaryE data = .ok v ↔ KeyGen2.unmarshalBinary data = .ok v) ∧
      (∀ v : Sign1 G, Sign1.unmarshalBinaryE data = .ok v ↔ Sign1.unmarshalBinary data = .ok v) ∧
      (∀ v, Sign2.unmarshalBinaryE data = .ok v ↔ Sign2.unmarshalBinary data = .ok v) ∧
      (∀ v : Signature G, Signature.unmarshalBinaryE data = .ok v ↔ Signature.unmarshalBinary data = .ok v) ∧
      (∀ v : SecretShare G, SecretShare.unmarshalBinaryE data = .ok v ↔ SecretShare.unmarshalBinary data = .ok v) ∧
      (∀ v, Message.unmarshalBinaryE m data = .ok v ↔ Message.unmarshalBinary m data = .ok v) ∧
      (∀ v, Message.bytesAppendE m data = .ok v ↔ Message.bytesAppend m data = .ok v)) :=
  ⟨(Agree.header data).iff_ok.1, (Agree.keyGen1 data).iff_ok.1, (Agree.keyGen2 data).iff_ok.1, (Agree.sign1 data).iff_ok.1,
    (Agree.sign2 data).iff_ok.1, (Agree.signature data).iff_ok.1, (Agree.secretShare data).iff_ok.1, (Agree.message m data).iff_ok.1,
    (Agree.bytesAppend m data).iff_ok.1⟩

/-- The decoders of the payloads return an error that `errors.Is` recognises as `messages.ErrInvalidMessage` exactly when the data has the
wrong length for the type (`KeyGen1`: is too short for the proof). -/
theorem C109_invalid_message (data : Bytes) :
    (∀ e, (KeyGen1.unmarshalBinaryE data : Outcome ErrVal (KeyGen1 G)) = .err e → (e.is .messagesInvalid = true ↔ data.length < 64)) ∧
    (∀ e, KeyGen2.unmarshalBinaryE data = .err e → (e.is .messagesInvalid = true ↔ data.length ≠ 32)) ∧
    (∀ e, (Sign1.unmarshalBinaryE data : Outcome ErrVal (Sign1 G)) = .err e → (e.is .messagesInvalid = true ↔ data.length ≠ 64)) ∧
    (∀ e, Sign2.unmarshalBinaryE data = .err e → (e.is .messagesInvalid = true ↔ data.length ≠ 32)) := by
  have close : ∀ {c : Prop} {e e₀ : ErrVal} {P : Prop}, e₀.is .messagesInvalid = true → ((c ∧ e = e₀) ∨ (¬ c ∧ P)) → (P → NotIs .messagesInvalid e) →
      (e.is .messagesInvalid = true ↔ c) := by
    rintro c e e₀ P h0 (⟨h1, rfl⟩ | ⟨h1, h2⟩) h3
    · exact ⟨fun _ => h1, fun _ => h0⟩
    · have := h3 h2
      unfold NotIs at this
      rw [this]
      exact ⟨fun h => (nomatch h), fun h => absurd h h1⟩
  refine ⟨fun e he => ?_, fun e he => ?_, fun e he => ?_, fun e he => ?_⟩
  · refine close rfl (err_of_check he) fun h => ?_
    exact ((notIs_noErr .messagesInvalid _).bind fun _ => (allErr_schnorr _ _).bind fun _ => (notIs_noErr _ _).bind fun _ =>
      (allErr_exponent (by decide) _).bind fun _ => AllErr.ok _) e h
  · refine close rfl (err_of_check he) fun h => ?_
    exact ((allErr_scalar .messagesInvalid _).bind fun _ => AllErr.ok _) e h
  · refine close rfl (err_of_check he) fun h => ?_
    exact ((notIs_noErr .messagesInvalid _).bind fun _ => (notIs_wrapErr _ (allErr_element (by decide) _)).bind fun _ => (notIs_noErr _ _).bind fun _ =>
      (notIs_wrapErr _ (allErr_element (by decide) _)).bind fun _ => AllErr.ok _) e h
  · refine close rfl (err_of_check he) fun h => ?_
    exact ((notIs_wrapErr .messagesInvalid (allErr_scalar _ _)).bind fun _ => AllErr.ok _) e h

/-- The error of `Signature.UnmarshalBinary` is `eddsa.ErrInvalidMessage` exactly when the data is too short, and never
`messages.ErrInvalidMessage`, which reads the same. -/
theorem C109_signature_error (data : Bytes) (e : ErrVal) (he : (Signature.unmarshalBinaryE data : Outcome ErrVal (Signature G)) = .err e) :
    (e.is .eddsaInvalid = true ↔ data.length < 64) ∧ e.is .messagesInvalid = false ∧
      (data.length < 64 → ∀ lib, e.text lib = ascii "sig: invalid message") := by
  rcases err_of_check he with ⟨h1, rfl⟩ | ⟨h1, h2⟩
  · exact ⟨⟨fun _ => h1, fun _ => rfl⟩, rfl, fun _ _ => rfl⟩
  · have rest : ∀ t : Sentinel, t ≠ .encoding → NotIs t e := fun t ht =>
      ((notIs_noErr t _).bind fun _ => (notIs_wrapErr t (allErr_element ht _)).bind fun _ => (notIs_noErr _ _).bind fun _ =>
        (notIs_wrapErr _ (allErr_scalar _ _)).bind fun _ => AllErr.ok _) e h2
    have a1 := rest .eddsaInvalid (by decide)
    have a2 := rest .messagesInvalid (by decide)
    unfold NotIs at a1
    rw [a1]
    exact ⟨⟨fun h => (nomatch h), fun h => absurd h h1⟩, a2, fun h => absurd h h1⟩

/-- What the errors of `Header.UnmarshalBinary` say, which a caller of `Message.UnmarshalBinary` and of `PartyRoutine` sees: the data is too
short and how long it is, or what is wrong with the type, the sender or the recipient. -/
theorem C109_header_text (data : Bytes) (e : ErrVal) (he : Header.unmarshalBinaryE data = .err e) (lib : Bytes) :
    (data.length < 5 ∧ ∃ d, Number d data.length ∧
      e.text lib = ascii "Header.UnmarshalBinary: data should be at least 5 bytes (got " ++ d ++ ascii ")") ∨
    ∃ ty f1 f0 t1 t0 rest, data = ty :: f1 :: f0 :: t1 :: t0 :: rest ∧
      (((ty = 1 ∨ ty = 3 ∨ ty = 4) ∧ (t1 ≠ 0 ∨ t0 ≠ 0) ∧ e.text lib = ascii "Header.UnmarshalBinary: .To field must be 0 to indicate broadcast") ∨
       (ty = 2 ∧ t1 = 0 ∧ t0 = 0 ∧ e.text lib = ascii "Header.UnmarshalBinary: MessageTypeKeyGen2 requires a sender (.To field)") ∨
       (ty ∉ [1, 2, 3, 4] ∧ e.text lib = ascii "Header.UnmarshalBinary: invalid message type") ∨
       (ty ∈ [1, 2, 3, 4] ∧ (ty = 2 ↔ ¬ (t1 = 0 ∧ t0 = 0)) ∧ f1 = 0 ∧ f0 = 0 ∧
         e.text lib = ascii "Header.UnmarshalBinary: message must include a non 0 From value")) := by
  unfold Header.unmarshalBinaryE at he
  rcases err_of_check he with ⟨h1, rfl⟩ | ⟨h1, h2⟩
  · refine Or.inl ⟨h1, ID.formatUint data.length, formatUint_decimal _, ?_⟩
    show _ ++ _ ++ _ ++ _ ++ _ = _
    have : Cmd.lit "Header.UnmarshalBinary: data should be at least " ++ ID.formatUint headerSize ++ Cmd.lit " bytes (got " =
        ascii "Header.UnmarshalBinary: data should be at least 5 bytes (got " := by decide +kernel
    rw [← this]
    rfl
  · right
    match data, h1, h2 with
    | ty :: f1 :: f0 :: t1 :: t0 :: rest, _, h2 =>
      refine ⟨ty, f1, f0, t1, t0, rest, rfl, ?_⟩
      have hz : ∀ a b : UInt8, (a.toUInt16 <<< 8 ||| b.toUInt16) = 0 ↔ a = 0 ∧ b = 0 := by
        intro a b
        rw [← UInt16.toNat_inj, toNat_hi_lo, ← UInt8.toNat_inj, ← UInt8.toNat_inj]
        simp
      have h2 : (Header.checkE "Header.UnmarshalBinary" ty (f1.toUInt16 <<< 8 ||| f0.toUInt16) (t1.toUInt16 <<< 8 ||| t0.toUInt16) >>= fun _ =>
          (.ok ⟨ty, f1.toUInt16 <<< 8 ||| f0.toUInt16, t1.toUInt16 <<< 8 ||| t0.toUInt16⟩ : Outcome ErrVal Header)) = .err e := h2
      have h2 : Header.checkE "Header.UnmarshalBinary" ty (f1.toUInt16 <<< 8 ||| f0.toUInt16) (t1.toUInt16 <<< 8 ||| t0.toUInt16) = .err e := by
        cases hx : Header.checkE "Header.UnmarshalBinary" ty (f1.toUInt16 <<< 8 ||| f0.toUInt16) (t1.toUInt16 <<< 8 ||| t0.toUInt16) with
        | ok _ => rw [hx] at h2; cases h2
        | err _ => rw [hx] at h2; cases h2; rfl
        | panic => rw [hx] at h2; cases h2
      unfold Header.checkE at h2
      have last : (Outcome.failIf (f1.toUInt16 <<< 8 ||| f0.toUInt16 = 0) (.new (Cmd.lit "Header.UnmarshalBinary" ++
          Cmd.lit ": message must include a non 0 From value")) : Outcome ErrVal Unit) = .err e →
          f1 = 0 ∧ f0 = 0 ∧ e.text lib = ascii "Header.UnmarshalBinary: message must include a non 0 From value" := by
        intro h
        by_cases hc : f1.toUInt16 <<< 8 ||| f0.toUInt16 = 0
        · rw [Outcome.failIf, if_pos hc] at h
          cases h
          exact ⟨((hz _ _).mp hc).1, ((hz _ _).mp hc).2, rfl⟩
        · rw [Outcome.failIf, if_neg hc] at h
          cases h
      by_cases c1 : ty = MsgType.keyGen1 ∨ ty = MsgType.sign1 ∨ ty = MsgType.sign2
      · have c1' : ty = 1 ∨ ty = 3 ∨ ty = 4 := c1
        have c2 : ty ≠ 2 := by rintro rfl; revert c1'; decide
        rw [if_pos c1] at h2
        rcases err_of_check h2 with ⟨h3, rfl⟩ | ⟨h3, h4⟩
        · refine Or.inl ⟨c1', ?_, rfl⟩
          rw [ne_eq, hz, not_and_or] at h3
          exact h3
        · rw [not_not, hz] at h3
          refine Or.inr (Or.inr (Or.inr ⟨?_, ⟨fun h => absurd h c2, fun h => absurd h3 h⟩, last h4⟩))
          rcases c1' with rfl | rfl | rfl <;> decide
      · rw [if_neg c1] at h2
        by_cases c2 : ty = MsgType.keyGen2
        · rw [if_pos c2] at h2
          have c2' : ty = 2 := c2
          rcases err_of_check h2 with ⟨h3, rfl⟩ | ⟨h3, h4⟩
          · rw [hz] at h3
            exact Or.inr (Or.inl ⟨c2', h3.1, h3.2, rfl⟩)
          · rw [hz] at h3
            exact Or.inr (Or.inr (Or.inr ⟨by rw [c2']; decide, ⟨fun _ => h3, fun _ => c2'⟩, last h4⟩))
        · rw [if_neg c2] at h2
          cases h2
          refine Or.inr (Or.inr (Or.inl ⟨?_, rfl⟩))
          have c1' : ¬ (ty = 1 ∨ ty = 3 ∨ ty = 4) := c1
          have c2' : ¬ ty = 2 := c2
          simp only [List.mem_cons, List.not_mem_nil, or_false]
          tauto
    | [], h1, _ => exact absurd (show _ < 5 by simp) h1
    | [_], h1, _ => exact absurd (show _ < 5 by simp) h1
    | [_, _], h1, _ => exact absurd (show _ < 5 by simp) h1
    | [_, _, _], h1, _ => exact absurd (show _ < 5 by simp) h1
    | [_, _, _, _], h1, _ => exact absurd (show _ < 5 by simp) h1

/-- What the errors of the decoders of the payloads say when the commitments of a polynomial are malformed. -/
theorem C109_commitments_text (data : Bytes) (e : ErrVal) (he : (Exponent.unmarshalBinaryE data : Outcome ErrVal (Exponent G)) = .err e) (lib : Bytes) :
    (data.length < 2 ∧ e.text lib = ascii "party.FromBytes: b is not long enough to hold an ID") ∨
    (2 ≤ data.length ∧ ¬ 32 ∣ data.length - 2 ∧ e.text lib = ascii "length of data is wrong") ∨
    (∃ d1 d0 rest, data = d1 :: d0 :: rest ∧ 32 ∣ rest.length ∧ rest.length ≠ 32 * ((256 * d1.toNat + d0.toNat + 1) % 65536) ∧
      e.text lib = ascii "wrong number of coefficients embedded") ∨
    (∃ d1 d0 rest, data = d1 :: d0 :: rest ∧ rest.length = 32 * ((256 * d1.toNat + d0.toNat + 1) % 65536) ∧
      e.text lib = ascii "ristretto: invalid element encoding") := by
  unfold Exponent.unmarshalBinaryE at he
  match data, he with
  | [], he => exact Or.inl ⟨by simp, by cases he; rfl⟩
  | [_], he => exact Or.inl ⟨by simp, by cases he; rfl⟩
  | d1 :: d0 :: rest, he =>
    right
    have he : (Outcome.failIf (rest.length % 32 ≠ 0) (.new (Cmd.lit "length of data is wrong")) >>= fun _ =>
      Outcome.failIf (rest.length ≠ ((d1.toUInt16 <<< 8 ||| d0.toUInt16) + 1).toNat * 32) (.new (Cmd.lit "wrong number of coefficients embedded")) >>= fun _ =>
      (Exponent.decodeLoopE ((d1.toUInt16 <<< 8 ||| d0.toUInt16) + 1).toNat rest : Outcome ErrVal (Exponent G))) = .err e := he
    have hdeg : ((d1.toUInt16 <<< 8 ||| d0.toUInt16) + 1).toNat = (256 * d1.toNat + d0.toNat + 1) % 65536 := by
      rw [UInt16.toNat_add, toNat_hi_lo, mul_comm]
      rfl
    rcases err_of_check he with ⟨h1, rfl⟩ | ⟨h1, h2⟩
    · refine Or.inl ⟨by simp, ?_, rfl⟩
      rwa [show (d1 :: d0 :: rest).length - 2 = rest.length by simp, Nat.dvd_iff_mod_eq_zero]
    · rw [not_not] at h1
      right
      rcases err_of_check h2 with ⟨h3, rfl⟩ | ⟨h3, h4⟩
      · refine Or.inl ⟨d1, d0, rest, rfl, Nat.dvd_of_mod_eq_zero h1, ?_, rfl⟩
        rw [hdeg] at h3
        omega
      · rw [not_not] at h3
        refine Or.inr ⟨d1, d0, rest, rfl, by rw [hdeg] at h3; omega, ?_⟩
        have loop : ∀ (k : Nat) (b : Bytes), b.length = k * 32 → ∀ e, (Exponent.decodeLoopE k b : Outcome ErrVal (Exponent G)) = .err e → e = .var .encoding := by
          intro k
          induction k with
          | zero => intro b _ e h; cases h
          | succ k ih =>
            intro b hb e h
            have e1 : sliceTo b 32 = .ok (b.take 32) := if_pos (by omega)
            have e2 : sliceFrom b 32 = .ok (b.drop 32) := if_pos (by omega)
            simp only [Exponent.decodeLoopE, e1, e2, Outcome.noErr, Outcome.ok_bind] at h
            unfold elementSetCanonicalBytesE at h
            cases hs : (RGroup.setCanonicalBytes (b.take 32) : Option G) with
            | none => rw [hs] at h; cases h; rfl
            | some g =>
              rw [hs] at h
              cases hl : (Exponent.decodeLoopE k (b.drop 32) : Outcome ErrVal (Exponent G)) with
              | ok _ => rw [show (Outcome.orErr (some g) (ErrVal.var .encoding) : Outcome ErrVal G) = .ok g from rfl, Outcome.ok_bind, hl] at h; cases h
              | err e' =>
                rw [show (Outcome.orErr (some g) (ErrVal.var .encoding) : Outcome ErrVal G) = .ok g from rfl, Outcome.ok_bind, hl] at h
                cases h
                exact ih (b.drop 32) (by rw [List.length_drop]; omega) _ hl
              | panic => rw [show (Outcome.orErr (some g) (ErrVal.var .encoding) : Outcome ErrVal G) = .ok g from rfl, Outcome.ok_bind, hl] at h; cases h
        rw [loop _ _ h3 _ h4]
        rfl

/-- `Message.UnmarshalBinary` and `Message.BytesAppend` return no error that `errors.Is` recognises as any of the package-level variables. -/
theorem C109_message_hides (m : Message G) (data : Bytes) (t : Sentinel) (e : ErrVal) :
    (Message.unmarshalBinaryE m data = .err e → e.is t = false) ∧ (Message.bytesAppendE m data = .err e → e.is t = false) := by
  have pay : ∀ {α : Type} (old : Option α) (x : Outcome ErrVal α), AllErr (NotIs t) (Message.payloadE old x) := by
    intro α old x e he; cases x <;> cases he
  constructor
  · refine AllErr.bind (P := NotIs t) (allErr_header t data) (fun h => (notIs_noErr t _).bind fun _ => ?_) e
    split
    · exact (pay _ _).bind fun _ => AllErr.ok _
    split
    · exact (pay _ _).bind fun _ => AllErr.ok _
    split
    · exact (pay _ _).bind fun _ => AllErr.ok _
    split
    · exact (pay _ _).bind fun _ => AllErr.ok _
    · intro e he; cases he; rfl
  · refine AllErr.bind (P := NotIs t) (notIs_wrapErr t (AllErr.bind (allErr_check t _ _ _ _) fun _ => AllErr.ok _)) (fun _ => ?_) e
    have nd : AllErr (NotIs t) (Outcome.err Message.noData : Outcome ErrVal Bytes) := by intro e he; cases he; rfl
    split
    · cases m.keyGen1; exacts [nd, AllErr.ok _]
    split
    · cases m.keyGen2; exacts [nd, AllErr.ok _]
    split
    · cases m.sign1; exacts [nd, AllErr.ok _]
    split
    · cases m.sign2; exacts [nd, AllErr.ok _]
    · exact nd

/-! ### Recognising the end of a session -/

/-- Refuted: an aborted session does not give the error that the round reported to a caller who asks with `errors.Is`, since
`state.Error` has no method `Unwrap`; not even for `sign.ErrValidateSigShare` and `sign.ErrValidateSignature`, which are exported for this
purpose. -/
theorem C109_sentinel_lost (secret : SecretShare G) (shares : Public G) (ids : IDSlice) (message : Bytes) (timeout now : Nat)
    (s₀ : State G (Sign.Round G)) (h₀ : Sign.newSignState sha ids secret shares message timeout now = .ok s₀) (hnd : ids.Nodup)
    {h : List (Op G × Ret G)} {s : State G (Sign.Round G)} (hh : Hist (Sign.impl sha) s₀ h s) (e : StateErr) (he : s.err = some e) :
    (e.cause = .badSigShare ∨ e.cause = .badSignature ↔
      ∃ t ∈ [Sentinel.sigShare, Sentinel.signature], ∃ p r, ∀ lib, SaysAborted (e.value.text lib) p r t.text) ∧
    ∀ t, e.value.is t = false := by
  refine ⟨⟨?_, ?_⟩, fun t => rfl⟩
  · rintro (hc | hc)
    · exact ⟨.sigShare, by simp, _, _, fun lib => by have := says_value lib e; rw [hc] at this; exact this⟩
    · exact ⟨.signature, by simp, _, _, fun lib => by have := says_value lib e; rw [hc] at this; exact this⟩
  · rintro ⟨t, ht, p, r, hs⟩
    obtain ⟨_, _, h3⟩ := saysAborted_unique (says_value [] e) (hs [])
    obtain ⟨_, ⟨_, h2⟩ | ⟨_, _, h2⟩ | ⟨_, _, ⟨_, h2⟩ | ⟨_, h2⟩⟩⟩ := sign_cause secret shares ids message timeout now s₀ h₀ hnd hh e he
    · rw [h2] at h3
      rcases List.mem_pair.mp ht with rfl | rfl
      · exact absurd h3 (by decide)
      · exact absurd h3 (by decide)
    · exact Or.inr h2
    · rw [h2] at h3
      rcases List.mem_pair.mp ht with rfl | rfl
      · exact absurd h3 (by decide)
      · exact absurd h3 (by decide)
    · exact Or.inl h2

/-! ### The errors of `PartyRoutine` -/

theorem routineInputs_agree (impl : RoundImpl G R) (input : List Bytes) (s : State G R) :
    (routineInputsE impl input s = none ∧ routineInputs impl input s = none) ∨
    (∃ s', routineInputsE impl input s = some (s', none) ∧ routineInputs impl input s = some (s', none)) ∨
    (∃ s' e e', routineInputsE impl input s = some (s', some e) ∧ routineInputs impl input s = some (s', some e') ∧ (∀ t, e.is t = false) ∧
      ((∃ e₀, e' = .unmarshal e₀ ∧ ∀ lib, ∃ rest, e.text lib = ascii "failed to unmarshal message: " ++ rest) ∨
        (∃ e₀ : HandleErr, e' = .handle e₀ ∧ ∀ lib, e.text lib = ascii "failed to handle message: " ++ e₀.value.text lib))) := by
  induction input generalizing s with
  | nil => exact Or.inr (Or.inl ⟨s, rfl, rfl⟩)
  | cons m rest ih =>
    unfold routineInputsE routineInputs
    have hA := Agree.message (Message.fresh : Message G) m
    have hN := fun t e => (C109_message_hides (Message.fresh : Message G) m t e).1
    generalize Message.unmarshalBinaryE (Message.fresh : Message G) m = x at hA hN ⊢
    generalize Message.unmarshalBinary (Message.fresh : Message G) m = y at hA ⊢
    cases hA with
    | panic => exact Or.inl ⟨rfl, rfl⟩
    | err e e' =>
      exact Or.inr (Or.inr ⟨s, _, _, rfl, rfl, fun t => hN t e rfl, Or.inl ⟨e', rfl, fun lib => ⟨_, rfl⟩⟩⟩)
    | ok msg =>
      dsimp only
      rcases hx : handleMessage impl s msg with ⟨s', _ | e⟩
      · exact ih s'
      · refine Or.inr (Or.inr ⟨s', _, _, rfl, rfl, fun t => ?_, Or.inr ⟨e, rfl, fun lib => rfl⟩⟩)
        have key : ∀ c : GoErr, (∀ t, c.value.is t = false) → ∀ culprit, ∀ t, (wrapError impl s c culprit).value.is t = false := by
          intro c hc culprit t
          unfold wrapError
          split <;> exact hc t
        show e.value.is t = false
        cases handle_cases impl hx <;> exact key _ (fun _ => rfl) _ t

/-- `PartyRoutine` with error values does what it does with tags; its errors are told apart by how they start (or by being the error of the
session as it is), and `errors.Is` recognises none of them as a package-level variable. -/
theorem C109_routine (impl : RoundImpl G R) (ord : MapOrder) (coins : Coins) (input : List Bytes) (s : State G R) :
    (∀ s' out, partyRoutineE impl ord coins input s = some (s', .ok out) ↔ partyRoutine impl ord coins input s = some (s', .ok out)) ∧
    (partyRoutineE impl ord coins input s = none ↔ partyRoutine impl ord coins input s = none) ∧
    (∀ s' e, partyRoutineE impl ord coins input s = some (s', .error e) → (∀ t, e.is t = false) ∧
      ∃ e', partyRoutine impl ord coins input s = some (s', .error e') ∧
        match e' with
        | .unmarshal _ => ∀ lib, ∃ rest, e.text lib = ascii "failed to unmarshal message: " ++ rest
        | .handle e₀ => ∀ lib, e.text lib = ascii "failed to handle message: " ++ e₀.value.text lib
        | .marshal _ => ∀ lib, e.text lib = ascii "message does not contain any data" ∨ ∃ rest, e.text lib = ascii "message.BytesAppend: " ++ rest
        | .aborted e₀ => e = e₀.value ∧ s'.err = some e₀) := by
  have hout : ∀ (l : List (Message G)) out e, routineOutputsE l out = .err e → (∀ t, e.is t = false) ∧
      ∀ lib, e.text lib = ascii "message does not contain any data" ∨ ∃ rest, e.text lib = ascii "message.BytesAppend: " ++ rest := by
    intro l
    induction l with
    | nil => intro out e h; cases h
    | cons m l ih =>
      intro out e h
      unfold routineOutputsE at h
      cases hb : Message.bytesAppendE m [] with
      | ok b => rw [hb] at h; exact ih _ _ h
      | panic => rw [hb] at h; cases h
      | err e₁ =>
        rw [hb] at h
        cases h
        refine ⟨fun t => (C109_message_hides m [] t e).2 hb, fun lib => ?_⟩
        have : AllErr (fun e => ∀ lib, e.text lib = ascii "message does not contain any data" ∨ ∃ rest, e.text lib = ascii "message.BytesAppend: " ++ rest)
            (Message.bytesAppendE m []) := by
          refine AllErr.bind (AllErr.wrapErr ?_) fun _ => ?_
          · intro e _ lib; exact Or.inr ⟨_, rfl⟩
          · have nd : AllErr (fun e => ∀ lib, e.text lib = ascii "message does not contain any data" ∨
                ∃ rest, e.text lib = ascii "message.BytesAppend: " ++ rest) (Outcome.err Message.noData : Outcome ErrVal Bytes) := by
              intro e he lib; cases he; exact Or.inl rfl
            split
            · cases m.keyGen1; exacts [nd, AllErr.ok _]
            split
            · cases m.keyGen2; exacts [nd, AllErr.ok _]
            split
            · cases m.sign1; exacts [nd, AllErr.ok _]
            split
            · cases m.sign2; exacts [nd, AllErr.ok _]
            · exact nd
        exact this e hb lib
  unfold partyRoutineE partyRoutine
  rcases routineInputs_agree impl input s with ⟨h1, h2⟩ | ⟨s₁, h1, h2⟩ | ⟨s₁, e, e', h1, h2, h3, h4⟩
  · rw [h1, h2]
    exact ⟨fun _ _ => by simp, by simp, fun _ _ h => (nomatch h)⟩
  · rw [h1, h2]
    dsimp only
    cases hp : State.processAll impl ord coins s₁ with
    | none => exact ⟨fun _ _ => by simp, by simp, fun _ _ h => (nomatch h)⟩
    | some x =>
      obtain ⟨s₂, l⟩ := x
      dsimp only
      have hA := Agree.outputs l []
      have hE := hout l []
      generalize routineOutputsE l [] = x at hA hE ⊢
      generalize routineOutputs l [] = y at hA ⊢
      cases hA with
      | panic => exact ⟨fun _ _ => by simp, by simp, fun _ _ h => (nomatch h)⟩
      | err e e' =>
        refine ⟨fun _ _ => ⟨fun h => (nomatch h), fun h => (nomatch h)⟩, ⟨fun h => (nomatch h), fun h => (nomatch h)⟩, ?_⟩
        intro s' e₁ h
        cases h
        exact ⟨(hE e rfl).1, _, rfl, (hE e rfl).2⟩
      | ok out =>
        dsimp only
        cases hf : s₂.isFinished with
        | false => exact ⟨fun _ _ => by simp, by simp, fun _ _ h => (nomatch h)⟩
        | true =>
          have hd : s₂.done = true := hf
          have hw : s₂.waitForError = some s₂.err := by
            unfold State.waitForError
            rw [if_neg (by rw [hd]; simp)]
          rw [hw]
          cases hs : s₂.err with
          | none => exact ⟨fun _ _ => by simp, by simp, fun _ _ h => (nomatch h)⟩
          | some e₀ =>
            refine ⟨fun _ _ => ⟨fun h => (nomatch h), fun h => (nomatch h)⟩, ⟨fun h => (nomatch h), fun h => (nomatch h)⟩, ?_⟩
            intro s' e₁ h
            cases h
            exact ⟨fun t => rfl, _, rfl, rfl, hs⟩
  · rw [h1, h2]
    refine ⟨fun _ _ => ⟨fun h => (nomatch h), fun h => (nomatch h)⟩, ⟨fun h => (nomatch h), fun h => (nomatch h)⟩, ?_⟩
    intro s' e₁ h
    cases h
    refine ⟨h3, _, rfl, ?_⟩
    rcases h4 with ⟨e₀, rfl, h4⟩ | ⟨e₀, rfl, h4⟩
    · exact h4
    · exact h4

end Verif.Props
