import Verif.Props.SignBlame
import Verif.Props.KeygenOut

/-!
C108: participant lists with duplicates.  Neither constructor refuses them; the session then waits for ever for messages it
counts twice.  So what is proved about duplicate-free lists holds for all lists of at most 65536 entries.
-/

namespace Verif.Props

open Verif State Outcome

section Generic

variable {G R : Type} {impl : RoundImpl G R}

/-- With a duplicate in the list there are never enough messages. -/
theorem not_full_of_duplicate {r₀ : R} {h : List (Op G × Ret G)} {s : State G R} (hi : Inv impl r₀ h s)
    (hself : impl.selfID r₀ ∈ impl.partyIDs r₀) (hlen : (impl.partyIDs r₀).length ≤ 65536) (hdup : ¬ (impl.partyIDs r₀).Nodup) :
    ¬ Full impl s := by
  intro hf
  unfold Full at hf
  rw [hi.ids, N_pred_eq (List.ne_nil_of_mem hself) hlen, ← GoMap.keys_length] at hf
  have hsub : impl.selfID r₀ :: s.received.keys ⊆ (impl.partyIDs r₀).dedup := by
    intro k hk
    rw [List.mem_dedup]
    rcases List.mem_cons.mp hk with rfl | hk
    · exact hself
    · obtain ⟨v, hv⟩ := GoMap.mem_keys_iff.mp hk
      have hv := GoMap.mem_of_get? hv
      cases v with
      | none => exact (hi.storedNone k hv).2.1
      | some m =>
        obtain ⟨rfl, hr, _⟩ := hi.stored k m hv
        exact IDSlice.contains_sound hr.2.2
  have hnot : impl.selfID r₀ ∉ s.received.keys := by
    intro hk
    obtain ⟨v, hv⟩ := GoMap.mem_keys_iff.mp hk
    have hv := GoMap.mem_of_get? hv
    cases v with
    | none => exact (hi.storedNone _ hv).2.2 rfl
    | some m =>
      obtain ⟨he, hr, _⟩ := hi.stored _ m hv
      exact hr.1 he.symm
  have hwf : s.received.keys.Nodup := hi.wf
  have h1 := (List.subperm_of_subset (List.nodup_cons.mpr ⟨hnot, hwf⟩) hsub).length_le
  have h2 : (impl.partyIDs r₀).dedup.length < (impl.partyIDs r₀).length := by
    refine lt_of_le_of_ne (List.dedup_sublist _).length_le fun he => hdup ?_
    rw [← (List.dedup_sublist _).eq_of_length he]
    exact List.nodup_dedup _
  rw [List.length_cons] at h1
  omega

/-- C108: a session whose list of participants has a duplicate (and at most 65536 entries) never does anything, whatever
arrives: it stays in round 0 with the round it was made with until a timeout ends it, `ProcessAll` never changes it nor
returns a message, and every message for it is refused. -/
theorem C108_stuck (hst : impl.Stable) {r₀ : R} (hself : impl.selfID r₀ ∈ impl.partyIDs r₀)
    (hlen : (impl.partyIDs r₀).length ≤ 65536) (hdup : ¬ (impl.partyIDs r₀).Nodup) {timeout now : Nat}
    {h : List (Op G × Ret G)} {s : State G R} (hh : Hist impl (newBaseState impl r₀ timeout now) h s) :
    s.roundNumber = 0 ∧ (∀ ord coins, processAll impl ord coins s = some (s, [])) ∧
      (∀ op out, (op, Ret.messages out) ∈ h → out = []) ∧
      (∀ m, Spec.ForUs (impl.selfID r₀) (impl.partyIDs r₀) m → ∃ e, handleMessage impl s m = (s, some e)) ∧
      (s.done = false → s.round = r₀ ∧ s.err = none) ∧
      (s.done = true → impl.reset r₀ = some s.round ∧ s.err = some ⟨0, 0, .timeout⟩) := by
  have hidle : ∀ {h : List (Op G × Ret G)} {s : State G R}, Hist impl (newBaseState impl r₀ timeout now) h s →
      ∀ ord coins, processAll impl ord coins s = some (s, []) := by
    intro h s hh ord coins
    exact (processAll_iff impl).mpr (.idle (Or.inr (not_full_of_duplicate (inv_hist hst hh) hself hlen hdup)))
  have hmain : s.roundNumber = 0 ∧ (∀ op out, (op, Ret.messages out) ∈ h → out = []) ∧
      (s.done = false → s.round = r₀ ∧ s.err = none) ∧
      (s.done = true → impl.reset r₀ = some s.round ∧ s.err = some ⟨0, 0, .timeout⟩) := by
    induction hh with
    | nil => exact ⟨rfl, by simp, fun _ => ⟨rfl, rfl⟩, fun hd => by simp [newBaseState] at hd⟩
    | @snoc h s₁ s₂ op ret hh hs ih =>
      obtain ⟨h1, h2, h3, h4⟩ := ih
      have hq : ∀ out, ret = Ret.messages out → out = [] → ∀ op' out', (op', Ret.messages out') ∈ h ++ [(op, ret)] → out' = [] := by
        intro out hr ho op' out' hm
        rcases List.mem_append.mp hm with hm | hm
        · exact h2 _ _ hm
        · rw [List.mem_singleton, hr, ho] at hm
          cases hm; rfl
      have hq' : (∀ out, ret ≠ Ret.messages out) → ∀ op' out', (op', Ret.messages out') ∈ h ++ [(op, ret)] → out' = [] := by
        intro hr op' out' hm
        rcases List.mem_append.mp hm with hm | hm
        · exact h2 _ _ hm
        · rw [List.mem_singleton] at hm
          cases hm; exact absurd rfl (hr out')
      cases op with
      | handle m =>
        simp only [step] at hs
        obtain ⟨rfl, rfl⟩ := Prod.mk.inj (Option.some.inj hs)
        have key : (handleMessage impl s₁ m).1.roundNumber = s₁.roundNumber ∧ (handleMessage impl s₁ m).1.done = s₁.done ∧
            (handleMessage impl s₁ m).1.round = s₁.round ∧ (handleMessage impl s₁ m).1.err = s₁.err := by
          rcases hx : handleMessage impl s₁ m with ⟨s', e⟩
          cases handle_cases impl hx <;> exact ⟨rfl, rfl, rfl, rfl⟩
        obtain ⟨k1, k2, k3, k4⟩ := key
        refine ⟨k1.trans h1, hq' (by simp), ?_, ?_⟩
        · rw [k2, k3, k4]; exact h3
        · rw [k2, k3, k4]; exact h4
      | processAll ord coins =>
        simp only [step, hidle hh ord coins, Option.map_some] at hs
        obtain ⟨rfl, rfl⟩ := Prod.mk.inj (Option.some.inj hs)
        exact ⟨h1, hq [] rfl rfl, h3, h4⟩
      | advance dt =>
        simp only [step] at hs
        obtain ⟨rfl, rfl⟩ := Prod.mk.inj (Option.some.inj hs)
        exact ⟨h1, hq' (by simp), h3, h4⟩
      | fire =>
        simp only [step] at hs
        split at hs
        · split at hs <;> (obtain ⟨rfl, rfl⟩ := Prod.mk.inj (Option.some.inj hs); exact ⟨h1, hq' (by simp), h3, h4⟩)
        · obtain ⟨rfl, rfl⟩ := Prod.mk.inj (Option.some.inj hs); exact ⟨h1, hq' (by simp), h3, h4⟩
      | callback =>
        simp only [step] at hs
        split at hs
        · obtain ⟨rfl, rfl⟩ := Prod.mk.inj (Option.some.inj hs); exact ⟨h1, hq' (by simp), h3, h4⟩
        · cases hd : s₁.done with
          | true =>
            simp only [timeoutCallback, reportError, hd, if_true, Option.map_some] at hs
            obtain ⟨rfl, rfl⟩ := Prod.mk.inj (Option.some.inj hs)
            exact ⟨h1, hq' (by simp), by simp, fun _ => h4 hd⟩
          | false =>
            obtain ⟨h5, h6⟩ := h3 hd
            simp only [timeoutCallback, reportError, hd, h6, finish, StateErr.new, Bool.false_eq_true, if_false, h5, h1] at hs
            cases hr : impl.reset r₀ with
            | none => rw [hr] at hs; simp at hs
            | some r =>
              rw [hr] at hs
              simp only [Option.bind_eq_bind, Option.bind_some] at hs
              split at hs
              · simp at hs
              · simp only [Option.map_some] at hs
                obtain ⟨rfl, rfl⟩ := Prod.mk.inj (Option.some.inj hs)
                exact ⟨rfl, hq' (by simp), by simp, fun _ => ⟨rfl, rfl⟩⟩
  exact ⟨hmain.1, hidle hh, hmain.2.1, fun m hm => C32_refused_before_start hst hh hmain.1 m hm, hmain.2.2.1, hmain.2.2.2⟩

theorem emitted_eq_nil {h : List (Op G × Ret G)} (h2 : ∀ op out, (op, Ret.messages out) ∈ h → out = []) : Spec.emitted h = [] := by
  rw [List.eq_nil_iff_forall_not_mem]
  intro m hm
  obtain ⟨⟨op, ret⟩, h3, h4⟩ := List.mem_flatMap.mp hm
  cases ret with
  | messages out =>
    rw [h2 _ _ h3] at h4
    cases h4
  | handled e => cases h4
  | nothing => cases h4

/-- A new session proceeds exactly when its list has as many entries as distinct entries, modulo 65536. -/
theorem full_new_iff {r₀ : R} (hself : impl.selfID r₀ ∈ impl.partyIDs r₀) (timeout now : Nat) :
    Full impl (newBaseState impl r₀ timeout now) ↔
      (impl.partyIDs r₀).dedup.length % 65536 = (impl.partyIDs r₀).length % 65536 := by
  have hperm : (impl.selfID r₀ :: (newBaseState impl r₀ timeout now).received.keys).Perm (impl.partyIDs r₀).dedup := by
    rw [List.perm_ext_iff_of_nodup _ (List.nodup_dedup _)]
    · intro k
      rw [List.mem_dedup, List.mem_cons, newBaseState, mem_initReceived]
      by_cases hk : k = impl.selfID r₀
      · simp [hk, hself]
      · simp [hk, GoMap.keys]
    · refine List.nodup_cons.mpr ⟨?_, wf_initReceived _ _ _ GoMap.wf_nil⟩
      rw [newBaseState, mem_initReceived]
      simp [GoMap.keys]
  have h1 := hperm.length_eq
  rw [List.length_cons, GoMap.keys_length] at h1
  have hpos := List.length_pos_of_mem hself
  have hle := (List.dedup_sublist (impl.partyIDs r₀)).length_le
  have hd : (impl.partyIDs r₀).dedup.length ≤ 65536 := nodup_ids_length (List.nodup_dedup _)
  have h3 : (IDSlice.N (impl.partyIDs r₀) - 1).toNat = ((impl.partyIDs r₀).length + 65535) % 65536 := by
    unfold IDSlice.N
    rw [UInt16.toNat_sub, UInt16.toNat_ofNat']
    simp only [UInt16.toNat_one]
    omega
  unfold Full
  rw [show (newBaseState impl r₀ timeout now).round = r₀ from rfl, h3]
  omega

/-- So a session that gets anywhere has a list without duplicates: if it left round 0, sent a message, or ended otherwise
than by a timeout. -/
theorem C108_progress (hst : impl.Stable) {r₀ : R} (hself : impl.selfID r₀ ∈ impl.partyIDs r₀)
    (hlen : (impl.partyIDs r₀).length ≤ 65536) {timeout now : Nat} {h : List (Op G × Ret G)} {s : State G R}
    (hh : Hist impl (newBaseState impl r₀ timeout now) h s)
    (hp : s.roundNumber ≠ 0 ∨ Spec.emitted h ≠ [] ∨ (s.done = true ∧ s.err ≠ some ⟨0, 0, .timeout⟩)) : (impl.partyIDs r₀).Nodup := by
  by_contra hdup
  obtain ⟨h1, _, h2, _, _, h3⟩ := C108_stuck hst hself hlen hdup hh
  rcases hp with hp | hp | ⟨hd, he⟩
  · exact hp h1
  · exact hp (emitted_eq_nil h2)
  · exact he (h3 hd).2

end Generic

variable {G : Type} [RGroup G] {sha : Sha512}

/-- `NewKeygenState` accepts lists with duplicates: only the order, the own ID and the threshold matter. -/
theorem C108_keygen_accepts (self : ID) (ids : IDSlice) (t : UInt16) (timeout now : Nat) (hs : ids.Pairwise (· ≤ ·))
    (hlen : ids.length ≤ 65536) (hm : self ∈ ids) (h1 : 1 ≤ t.toNat) (h2 : t.toNat ≤ ids.length - 1) :
    ∃ s : State G (Keygen.Round G), Keygen.newKeygenState sha self ids t timeout now = .ok s := by
  obtain ⟨r₀, hr⟩ : ∃ r₀ : Keygen.Round G, Keygen.newRound self ids t = .ok r₀ := by
    unfold Keygen.newRound Keygen.newBaseRound
    rw [Outcome.failIf_neg (by rintro rfl; simp at h1), Outcome.ok_bind, Outcome.failIf_neg, Outcome.ok_bind, Outcome.failIf_neg,
      Outcome.ok_bind]
    · exact ⟨_, rfl⟩
    · simpa using IDSlice.contains_complete hs hm
    · apply UInt16.not_lt.mpr
      rw [UInt16.le_iff_toNat_le, N_pred_eq (List.ne_nil_of_mem hm) hlen]
      exact h2
  exact ⟨_, newKeygenState_ok.mpr ⟨r₀, hr, rfl⟩⟩

/-- Key generation with a duplicate in the list: it never sends a message, never ends and has no output; a timeout crashes it
(`C33_keygen_timeout_crashes`). -/
theorem C108_keygen (self : ID) (ids : IDSlice) (t : UInt16) (timeout now : Nat) (s₀ : State G (Keygen.Round G))
    (h₀ : Keygen.newKeygenState sha self ids t timeout now = .ok s₀) (hlen : ids.length ≤ 65536) (hdup : ¬ ids.Nodup)
    {h : List (Op G × Ret G)} {s : State G (Keygen.Round G)} (hh : Hist (Keygen.impl sha) s₀ h s) :
    s.done = false ∧ s.err = none ∧ Spec.emitted h = [] ∧ s.round.output.pub = none ∧ s.round.output.secretKey = none := by
  obtain ⟨r₀, h1, rfl⟩ := newKeygenState_ok.mp h₀
  have hm := (C34_accepted self ids t timeout now _ h₀).1
  obtain ⟨e1, e2, e3, e4⟩ : (Keygen.impl sha).selfID r₀ = self ∧ (Keygen.impl sha).partyIDs r₀ = ids ∧
      (Keygen.impl sha).reset r₀ = none ∧ r₀.output.pub = none ∧ r₀.output.secretKey = none := by
    unfold Keygen.newRound Keygen.newBaseRound at h1
    simp only [bind_eq_ok, failIf_eq_ok, pure_def, Outcome.ok.injEq] at h1
    obtain ⟨_, _, _, _, _, _, rfl⟩ := h1
    exact ⟨rfl, rfl, rfl, rfl, rfl⟩
  obtain ⟨_, _, h2, _, h3, h4⟩ := C108_stuck (Keygen.impl_stable sha) (r₀ := r₀) (by rw [e1, e2]; exact hm)
    (by rw [e2]; exact hlen) (by rw [e2]; exact hdup) hh
  have hd : s.done = false := by
    by_contra hd
    obtain ⟨h5, _⟩ := h4 (by simpa using hd)
    rw [e3] at h5
    cases h5
  obtain ⟨h5, h6⟩ := h3 hd
  exact ⟨hd, h6, emitted_eq_nil h2, by rw [h5]; exact e4.1, by rw [h5]; exact e4.2⟩

/-- Signing with a duplicate in the list of signers: it never sends a message, has no signature, and ends only by a timeout. -/
theorem C108_sign (secret : SecretShare G) (shares : Public G) (ids : IDSlice) (message : Bytes) (timeout now : Nat)
    (s₀ : State G (Sign.Round G)) (h₀ : Sign.newSignState sha ids secret shares message timeout now = .ok s₀)
    (hlen : ids.length ≤ 65536) (hdup : ¬ ids.Nodup) {h : List (Op G × Ret G)} {s : State G (Sign.Round G)}
    (hh : Hist (Sign.impl sha) s₀ h s) :
    Spec.emitted h = [] ∧ s.round.output.signature = none ∧ (s.done = true → s.err = some ⟨0, 0, .timeout⟩) := by
  obtain ⟨r₀, h1, rfl⟩ := newSignState_ok.mp h₀
  obtain ⟨hm, _, hout⟩ := C42_accepted secret shares ids message timeout now _ h₀
  have e1 : (Sign.impl sha).selfID r₀ = secret.id ∧ (Sign.impl sha).partyIDs r₀ = ids := by
    obtain ⟨h2, h3, ps, h4, rfl⟩ := Sign.newRound_ok.mp h1
    exact ⟨rfl, rfl⟩
  obtain ⟨_, _, h2, _, h3, h4⟩ := C108_stuck (Sign.impl_stable sha) (r₀ := r₀) (by rw [e1.1, e1.2]; exact hm)
    (by rw [e1.2]; exact hlen) (by rw [e1.2]; exact hdup) hh
  have hout' : r₀.output.signature = none := hout
  refine ⟨emitted_eq_nil h2, ?_, fun hd => (h4 hd).2⟩
  cases hd : s.done with
  | false => rw [(h3 hd).1]; exact hout'
  | true =>
    have h5 := (h4 hd).1
    simp only [Sign.impl, Sign.reset, Option.some.injEq] at h5
    rw [← h5]
    exact hout'

/-- C41 for every list of at most 65536 entries. -/
theorem C108_keygen_output (self : ID) (ids : IDSlice) (t : UInt16) (timeout now : Nat) (s₀ : State G (Keygen.Round G))
    (h₀ : Keygen.newKeygenState sha self ids t timeout now = .ok s₀) (hlen : ids.length ≤ 65536)
    {h : List (Op G × Ret G)} {s : State G (Keygen.Round G)} (hh : Hist (Keygen.impl sha) s₀ h s) :
    (s.done = true ∧ s.err = none ↔ s.round.output.pub ≠ none) ∧ (s.done = true ∧ s.err = none ↔ s.round.output.secretKey ≠ none) := by
  by_cases hnd : ids.Nodup
  · obtain ⟨h1, h2⟩ := C41_output_iff_success self ids t timeout now s₀ h₀ hnd hh
    exact ⟨⟨fun h => (h2 h).1, fun h => by_contra fun hc => h (h1 hc).1⟩, ⟨fun h => (h2 h).2, fun h => by_contra fun hc => h (h1 hc).2⟩⟩
  · obtain ⟨h1, _, _, h2, h3⟩ := C108_keygen self ids t timeout now s₀ h₀ hlen hnd hh
    simp [h1, h2, h3]

/-- C44 for every list of at most 65536 entries: a signature is there exactly when signing finished without error, and it
verifies. -/
theorem C108_sign_output (secret : SecretShare G) (shares : Public G) (ids : IDSlice) (message : Bytes) (timeout now : Nat)
    (s₀ : State G (Sign.Round G)) (h₀ : Sign.newSignState sha ids secret shares message timeout now = .ok s₀)
    (hlen : ids.length ≤ 65536) {h : List (Op G × Ret G)} {s : State G (Sign.Round G)} (hh : Hist (Sign.impl sha) s₀ h s) :
    (s.done = true ∧ s.err = none ↔ s.round.output.signature ≠ none) ∧
      ∀ sig, s.round.output.signature = some sig → PublicKey.verify sha shares.groupKey message sig = .ok true := by
  by_cases hnd : ids.Nodup
  · refine ⟨⟨fun h => C44_success_has_signature secret shares ids message timeout now s₀ h₀ hnd hh h.1 h.2, fun h => ?_⟩, fun sig hsig =>
      (C44_output_verifies secret shares ids message timeout now s₀ h₀ hnd hh sig hsig).2.2⟩
    exact by_contra fun hc => h (C44_no_signature_without_success secret shares ids message timeout now s₀ h₀ hnd hh hc)
  · obtain ⟨_, h2, h3⟩ := C108_sign secret shares ids message timeout now s₀ h₀ hlen hnd hh
    refine ⟨⟨fun h => ?_, fun h => absurd h2 h⟩, fun sig hsig => ?_⟩
    · rw [h3 h.1] at h
      cases h.2
    · rw [h2] at hsig
      cases hsig

/-- Longer lists: the count of participants is 16 bits wide, so a signing session with duplicates does start when the number of
superfluous entries is a multiple of 65536, and only then. -/
theorem C108_wraps (secret : SecretShare G) (shares : Public G) (ids : IDSlice) (message : Bytes) (timeout now : Nat)
    (s₀ : State G (Sign.Round G)) (h₀ : Sign.newSignState sha ids secret shares message timeout now = .ok s₀)
    (ord : MapOrder) (coins : Coins) :
    ((ids.length - ids.dedup.length) % 65536 = 0 → ∃ s', processAll (Sign.impl sha) ord coins s₀ =
        some (s', [Message.newSign1 secret.id (coins 0 • (base : G)) (coins 1 • base)])) ∧
      ((ids.length - ids.dedup.length) % 65536 ≠ 0 → processAll (Sign.impl sha) ord coins s₀ = some (s₀, [])) := by
  obtain ⟨r₀, h1, rfl⟩ := newSignState_ok.mp h₀
  obtain ⟨hm, hids, _⟩ := C42_accepted secret shares ids message timeout now _ h₀
  obtain ⟨e1, e2, e3, p, e4⟩ : r₀.selfID = secret.id ∧ r₀.partyIDs = ids ∧ r₀.stage = .r0 ∧ ∃ p, r₀.parties.get? r₀.selfID = some p := by
    obtain ⟨h2, h3, ps, h4, rfl⟩ := Sign.newRound_ok.mp h1
    obtain ⟨X, _, h5⟩ := (Sign.setupLoop_ok h4).2.2.2.2 _ hm
    exact ⟨rfl, rfl, rfl, _, h5⟩
  have hf := full_new_iff (impl := Sign.impl sha) (r₀ := r₀) (by change r₀.selfID ∈ r₀.partyIDs; rw [e1, e2]; exact hm) timeout now
  rw [show (Sign.impl sha).partyIDs r₀ = ids from e2] at hf
  have hle := (List.dedup_sublist ids).length_le
  constructor
  · intro hw
    have hloop : ∀ l : List (ID × Option (Message G)), processLoop (Sign.impl sha) l r₀ = .ok r₀ := by
      intro l
      induction l with
      | nil => rfl
      | cons a l ih =>
        obtain ⟨k, v⟩ := a
        rw [processLoop, show (Sign.impl sha).processMessage r₀ v = .ok r₀ by simp only [Sign.impl, e3]]
        exact ih
    have hg : ∃ r, (Sign.impl sha).generateMessages ord coins r₀ =
        .ok (r, [Message.newSign1 secret.id (coins 0 • base) (coins 1 • base)]) ∧ r.stage = .r0 := by
      simp only [Sign.impl, e3]
      exact ⟨_, Sign.generate0_ok.mpr ⟨p, e4, rfl, by rw [e1]⟩, e3⟩
    obtain ⟨r, hg, hr⟩ := hg
    exact ⟨_, (processAll_iff _).mpr (.next _ _ r₀ r { r with stage := .r1 } _ rfl (hf.mpr (by omega)) (hloop _) hg rfl
      (by simp only [Sign.impl, hr]))⟩
  · intro hw
    exact (processAll_iff _).mpr (.idle (Or.inr fun h => hw (by have := hf.mp h; omega)))

end Verif.Props
