import Verif.Props.Crashes
import Verif.Props.KeygenOut
import Verif.Props.Helpers

/-!
C120: a list of participants that contains the ID 0.  `NewKeygenState` accepts it (pkg/frost/keygen/base.go:45-68 does not look for it), `NewSignState` does not.
-/

namespace Verif.Props

open Verif State Outcome

variable {G : Type} [RGroup G] {sha : Sha512}

/-- Such a list is accepted like any other. -/
theorem C120_accepted (self : ID) (ids : IDSlice) (t : UInt16) (timeout now : Nat) (hs : ids.Pairwise (· < ·)) (h0 : ∀ id ∈ ids, id ≠ 0)
    (hm : self ∈ ids) (h1 : 1 ≤ t.toNat) (h2 : t.toNat ≤ ids.length) :
    (0 :: ids).Pairwise (· < ·) ∧ ∃ s : State G (Keygen.Round G), Keygen.newKeygenState sha self (0 :: ids) t timeout now = .ok s := by
  have hp : (0 :: ids).Pairwise (· < ·) := List.pairwise_cons.mpr ⟨fun id hid => ?_, hs⟩
  · exact ⟨hp, C34_accepts self (0 :: ids) t timeout now (hp.imp fun h => UInt16.le_of_lt h) (hp.imp fun h => UInt16.ne_of_lt h) (List.mem_cons_of_mem _ hm) h1 (by simpa using h2)⟩
  · have := h0 id hid
    rw [UInt16.lt_iff_toNat_lt]
    rcases Nat.eq_zero_or_pos id.toNat with h | h
    · exact absurd (UInt16.toNat_inj.mp h) this
    · exact h

/-- Signing: it is refused, and never accepted. -/
theorem C120_sign (secret : SecretShare G) (shares : Public G) (ids : IDSlice) (message : Bytes) (timeout now : Nat) (hz : (0 : ID) ∈ ids) :
    (∀ s, Sign.newSignState sha ids secret shares message timeout now ≠ .ok s) ∧
      ((∀ id ∈ ids, shares.shares.get? id ≠ none) → ∃ e, Sign.newSignState sha ids secret shares message timeout now = .err e) :=
  ⟨fun s h => ((C42_accepted secret shares ids message timeout now s h).2.1 0 hz).2.1 rfl,
    fun hsh => C42_refused secret shares ids message timeout now hsh (.inr (.inr hz))⟩

/-- A key generation with such a list never succeeds and has no output.  It sends at most its broadcast, and not even that if the party is 0 itself: no share of
its secret is ever sent. -/
theorem C120_nothing {self : ID} {ids : IDSlice} {t : UInt16} {timeout now : Nat} {s₀ : State G (Keygen.Round G)}
    (h₀ : Keygen.newKeygenState sha self ids t timeout now = .ok s₀) (hnd : ids.Nodup) (hz : (0 : ID) ∈ ids) {h : List (Op G × Ret G)}
    {s : State G (Keygen.Round G)} (hh : Hist (Keygen.impl sha) s₀ h s) :
    (s.done = true → s.err ≠ none) ∧ (s.done = false → s.roundNumber ≤ 1) ∧ s.round.output.pub = none ∧ s.round.output.secretKey = none ∧
      (Spec.emitted h = [] ∨ self ≠ 0 ∧ ∃ π c, Spec.emitted h = [Message.newKeyGen1 self π c]) := by
  have hout := (C41_output_iff_success self ids t timeout now s₀ h₀ hnd hh).1
  obtain ⟨r₀, hs, rfl⟩ := start_of_new h₀ hnd
  obtain ⟨heq, _⟩ := hs.eq
  have hids : r₀.partyIDs = ids := by rw [heq]
  have hno : s.done = true → s.err ≠ none := by
    intro hd he
    obtain ⟨_, _, _, _, _, _, _, _, _, h5, _⟩ := (Keygen.running hs hh).2 hd he
    exact h5 0 (by rw [hids]; exact hz) rfl
  obtain ⟨o1, o2⟩ := hout fun h => hno h.1 h.2
  refine ⟨hno, fun hd => ?_, o1, o2, ?_⟩
  · have hrun := (Keygen.running hs hh).1 hd
    have := running_lt_three hrun
    by_contra hn
    rw [show s.roundNumber = 2 by omega] at hrun
    obtain ⟨_, _, _, _, _, _, _, h7, _⟩ := hrun
    exact h7 0 (by rw [hids]; exact hz) rfl
  · obtain ⟨n, h1, _⟩ := keygenSent hs hh
    match n, h1 with
    | 0, h1 => exact Or.inl h1
    | 1, ⟨f, k, h2, _, _, h3⟩ => exact Or.inr ⟨h2, _, _, h3⟩
    | 2, ⟨f, k, _, _, _, h2, _⟩ => exact absurd rfl (h2 0 hz)

/-- Round 0 waits for nobody. -/
theorem round0_full {R : Type} {impl : RoundImpl G R} (hst : impl.Stable) {r₀ : R} {timeout now : Nat} {h : List (Op G × Ret G)} {s : State G R}
    (hh : Hist impl (newBaseState impl r₀ timeout now) h s) (hnd : (impl.partyIDs r₀).Nodup) (hself : impl.selfID r₀ ∈ impl.partyIDs r₀) (hd : s.done = false)
    (hN : s.roundNumber = 0) : Full impl s := by
  have hi := inv_hist hst hh
  have hinit := wf_initReceived (G := G) (impl.selfID r₀) (impl.partyIDs r₀) [] GoMap.wf_nil
  have hkeys : ((initReceived (impl.selfID r₀) (impl.partyIDs r₀) ([] : GoMap (Option (Message G)))).map Prod.fst).Perm (others (impl.selfID r₀) (impl.partyIDs r₀)) := by
    refine (List.perm_ext_iff_of_nodup hinit (hnd.filter _)).mpr fun k => ?_
    rw [mem_initReceived]
    refine ⟨fun h => mem_others.mpr (by simpa using h), fun h => ?_⟩
    have := mem_others.mp h
    simpa using this
  rw [full_iff hi.ids (List.ne_nil_of_mem hself) hnd, (hi.round0 hN hd).1, ← List.length_map (f := Prod.fst), hkeys.length_eq]
  have : (others (impl.selfID r₀) (impl.partyIDs r₀)).length = _ := others_length hnd hself
  rw [N_pred_eq (List.ne_nil_of_mem hself) (nodup_ids_length hnd)] at this
  have h2 := List.length_pos_iff.mpr (List.ne_nil_of_mem hself)
  omega

/-- The party with the ID 0 never leaves round 0, sends nothing and never ends: every call of `ProcessAll` crashes it, and so does its timer. -/
theorem C120_own {ids : IDSlice} {t : UInt16} {timeout now : Nat} {s₀ : State G (Keygen.Round G)} (h₀ : Keygen.newKeygenState sha 0 ids t timeout now = .ok s₀)
    (hnd : ids.Nodup) {h : List (Op G × Ret G)} {s : State G (Keygen.Round G)} (hh : Hist (Keygen.impl sha) s₀ h s) :
    s.done = false ∧ s.roundNumber = 0 ∧ Spec.emitted h = [] ∧ (∀ ord coins, step (Keygen.impl sha) s (.processAll ord coins) = none) ∧
      (s.timer.fired ≠ 0 → step (Keygen.impl sha) s .callback = none) := by
  have hmem : (0 : ID) ∈ ids := (C34_accepted 0 ids t timeout now s₀ h₀).1
  have hem := (C120_nothing h₀ hnd hmem hh).2.2.2.2.resolve_right fun h => h.1 rfl
  have hcb : ∀ {h s}, Hist (Keygen.impl sha) s₀ h s → s.done = false → s.roundNumber = 0 → s.timer.fired ≠ 0 → step (Keygen.impl sha) s .callback = none :=
    fun hh hd hN hf => (C118_keygen_others h₀ hnd hh .callback (fun _ _ h => by cases h)).mpr ⟨rfl, hf, hd, hN⟩
  obtain ⟨r₀, hs, rfl⟩ := start_of_new h₀ hnd
  obtain ⟨heq, _⟩ := hs.eq
  have hself : r₀.selfID = 0 := by rw [heq]
  have hids : (Keygen.impl sha).partyIDs r₀ = ids := by rw [heq]; rfl
  have hst : r₀.stage = .r0 := by rw [heq]
  have hp : ∀ {h s}, Hist (Keygen.impl sha) (newBaseState (Keygen.impl sha) r₀ timeout now) h s → s.done = false → s.roundNumber = 0 →
      ∀ ord coins, processAll (Keygen.impl sha) ord coins s = none := by
    intro h s hh hd hN ord coins
    have hf := round0_full (Keygen.impl_stable sha) hh (by rw [hids]; exact hnd) (by rw [hids, show (Keygen.impl sha).selfID r₀ = 0 from hself]; exact hmem) hd hN
    have hrun := (Keygen.running hs hh).1 hd
    rw [hN] at hrun
    have hrun : s.round = r₀ := hrun
    have hg' : (Keygen.impl sha).generateMessages ord coins r₀ = Keygen.generate0 sha coins r₀ := by simp only [Keygen.impl, hst]
    cases hx : processAll (Keygen.impl sha) ord coins s with
    | none => rfl
    | some x =>
      exfalso
      have hc := (processAll_iff _).mp (show processAll (Keygen.impl sha) ord coins s = some (x.1, x.2) from hx)
      clear hx
      generalize x.1 = s' at hc
      generalize x.2 = out at hc
      cases hc with
      | idle h => rcases h with h | h; (· rw [hd] at h; cases h); exact h hf
      | processErr e r r' _ _ h => rw [hrun, Keygen.loop0 hst] at h; cases h
      | generateErr e r₁ r r' _ _ h h' =>
        rw [hrun, Keygen.loop0 hst] at h
        cases h
        exact Keygen.noErr_generate0 _ _ _ _ (hg'.symm.trans h')
      | last _ _ r₁ r r' _ _ _ h h' =>
        rw [hrun, Keygen.loop0 hst] at h
        cases h
        exact (Keygen.generate0_ok.mp (hg'.symm.trans h')).2.1 hself
      | next _ _ r₁ r r' _ _ _ h h' =>
        rw [hrun, Keygen.loop0 hst] at h
        cases h
        exact (Keygen.generate0_ok.mp (hg'.symm.trans h')).2.1 hself
  have key : s.done = false ∧ s.roundNumber = 0 := by
    clear hem
    induction hh with
    | nil => exact ⟨rfl, rfl⟩
    | @snoc h s s' op ret hh hstep ih =>
      obtain ⟨hd, hN⟩ := ih
      rcases step_cases hstep with ⟨m, e, rfl, rfl, h1⟩ | ⟨ord, coins, out, rfl, rfl, h1⟩ | ⟨dt, rfl, rfl, rfl⟩ |
        ⟨rfl, rfl, rfl | ⟨t, _, _, rfl⟩⟩ | ⟨rfl, rfl, ⟨_, rfl⟩ | ⟨hf, _, rfl⟩ | ⟨r, hf, _, _, hr, rfl⟩⟩
      · cases handle_cases (Keygen.impl sha) h1 <;> exact ⟨hd, hN⟩
      · have := (processAll_iff _).mpr h1
        rw [hp hh hd hN] at this; cases this
      · exact ⟨hd, hN⟩
      · exact ⟨hd, hN⟩
      · exact ⟨hd, hN⟩
      · exact ⟨hd, hN⟩
      · exact ⟨hd, hN⟩
      · rw [hcb hh hd hN hf] at hstep; cases hstep
  exact ⟨key.1, key.2, hem, fun ord coins => by simp [step, hp hh key.1 key.2], hcb hh key.1 key.2⟩

/-- Any other party: once it has sent its broadcast, `ProcessAll` does nothing, crashes, or ends the session with an error. -/
theorem C120_other {self : ID} {ids : IDSlice} {t : UInt16} {timeout now : Nat} {s₀ : State G (Keygen.Round G)}
    (h₀ : Keygen.newKeygenState sha self ids t timeout now = .ok s₀) (hnd : ids.Nodup) (hz : (0 : ID) ∈ ids) {h : List (Op G × Ret G)}
    {s : State G (Keygen.Round G)} (hh : Hist (Keygen.impl sha) s₀ h s) (hN : s.roundNumber ≠ 0) {ord : MapOrder} {coins : Coins} {s' : State G (Keygen.Round G)}
    {ret : Ret G} (hx : step (Keygen.impl sha) s (.processAll ord coins) = some (s', ret)) : ret = .messages [] ∧ (s' = s ∨ s'.done = true ∧ s'.err ≠ none) := by
  have hn := C120_nothing h₀ hnd hz (hh.snoc hx)
  have hn0 := C120_nothing h₀ hnd hz hh
  simp only [step, Option.map_eq_some_iff] at hx
  obtain ⟨⟨s₁, out⟩, hx, he⟩ := hx
  obtain ⟨rfl, rfl⟩ := Prod.mk.inj he
  have hc := (processAll_iff _).mp hx
  clear hx he
  cases hc with
  | idle => exact ⟨rfl, Or.inl rfl⟩
  | processErr => exact ⟨rfl, Or.inr ⟨rfl, by simp⟩⟩
  | generateErr => exact ⟨rfl, Or.inr ⟨rfl, by simp⟩⟩
  | last _ _ _ _ _ _ hd =>
    exfalso
    have he : s.err = none := by
      by_contra he
      have := start_of_new h₀ hnd
      obtain ⟨r₀, hs, rfl⟩ := this
      rw [(inv_hist (Keygen.impl_stable sha) hh).err he] at hd
      cases hd
    exact hn.1 rfl (by simpa using he)
  | next _ _ _ _ _ _ hd =>
    exfalso
    have := hn.2.1 hd
    simp only at this
    omega

/-- The first round of a key generation completes. -/
theorem keygen_first {self : ID} {ids : IDSlice} {t : UInt16} {r₀ : Keygen.Round G} (hs : Keygen.Start r₀ self ids t) (hnd : ids.Nodup) (hself : self ≠ 0)
    (ht : t ≠ 65535) {timeout now : Nat} {h : List (Op G × Ret G)} {s : State G (Keygen.Round G)}
    (hh : Hist (Keygen.impl sha) (newBaseState (Keygen.impl sha) r₀ timeout now) h s) (hd : s.done = false) (hN : s.roundNumber = 0) (ord : MapOrder) (coins : Coins) :
    ∃ s' out, processAll (Keygen.impl sha) ord coins s = some (s', out) ∧ s'.done = false := by
  obtain ⟨heq, _, _, hc⟩ := hs.eq
  have hmem := IDSlice.contains_sound hc
  have e1 : (Keygen.impl sha).selfID r₀ = self := by rw [heq]; rfl
  have e2 : (Keygen.impl sha).partyIDs r₀ = ids := by rw [heq]; rfl
  have hst : r₀.stage = .r0 := by rw [heq]
  have hf := round0_full (Keygen.impl_stable sha) hh (by rw [e2]; exact hnd) (by rw [e1, e2]; exact hmem) hd hN
  have hrun := (Keygen.running hs hh).1 hd
  rw [hN] at hrun
  have hrun : s.round = r₀ := hrun
  have hg := (Keygen.generate0_ok (sha := sha) (coins := coins) (r := r₀)).mpr ⟨(by rw [heq]; exact ht), (by rw [heq]; exact hself), rfl, rfl⟩
  have hg' : (Keygen.impl sha).generateMessages ord coins r₀ = Keygen.generate0 sha coins r₀ := by simp only [Keygen.impl, hst]
  have hty : s.acceptedTypes = [0, 1, 2] := by
    rw [(inv_hist (Keygen.impl_stable sha) hh).types]; simp [used, hd, hN]; rfl
  have hl : processLoop (Keygen.impl sha) (ord.order _ s.received) s.round = .ok r₀ := by rw [hrun]; exact Keygen.loop0 hst
  obtain ⟨r', hn⟩ : ∃ r', (Keygen.impl sha).nextRound { r₀ with secret := Spec.evalAt (Keygen.coinPoly r₀.threshold coins) r₀.selfID.val, polynomial := some (Keygen.coinPoly r₀.threshold coins), commitmentsSum := some (Exponent.ofPoly (Keygen.coinPoly r₀.threshold coins)) } = some r' := by
    simp [Keygen.impl, hst]
  exact ⟨_, _, (processAll_iff _).mpr (.next 0 [1, 2] r₀ _ _ _ hd hf hl (hg'.trans hg) hty hn), hd⟩

/-- No message with the sender 0 can be received: if everything that was handed to the session was decoded from bytes, `ProcessAll` never crashes the session,
and it can end only by its timer. -/
theorem C120_bytes {self : ID} {ids : IDSlice} {t : UInt16} {timeout now : Nat} {s₀ : State G (Keygen.Round G)}
    (h₀ : Keygen.newKeygenState sha self ids t timeout now = .ok s₀) (hnd : ids.Nodup) (hz : (0 : ID) ∈ ids) (hself : self ≠ 0) (ht : t ≠ 65535)
    {h : List (Op G × Ret G)} {s : State G (Keygen.Round G)} (hh : Hist (Keygen.impl sha) s₀ h s)
    (hb : ∀ m ret, (Op.handle m, ret) ∈ h → ∃ r data, Message.unmarshalBinary r data = .ok m) :
    (∀ ord coins, step (Keygen.impl sha) s (.processAll ord coins) ≠ none) ∧ (s.done = true → s.err = some ⟨0, 1, .timeout⟩) := by
  have hnothing := fun {h s} (hh : Hist (Keygen.impl sha) s₀ h s) => C120_nothing h₀ hnd hz hh
  have hcb : ∀ {h s}, Hist (Keygen.impl sha) s₀ h s → s.done = false → s.roundNumber = 0 → s.timer.fired ≠ 0 → step (Keygen.impl sha) s .callback = none :=
    fun hh hd hN hf => (C118_keygen_others h₀ hnd hh .callback (fun _ _ h => by cases h)).mpr ⟨rfl, hf, hd, hN⟩
  obtain ⟨r₀, hs, rfl⟩ := start_of_new h₀ hnd
  obtain ⟨heq, _, _, hc⟩ := hs.eq
  have hmem := IDSlice.contains_sound hc
  have e1 : (Keygen.impl sha).selfID r₀ = self := by rw [heq]; rfl
  have e2 : (Keygen.impl sha).partyIDs r₀ = ids := by rw [heq]; rfl
  have hst : r₀.stage = .r0 := by rw [heq]
  -- round 1 is never complete
  have hnf : ∀ {h s}, Hist (Keygen.impl sha) (newBaseState (Keygen.impl sha) r₀ timeout now) h s →
      (∀ m ret, (Op.handle m, ret) ∈ h → ∃ r data, Message.unmarshalBinary r data = .ok m) → s.done = false → s.roundNumber ≠ 0 → ¬ Full (Keygen.impl sha) s := by
    intro h s hh hb hd hN hf
    have hr := ready (Keygen.impl_stable sha) hh (by rw [e2]; exact hnd) (by rw [e1, e2]; exact hmem) hd hf .insertion
    have h0 : (0 : ID) ∈ (MapOrder.insertion.order _ s.received).map Prod.fst := by
      rw [hr.keys.mem_iff, e1, e2]
      exact mem_others.mpr ⟨hz, fun h => hself h.symm⟩
    obtain ⟨⟨k, v⟩, hkv, hk⟩ := List.mem_map.mp h0
    obtain ⟨m, _, h2, _, h4, _⟩ := hr.later hN k v hkv
    obtain ⟨r, data, hu⟩ := hb m _ h4
    exact (message_accepted _ _ _ hu).1.1 (h2.trans hk)
  have hret : ∀ {h s}, Hist (Keygen.impl sha) (newBaseState (Keygen.impl sha) r₀ timeout now) h s →
      (∀ m ret, (Op.handle m, ret) ∈ h → ∃ r data, Message.unmarshalBinary r data = .ok m) → s.done = false →
      ∀ ord coins, ∃ s' out, processAll (Keygen.impl sha) ord coins s = some (s', out) ∧ s'.done = false := by
    intro h s hh hb hd ord coins
    by_cases hN : s.roundNumber = 0
    · exact keygen_first hs hnd hself ht hh hd hN ord coins
    · exact ⟨s, [], (processAll_iff _).mpr (.idle (Or.inr (hnf hh hb hd hN))), hd⟩
  constructor
  · intro ord coins hx
    by_cases hd : s.done = true
    · simp [step, processAll, hd] at hx
    · obtain ⟨s', out, h1, _⟩ := hret hh hb (by simpa using hd) ord coins
      simp [step, h1] at hx
  · clear hmem
    induction hh with
    | nil => intro h; cases h
    | @snoc h s s' op ret hh hstep ih =>
      have hb' : ∀ m ret, (Op.handle m, ret) ∈ h → ∃ r data, Message.unmarshalBinary r data = .ok m := fun m ret hm => hb m ret (List.mem_append_left _ hm)
      have ih := ih hb'
      rcases step_cases hstep with ⟨m, e, rfl, rfl, h1⟩ | ⟨ord, coins, out, rfl, rfl, h1⟩ | ⟨dt, rfl, rfl, rfl⟩ |
        ⟨rfl, rfl, rfl | ⟨t, _, _, rfl⟩⟩ | ⟨rfl, rfl, ⟨_, rfl⟩ | ⟨hf, _, rfl⟩ | ⟨r, hf, hd, _, hr, rfl⟩⟩
      · cases handle_cases (Keygen.impl sha) h1 <;> exact ih
      · have h1 := (processAll_iff _).mpr h1
        by_cases hd : s.done = true
        · have : s' = s := by
            simp only [processAll, if_pos hd] at h1
            exact (Prod.mk.inj (Option.some.inj h1)).1.symm
          rw [this]; exact ih
        · obtain ⟨s₂, out₂, h2, h3⟩ := hret hh hb' (by simpa using hd) ord coins
          rw [h1] at h2
          obtain ⟨rfl, rfl⟩ := Prod.mk.inj (Option.some.inj h2)
          intro h; rw [h3] at h; cases h
      · exact ih
      · exact ih
      · exact ih
      · exact ih
      · exact ih
      · intro _
        have hN : s.roundNumber ≠ 0 := fun hN => by rw [hcb hh hd hN hf] at hstep; cases hstep
        have hN1 := (hnothing hh).2.1 hd
        have he : s.err = none := by
          by_contra he
          rw [(inv_hist (Keygen.impl_stable sha) hh).err he] at hd; cases hd
        simp [he, show s.roundNumber = 1 by omega]

end Verif.Props
