import Verif.Props.SignBlame

/-!
C26, for whole sessions: of the messages of the first round that has any, at most one is accepted from each sender, so the commitments that a session works
with are determined by its history.
-/

namespace Verif.Props

open Verif State

variable {G : Type} [RGroup G] {sha : Sha512} {R : Type} {impl : RoundImpl G R}

/-- C26: in a session whose first two types of messages are `t₀` and `t₁`, and that does not use `t₁` again, at most one message of type `t₁` is accepted
from each sender. -/
theorem C26_one_per_sender (hst : impl.Stable) {r₀ : R} {timeout now : Nat} {h : List (Op G × Ret G)} {s : State G R}
    (hh : Hist impl (newBaseState impl r₀ timeout now) h s) (t₀ t₁ : MsgType) (rest : List MsgType)
    (htypes : impl.acceptedMessageTypes r₀ = t₀ :: t₁ :: rest) (hrest : t₁ ∉ rest) (m m' : Message G)
    (hm : (Op.handle m, Ret.handled none) ∈ h) (hm' : (Op.handle m', Ret.handled none) ∈ h)
    (hus : Spec.ForUs (impl.selfID r₀) (impl.partyIDs r₀) m) (hus' : Spec.ForUs (impl.selfID r₀) (impl.partyIDs r₀) m')
    (ht : m.header.type = t₁) (ht' : m'.header.type = t₁) (hfrom : m.header.fromID = m'.header.fromID) : m = m' := by
  let P : Message G → Prop := fun m => Spec.ForUs (impl.selfID r₀) (impl.partyIDs r₀) m ∧ m.header.type = t₁
  let A : List (Op G × Ret G) → Message G → Prop := fun h m => (Op.handle m, Ret.handled none) ∈ h ∧ P m
  -- besides, in the round in which they are accepted, they are stored
  suffices hinv : (∀ m m', A h m → A h m' → m.header.fromID = m'.header.fromID → m = m') ∧ (s.roundNumber = 0 → s.done = false → ∀ m, ¬ A h m) ∧
      (s.roundNumber = 1 → s.done = false → ∀ m, A h m → s.received.get? m.header.fromID = some (some m)) from
    hinv.1 m m' ⟨hm, hus, ht⟩ ⟨hm', hus', ht'⟩ hfrom
  clear hm hm' hus hus' ht ht' hfrom m m'
  induction hh with
  | nil => exact ⟨fun _ _ h => (nomatch h.1), fun _ _ _ h => (nomatch h.1), fun _ _ _ h => (nomatch h.1)⟩
  | @snoc h s₁ s₂ op ret h1 hs ih =>
    obtain ⟨ih1, ih0, ih2⟩ := ih
    have hi := inv_hist hst h1
    have hi₂ := inv_hist hst (h1.snoc hs)
    have quiet : (∀ m, (op, ret) = (Op.handle m, Ret.handled none) → ¬ P m) → ∀ m, A (h ++ [(op, ret)]) m → A h m := by
      intro hq m ⟨hm, hu⟩
      rcases List.mem_append.mp hm with hm | hm
      · exact ⟨hm, hu⟩
      · exact absurd hu (hq m (List.mem_singleton.mp hm).symm)
    have same : (∀ m, (op, ret) = (Op.handle m, Ret.handled none) → ¬ P m) →
        (s₂.done = false → s₂.roundNumber = s₁.roundNumber ∧ s₁.done = false ∧ s₂.received = s₁.received) →
        (∀ m m', A (h ++ [(op, ret)]) m → A (h ++ [(op, ret)]) m' → m.header.fromID = m'.header.fromID → m = m') ∧
        (s₂.roundNumber = 0 → s₂.done = false → ∀ m, ¬ A (h ++ [(op, ret)]) m) ∧
        (s₂.roundNumber = 1 → s₂.done = false → ∀ m, A (h ++ [(op, ret)]) m → s₂.received.get? m.header.fromID = some (some m)) := by
      intro hq hk
      refine ⟨fun m m' hm hm' => ih1 m m' (quiet hq m hm) (quiet hq m' hm'), fun hr hd m hm => ?_, fun hr hd m hm => ?_⟩
      · obtain ⟨k1, k2, _⟩ := hk hd
        exact ih0 (k1 ▸ hr) k2 m (quiet hq m hm)
      · obtain ⟨k1, k2, k3⟩ := hk hd
        rw [k3]
        exact ih2 (k1 ▸ hr) k2 m (quiet hq m hm)
    have htd : s₁.done = false → s₁.acceptedTypes = (t₀ :: t₁ :: rest).drop s₁.roundNumber := by
      intro hd
      rw [hi.types, used, if_neg (by simp [hd]), htypes, Nat.add_zero]
    -- where a message of type `t₁` can be accepted
    have hround : s₁.done = false → ∀ m : Message G, m.header.type = t₁ → Relevant (impl.selfID s₁.round) (impl.partyIDs s₁.round) m →
        m.header.fromID ∉ s₁.received.keys → m.header.type ∈ s₁.acceptedTypes → s₁.roundNumber = 1 := by
      intro hd m ht hrel hn hty
      rw [hi.self, hi.ids] at hrel
      match hk : s₁.roundNumber with
      | 0 =>
        exfalso
        apply hn
        rw [(hi.round0 hk hd).1, mem_initReceived]
        exact Or.inr ⟨IDSlice.contains_sound hrel.2.2, hrel.1⟩
      | 1 => rfl
      | k + 2 =>
        exfalso
        rw [htd hd, hk, ht] at hty
        exact hrest (List.mem_of_mem_drop (by simpa using hty))
    rcases step_cases hs with ⟨m, e, rfl, rfl, h2⟩ | ⟨ord, coins, out, rfl, rfl, h2⟩ | ⟨dt, rfl, rfl, rfl⟩ |
      ⟨rfl, rfl, rfl | ⟨t, _, _, rfl⟩⟩ | ⟨rfl, rfl, ⟨_, rfl⟩ | ⟨_, _, rfl⟩ | ⟨r, _, _, _, _, rfl⟩⟩
    · cases handle_cases impl h2 with
      | finished hd => exact same (fun _ h => by cases h) fun h => by rw [hd] at h; cases h
      | noMore hd | notAParty hd | already hd | badType hd => exact same (fun _ h => by cases h) fun _ => ⟨rfl, hd, rfl⟩
      | fromSelf hd hx => exact same (fun m' h hu => by cases h; exact hu.1.1 (hx.trans hi.self)) fun _ => ⟨rfl, hd, rfl⟩
      | notForUs hd _ h4 h5 =>
        exact same (fun m' h hu => by cases h; rcases hu.1.2.2 with h6 | h6; exacts [h4 h6, h5 (h6.trans hi.self.symm)]) fun _ => ⟨rfl, hd, rfl⟩
      | stored hd hrel hn hty =>
        by_cases hPm : P m
        · have hr1 := hround hd m hPm.2 hrel hn (List.mem_of_head? hty)
          have hnew : ∀ m', A h m' → m'.header.fromID ≠ m.header.fromID := fun m' hm' he =>
            hn (GoMap.mem_keys_iff.mpr ⟨_, he ▸ ih2 hr1 hd m' hm'⟩)
          have split : ∀ m', A (h ++ [(Op.handle m, Ret.handled none)]) m' → A h m' ∨ m' = m := by
            intro m' ⟨hm', hp⟩
            rcases List.mem_append.mp hm' with hm' | hm'
            · exact Or.inl ⟨hm', hp⟩
            · exact Or.inr (by cases List.mem_singleton.mp hm'; rfl)
          refine ⟨fun a b ha hb hab => ?_, fun hr => ?_, fun _ _ a ha => ?_⟩
          · rcases split a ha with ha' | rfl <;> rcases split b hb with hb' | rfl
            · exact ih1 a b ha' hb' hab
            · exact absurd hab (hnew a ha')
            · exact absurd hab.symm (hnew b hb')
            · rfl
          · have hr : s₁.roundNumber = 0 := hr
            omega
          · show GoMap.get? (GoMap.set _ _ _) _ = _
            rcases split a ha with ha' | rfl
            · rw [GoMap.get?_set_ne _ _ (hnew a ha')]
              exact ih2 hr1 hd a ha'
            · rw [GoMap.get?_set_same]
        · refine ⟨fun a b ha hb => ih1 a b (quiet (fun _ h => by cases h; exact hPm) a ha) (quiet (fun _ h => by cases h; exact hPm) b hb),
            fun hr hd' a ha => ih0 hr hd a (quiet (fun _ h => by cases h; exact hPm) a ha), fun hr hd' a ha => ?_⟩
          have ha' := ih2 hr hd a (quiet (fun _ h => by cases h; exact hPm) a ha)
          show GoMap.get? (GoMap.set _ _ _) _ = _
          rw [GoMap.get?_set_ne _ _ (fun he => hn (GoMap.mem_keys_iff.mpr ⟨_, he ▸ ha'⟩))]
          exact ha'
      | queued hd hrel hn hty hty' =>
        refine same (fun m' h hu => ?_) fun _ => ⟨rfl, hd, rfl⟩
        cases h
        have hr1 := hround hd m hu.2 hrel hn hty
        apply hty'
        rw [htd hd, hr1, hu.2]
        rfl
    · have hq : ∀ m, ((Op.processAll ord coins, Ret.messages out) : Op G × Ret G) = (Op.handle m, Ret.handled none) → ¬ P m := fun _ h => by cases h
      cases h2 with
      | idle hx => exact same hq fun hd => ⟨rfl, hd, rfl⟩
      | processErr | generateErr | last => exact same hq fun h => (nomatch h)
      | next t types r₁ r r' _ hd hf hpl hg ht hn =>
        refine ⟨fun a b ha hb => ih1 a b (quiet hq a ha) (quiet hq b hb), fun hr => (nomatch hr), fun hr _ a ha => ?_⟩
        have hr : s₁.roundNumber + 1 = 1 := hr
        exact absurd (quiet hq a ha) (ih0 (by omega) hd a)
    · exact same (fun _ h => by cases h) fun hd => ⟨rfl, hd, rfl⟩
    · exact same (fun _ h => by cases h) fun hd => ⟨rfl, hd, rfl⟩
    · exact same (fun _ h => by cases h) fun hd => ⟨rfl, hd, rfl⟩
    · exact same (fun _ h => by cases h) fun hd => ⟨rfl, hd, rfl⟩
    · exact same (fun _ h => by cases h) fun hd => ⟨rfl, hd, rfl⟩
    · exact same (fun _ h => by cases h) fun hd => (nomatch hd)

/-- C26: in a key generation, the commitments accepted from a sender are determined by the history. -/
theorem C26_keygen_commitments (self : ID) (ids : IDSlice) (t : UInt16) (timeout now : Nat) (s₀ : State G (Keygen.Round G))
    (h₀ : Keygen.newKeygenState sha self ids t timeout now = .ok s₀) (hnd : ids.Nodup) {h : List (Op G × Ret G)} {s : State G (Keygen.Round G)}
    (hh : Hist (Keygen.impl sha) s₀ h s) (id : ID) (c c' : List G) (hc : Spec.GotCommitments self ids h id c) (hc' : Spec.GotCommitments self ids h id c') :
    c = c' := by
  obtain ⟨r₀, hs, rfl⟩ := start_of_new h₀ hnd
  obtain ⟨m, k, a1, a2, a3, a4, a5, a6⟩ := hc
  obtain ⟨m', k', b1, b2, b3, b4, b5, b6⟩ := hc'
  have e1 : (Keygen.impl sha).selfID r₀ = self := by rw [hs.eq.1]; rfl
  have e2 : (Keygen.impl sha).partyIDs r₀ = ids := by rw [hs.eq.1]; rfl
  have := C26_one_per_sender (Keygen.impl_stable sha) hh MsgType.none 1 [2] rfl (by decide) m m' a1 b1 (by rw [e1, e2]; exact a2) (by rw [e1, e2]; exact b2)
    a4 b4 (a3.trans b3.symm)
  subst this
  rw [a5] at b5
  cases b5
  exact a6.symm.trans b6

/-- C26: in a signing session, the commitments of all signers are determined by the history. -/
theorem C26_sign_commitments (secret : SecretShare G) (shares : Public G) (ids : IDSlice) (message : Bytes) (timeout now : Nat)
    (s₀ : State G (Sign.Round G)) (h₀ : Sign.newSignState sha ids secret shares message timeout now = .ok s₀) (hnd : ids.Nodup)
    {h : List (Op G × Ret G)} {s : State G (Sign.Round G)} (hh : Hist (Sign.impl sha) s₀ h s) (D E D' E' : ID → G)
    (hc : Spec.Commitments secret.id ids h D E) (hc' : Spec.Commitments secret.id ids h D' E') : ∀ id ∈ ids, D id = D' id ∧ E id = E' id := by
  intro id hid
  by_cases hself : id = secret.id
  · subst hself
    obtain ⟨_, _, _, _, a1⟩ := hc.1
    obtain ⟨_, _, _, _, b1⟩ := hc'.1
    have a1 := mem_emitted a1 List.mem_cons_self
    have b1 := mem_emitted b1 List.mem_cons_self
    rcases C47_at_most_one_share secret shares ids message timeout now s₀ h₀ hnd hh with h7 | ⟨D₀, E₀, h7⟩ | ⟨D₀, E₀, z', h7⟩ <;> rw [h7] at a1 b1
    · cases a1
    all_goals
      simp [Message.newSign1, Message.newSign2] at a1 b1
      exact ⟨a1.1.trans b1.1.symm, a1.2.trans b1.2.symm⟩
  · obtain ⟨r₀, hs, rfl⟩ := sign_start_of_new h₀ hnd
    obtain ⟨m, k, a1, a2, a3, a4, a5, a6, a7, _⟩ := hc.2 id hid hself
    obtain ⟨m', k', b1, b2, b3, b4, b5, b6, b7, _⟩ := hc'.2 id hid hself
    obtain ⟨_, e1, e2, _⟩ := hs.eq
    have e1 : (Sign.impl sha).selfID r₀ = secret.id := e1
    have e2 : (Sign.impl sha).partyIDs r₀ = ids := e2
    have := C26_one_per_sender (Sign.impl_stable sha) hh MsgType.none 3 [4] rfl (by decide) m m' a1 b1 (by rw [e1, e2]; exact a2) (by rw [e1, e2]; exact b2)
      a4 b4 (a3.trans b3.symm)
    subst this
    rw [a5] at b5
    cases b5
    exact ⟨a6.symm.trans b6, a7.symm.trans b7⟩

end Verif.Props
