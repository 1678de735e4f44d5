import Verif.Lemmas.StateHist

/-!
A party gets at most one message of the type of round 1 accepted.
-/

namespace Verif.State

variable {G R : Type} {impl : RoundImpl G R}

theorem first_round_unique (hst : impl.Stable) {r₀ : R} {timeout now : Nat} {t₀ t₁ : MsgType} {ts : List MsgType}
    (hty : impl.acceptedMessageTypes r₀ = t₀ :: t₁ :: ts) (ht₁ : t₁ ∉ ts) {h : List (Op G × Ret G)} {s : State G R}
    (hh : Hist impl (newBaseState impl r₀ timeout now) h s) :
    (s.roundNumber = 0 → ∀ m, Handled h m → ¬ Spec.ForUs (impl.selfID r₀) (impl.partyIDs r₀) m) ∧
    (s.roundNumber = 1 → s.done = false → ∀ m, Handled h m → Spec.ForUs (impl.selfID r₀) (impl.partyIDs r₀) m →
      m.header.type = t₁ → s.received.get? m.header.fromID = some (some m)) ∧
    (∀ m m', Handled h m → Handled h m' → Spec.ForUs (impl.selfID r₀) (impl.partyIDs r₀) m →
      Spec.ForUs (impl.selfID r₀) (impl.partyIDs r₀) m' → m.header.type = t₁ → m'.header.type = t₁ →
      m.header.fromID = m'.header.fromID → m = m') := by
  induction hh with
  | nil =>
    have hno : ∀ m : Message G, ¬ Handled [] m := fun m hm => by cases hm
    exact ⟨fun _ m hm => absurd hm (hno m), fun _ _ m hm => absurd hm (hno m), fun m _ hm => absurd hm (hno m)⟩
  | @snoc h s₁ s₂ op ret h1 hs ih =>
    obtain ⟨i1, i2, i3⟩ := ih
    have hi := inv_hist hst h1
    -- nothing new handled
    have old : ∀ {x : Op G × Ret G}, (∀ m, x = (.handle m, .handled none) → ¬ Spec.ForUs (impl.selfID r₀) (impl.partyIDs r₀) m) →
        ∀ m, Handled (h ++ [x]) m → Spec.ForUs (impl.selfID r₀) (impl.partyIDs r₀) m → Handled h m := by
      intro x hx m hm hf
      rcases List.mem_append.mp hm with hm | hm
      · exact hm
      · rw [List.mem_singleton] at hm
        exact absurd hf (hx m hm.symm)
    have keep : ∀ {x : Op G × Ret G}, (∀ m, x = (.handle m, .handled none) → ¬ Spec.ForUs (impl.selfID r₀) (impl.partyIDs r₀) m) →
        ∀ s₂ : State G R, s₂.roundNumber = s₁.roundNumber → (s₂.done = false → s₁.done = false ∧ s₂.received = s₁.received) →
        (s₂.roundNumber = 0 → ∀ m, Handled (h ++ [x]) m → ¬ Spec.ForUs (impl.selfID r₀) (impl.partyIDs r₀) m) ∧
        (s₂.roundNumber = 1 → s₂.done = false → ∀ m, Handled (h ++ [x]) m → Spec.ForUs (impl.selfID r₀) (impl.partyIDs r₀) m →
          m.header.type = t₁ → s₂.received.get? m.header.fromID = some (some m)) ∧
        (∀ m m', Handled (h ++ [x]) m → Handled (h ++ [x]) m' → Spec.ForUs (impl.selfID r₀) (impl.partyIDs r₀) m →
          Spec.ForUs (impl.selfID r₀) (impl.partyIDs r₀) m' → m.header.type = t₁ → m'.header.type = t₁ →
          m.header.fromID = m'.header.fromID → m = m') := by
      intro x hx s₂ hr hd
      refine ⟨?_, ?_, ?_⟩
      · intro h0 m hm hf
        exact i1 (hr ▸ h0) m (old hx m hm hf) hf
      · intro h0 hd2 m hm hf ht
        obtain ⟨h3, h4⟩ := hd hd2
        rw [h4]
        exact i2 (hr ▸ h0) h3 m (old hx m hm hf) hf ht
      · intro m m' hm hm' hf hf'
        exact i3 m m' (old hx m hm hf) (old hx m' hm' hf') hf hf'
    rcases step_cases hs with ⟨m, e, rfl, rfl, h2⟩ | ⟨ord, coins, out, rfl, rfl, h2⟩ | ⟨dt, rfl, rfl, rfl⟩ |
      ⟨rfl, rfl, rfl | ⟨t, _, _, rfl⟩⟩ | ⟨rfl, rfl, ⟨_, rfl⟩ | ⟨_, _, rfl⟩ | ⟨r, _, _, _, _, rfl⟩⟩
    · have hres : s₁.roundNumber = 0 → Spec.ForUs (impl.selfID r₀) (impl.partyIDs r₀) m → e ≠ none := by
        intro h0 hf he
        obtain ⟨e', h3⟩ := Props.C32_refused_before_start hst h1 h0 m hf
        rw [h3] at h2
        cases h2
        cases he
      have hcases := handle_cases impl h2
      -- an accepted message for us
      have acc : Relevant (impl.selfID s₁.round) (impl.partyIDs s₁.round) m → s₁.done = false →
          m.header.type ∈ s₁.acceptedTypes → m.header.fromID ∉ s₁.received.keys → e = none →
          s₂.roundNumber = s₁.roundNumber → s₂.done = s₁.done →
          (m.header.type = t₁ → s₁.roundNumber = 1 → s₂.received = s₁.received.set m.header.fromID (some m)) →
          (m.header.type ≠ t₁ → s₁.roundNumber = 1 → s₂.received = s₁.received) →
          (s₂.roundNumber = 0 → ∀ m', Handled (h ++ [(.handle m, .handled e)]) m' →
            ¬ Spec.ForUs (impl.selfID r₀) (impl.partyIDs r₀) m') ∧
          (s₂.roundNumber = 1 → s₂.done = false → ∀ m', Handled (h ++ [(.handle m, .handled e)]) m' →
            Spec.ForUs (impl.selfID r₀) (impl.partyIDs r₀) m' →
            m'.header.type = t₁ → s₂.received.get? m'.header.fromID = some (some m')) ∧
          (∀ a b, Handled (h ++ [(.handle m, .handled e)]) a → Handled (h ++ [(.handle m, .handled e)]) b →
            Spec.ForUs (impl.selfID r₀) (impl.partyIDs r₀) a →
            Spec.ForUs (impl.selfID r₀) (impl.partyIDs r₀) b → a.header.type = t₁ → b.header.type = t₁ →
            a.header.fromID = b.header.fromID → a = b) := by
        intro hr hd hty' hnk he hrn hdn hst1 hst2
        subst he
        rw [hi.self, hi.ids] at hr
        have hfor : Spec.ForUs (impl.selfID r₀) (impl.partyIDs r₀) m := ⟨hr.1, IDSlice.contains_sound hr.2.2, hr.2.1⟩
        have hn0 : s₁.roundNumber ≠ 0 := fun h0 => hres h0 hfor rfl
        have split : ∀ m', Handled (h ++ [(Op.handle m, Ret.handled none)]) m' → Handled h m' ∨ m' = m := by
          intro m' hm'
          rcases List.mem_append.mp hm' with hm' | hm'
          · exact Or.inl hm'
          · rw [List.mem_singleton] at hm'
            cases hm'
            exact Or.inr rfl
        have hround : m.header.type = t₁ → s₁.roundNumber = 1 := by
          intro ht
          by_contra hne
          rw [hi.types, hty] at hty'
          have : used s₁ = (s₁.roundNumber - 2) + 2 := by simp [used, hd]; omega
          rw [this, List.drop_succ_cons, List.drop_succ_cons, ht] at hty'
          exact ht₁ (List.mem_of_mem_drop hty')
        have hnot : m.header.type = t₁ → ∀ m', Handled h m' → Spec.ForUs (impl.selfID r₀) (impl.partyIDs r₀) m' →
            m'.header.type = t₁ → m'.header.fromID ≠ m.header.fromID := by
          intro ht m' hm' hf' ht' heq
          have := i2 (hround ht) hd m' hm' hf' ht'
          rw [heq] at this
          exact hnk (GoMap.mem_keys_iff.mpr ⟨_, this⟩)
        refine ⟨fun h0 => absurd (hrn ▸ h0) hn0, ?_, ?_⟩
        · intro h1r _ m' hm' hf' ht'
          rw [hrn] at h1r
          rcases split m' hm' with hm' | rfl
          · have hold := i2 h1r hd m' hm' hf' ht'
            by_cases ht : m.header.type = t₁
            · rw [hst1 ht h1r, GoMap.get?_set_ne _ _ (hnot ht m' hm' hf' ht')]
              exact hold
            · rw [hst2 ht h1r]
              exact hold
          · rw [hst1 ht' h1r, GoMap.get?_set_same]
        · intro a b ha hb fa fb ta tb hab
          rcases split a ha with ha' | ha' <;> rcases split b hb with hb' | hb'
          · exact i3 a b ha' hb' fa fb ta tb hab
          · subst hb'; exact absurd hab (hnot tb a ha' fa ta)
          · subst ha'; exact absurd hab.symm (hnot ta b hb' fb tb)
          · rw [ha', hb']
      have hhead : s₁.roundNumber = 1 → s₁.done = false → s₁.acceptedTypes.head? = some t₁ := by
        intro hr hd
        rw [hi.types, hty]
        simp [used, hd, hr]
      cases hcases with
      | finished | noMore | notAParty | already | badType =>
        exact keep (fun m' h => by cases h) _ rfl fun hd => ⟨hd, rfl⟩
      | fromSelf _ hx =>
        refine keep (fun m' h => ?_) _ rfl fun hd => ⟨hd, rfl⟩
        cases h
        exact fun hf => hf.1 (hx.trans hi.self)
      | notForUs _ _ h4 h5 =>
        refine keep (fun m' h => ?_) _ rfl fun hd => ⟨hd, rfl⟩
        cases h
        intro hf
        rcases hf.2.2 with hf | hf
        · exact h4 hf
        · exact h5 (hf.trans hi.self.symm)
      | stored hd hr hnk hty' =>
        refine acc hr hd (List.mem_of_head? hty') hnk rfl rfl rfl (fun _ _ => rfl) ?_
        intro hne h1r
        rw [hhead h1r hd] at hty'
        exact absurd (Option.some.inj hty').symm hne
      | queued hd hr hnk hty' hne =>
        refine acc hr hd hty' hnk rfl rfl rfl ?_ (fun _ _ => rfl)
        intro ht h1r
        rw [hhead h1r hd, ht] at hne
        exact absurd rfl hne
    · have hx : ∀ m : Message G, (Op.processAll ord coins, Ret.messages out) = (Op.handle m, Ret.handled none) →
          ¬ Spec.ForUs (impl.selfID r₀) (impl.partyIDs r₀) m := fun m h => by cases h
      cases h2 with
      | idle => exact keep hx _ rfl fun hd => ⟨hd, rfl⟩
      | processErr => exact keep hx _ rfl fun hd => (nomatch hd)
      | generateErr => exact keep hx _ rfl fun hd => (nomatch hd)
      | last => exact keep hx _ rfl fun hd => (nomatch hd)
      | next t types r₁ r r' _ hd hf hpl hg ht hn =>
        refine ⟨fun h0 => (nomatch h0), ?_, ?_⟩
        · intro hr1 _ m hm hf' _
          have h0 : s₁.roundNumber = 0 := by
            have : s₁.roundNumber + 1 = 1 := hr1
            omega
          exact absurd hf' (i1 h0 m (old hx m hm hf'))
        · intro a b ha hb fa fb
          exact i3 a b (old hx a ha fa) (old hx b hb fb) fa fb
    all_goals first
      | exact keep (fun m h => by cases h) _ rfl fun hd => ⟨hd, rfl⟩
      | exact keep (fun m h => by cases h) _ rfl fun hd => (nomatch hd)

end Verif.State
