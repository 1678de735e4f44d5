import Verif.Props.KeygenOut

/-!
C38, second half: a share that does not match the dealer's commitments aborts key generation.
-/

namespace Verif.Props

open Verif State Keygen Outcome

variable {G : Type} [RGroup G] {sha : Sha512}

theorem loop2_abort {l : List (ID × Option (Message G))} {r : Round G} (hs : r.stage = .r2) (h0 : r.selfID ≠ 0)
    (hl : ∀ k v, (k, v) ∈ l → ∃ m kg c, v = some m ∧ m.header.fromID = k ∧ m.keyGen2 = some kg ∧ r.commitments.get? k = some c)
    (hbad : ∃ k v, (k, v) ∈ l ∧ ¬ Valid2 r.selfID r.commitments k v) :
    ∃ k v x, (k, v) ∈ l ∧ ¬ Valid2 r.selfID r.commitments k v ∧
      processLoop (impl sha) l r = .err (.new k .vssFailed, { r with secret := x }) := by
  induction l generalizing r with
  | nil => obtain ⟨_, _, h, _⟩ := hbad; cases h
  | cons a l ih =>
    obtain ⟨k, v⟩ := a
    obtain ⟨m, kg, c, rfl, rfl, h1, h2⟩ := hl k v List.mem_cons_self
    have himpl : (impl sha).processMessage r (some m) = process2 r (some m) := by simp only [impl]; rw [hs]
    by_cases hv : kg.share • (base : G) = Spec.evalAt c r.selfID.val
    · obtain ⟨k, v, x, g1, g2, g3⟩ := ih (r := { r with secret := r.secret + kg.share }) hs h0
        (fun k v h => hl k v (List.mem_cons_of_mem _ h)) (by
          obtain ⟨k', v', h3, h4⟩ := hbad
          rcases List.mem_cons.mp h3 with h3 | h3
          · cases h3
            exact absurd ⟨m, kg, c, rfl, h1, h2, hv⟩ h4
          · exact ⟨k', v', h3, h4⟩)
      refine ⟨k, v, x, List.mem_cons_of_mem _ g1, g2, ?_⟩
      unfold processLoop
      rw [himpl, process2_ok.mpr ⟨m, kg, c, rfl, h1, h2, h0, hv, rfl⟩]
      exact g3
    · refine ⟨_, _, r.secret, List.mem_cons_self, ?_, ?_⟩
      · rintro ⟨m', kg', c', g1, g2, g3, g4⟩
        cases g1
        rw [h1] at g2; cases g2
        rw [h2] at g3; cases g3
        exact hv g4
      · unfold processLoop
        rw [himpl, process2_err.mpr ⟨m, kg, c, rfl, h1, h2, h0, hv, rfl, rfl⟩]

/-- In round 2, once all shares are there (each with its payload), if some share does not match the commitments accepted from
the same participant, `ProcessAll` ends the session with an error that names a participant whose share does not match. -/
theorem C38_mismatch_aborts (self : ID) (ids : IDSlice) (t : UInt16) (timeout now : Nat) (s₀ : State G (Round G))
    (h₀ : newKeygenState sha self ids t timeout now = .ok s₀) (hnd : ids.Nodup) {h : List (Op G × Ret G)} {s : State G (Round G)}
    (hh : Hist (impl sha) s₀ h s) (hd : s.done = false) (hn : s.roundNumber = 2) (hf : s.received.length + 1 = ids.length)
    (hpay : ∀ m : Message G, (m.header.fromID, some m) ∈ s.received → m.keyGen2 ≠ none)
    (hbad : ∃ (m : Message G) (k : KeyGen2) (c : List G), (m.header.fromID, some m) ∈ s.received ∧ m.keyGen2 = some k ∧
      Spec.GotCommitments self ids h m.header.fromID c ∧ k.share • (base : G) ≠ Spec.evalAt c self.val)
    (ord : MapOrder) (coins : Coins) :
    ∃ s', step (impl sha) s (.processAll ord coins) = some (s', .messages []) ∧ s'.done = true ∧
      ∃ (m : Message G) (k : KeyGen2) (c : List G), (m.header.fromID, some m) ∈ s.received ∧ m.keyGen2 = some k ∧
        Spec.GotCommitments self ids h m.header.fromID c ∧ k.share • (base : G) ≠ Spec.evalAt c self.val ∧
        s'.err = some ⟨m.header.fromID, 2, .vssFailed⟩ := by
  obtain ⟨r₀, hs, rfl⟩ := start_of_new h₀ hnd
  obtain ⟨heq, _, _, hc⟩ := hs.eq
  have e1 : (impl sha).selfID r₀ = self := by rw [heq]; rfl
  have e2 : (impl sha).partyIDs r₀ = ids := by rw [heq]; rfl
  have hi := inv_hist (impl_stable sha) hh
  have hrun := (running hs hh).1 hd
  have hfull : Full (impl sha) s := by
    unfold Full
    rw [hi.ids, e2, N_pred_eq (List.ne_nil_of_mem (IDSlice.contains_sound hc)) (nodup_ids_length hnd)]
    omega
  have hready := ready (impl_stable sha) hh (by rw [e2]; exact hnd) (by rw [e1, e2]; exact IDSlice.contains_sound hc) hd hfull ord
  rw [hn] at hrun
  obtain ⟨f, l', hself0, _, _, hready', hvalid, _, _, hround⟩ := hrun
  have hndo : (others self ids).Nodup := hnd.filter _
  have hk' : (l'.map Prod.fst).Perm (others self ids) := by have := hready'.keys; rwa [e1, e2] at this
  have hnd' : (l'.map Prod.fst).Nodup := hk'.nodup_iff.mpr hndo
  have hcomms : ∀ k v, (k, v) ∈ l' → (comms2 l').get? k = some (commOf v) := by
    intro k v hkv
    unfold comms2
    rw [Keygen.get?_foldl_set commOf l' [] hnd', find?_of_mem hnd' hkv]
  have hgot : ∀ k ∈ others self ids, ∃ c, (comms2 l').get? k = some c ∧ Spec.GotCommitments self ids h k c := by
    intro k hk
    obtain ⟨⟨k', v⟩, h1, h2⟩ := List.mem_map.mp (hk'.mem_iff.mpr hk)
    cases h2
    exact ⟨_, hcomms _ _ h1, (got_of_ready hs hready' hvalid h1).1⟩
  have huniq : ∀ k c c', Spec.GotCommitments self ids h k c → Spec.GotCommitments self ids h k c' → c = c' := by
    rintro k c c' ⟨m, kg, a1, a2, a3, a4, a5, a6⟩ ⟨m', kg', b1, b2, b3, b4, b5, b6⟩
    have := (first_round_unique (impl_stable sha) (r₀ := r₀) (t₀ := 0) (t₁ := 1) (ts := [2]) rfl (by decide) hh).2.2 m m' a1 b1
      (by rw [e1, e2]; exact a2) (by rw [e1, e2]; exact b2) a4 b4 (a3.trans b3.symm)
    subst this
    rw [a5] at b5
    cases b5
    rw [← a6, ← b6]
  have hperm := ord.perm _ s.received
  have hkeys : ∀ k v, (k, v) ∈ ord.order _ s.received → k ∈ others self ids := by
    intro k v hkv
    have := hready.keys.mem_iff.mp (List.mem_map.mpr ⟨(k, v), hkv, rfl⟩)
    rwa [e1, e2] at this
  have hstage : s.round.stage = .r2 := by rw [hround]; rfl
  have hcomm : s.round.commitments = comms2 l' := by rw [hround]; rfl
  have hself : s.round.selfID = self := by rw [hround]; exact e1
  have hl : ∀ k v, (k, v) ∈ ord.order _ s.received → ∃ m kg c, v = some m ∧ m.header.fromID = k ∧ m.keyGen2 = some kg ∧
      s.round.commitments.get? k = some c := by
    intro k v hkv
    obtain ⟨m, rfl, h2, _⟩ := hready.later (by omega) k v hkv
    subst h2
    obtain ⟨kg, hkg⟩ := Option.ne_none_iff_exists'.mp (hpay m (hperm.mem_iff.mp hkv))
    obtain ⟨c, hc, _⟩ := hgot _ (hkeys _ _ hkv)
    exact ⟨m, kg, c, rfl, rfl, hkg, by rw [hcomm]; exact hc⟩
  obtain ⟨k, v, x, g1, g2, g3⟩ := loop2_abort (sha := sha) hstage (by rw [hself]; exact e1 ▸ hself0) hl (by
    obtain ⟨m, kg, c, b1, b2, b3, b4⟩ := hbad
    refine ⟨_, _, hperm.mem_iff.mpr b1, ?_⟩
    rintro ⟨m', kg', c', a1, a2, a3, a4⟩
    cases a1
    rw [b2] at a2; cases a2
    rw [hcomm] at a3
    rw [hself] at a4
    obtain ⟨c'', hc1, hc2⟩ := hgot _ (hkeys _ _ (hperm.mem_iff.mpr b1))
    rw [a3] at hc1
    cases hc1
    rw [huniq _ _ _ b3 hc2] at b4
    exact b4 a4)
  obtain ⟨m, kg, c, rfl, rfl, q1, q2⟩ := hl k v g1
  obtain ⟨r', hr'⟩ : ∃ r', (impl sha).reset { s.round with secret := x } = some r' := by rw [hround]; exact ⟨_, rfl⟩
  have herr : s.err = none := by
    cases he : s.err with
    | none => rfl
    | some e =>
      have := hi.err (by rw [he]; simp)
      rw [hd] at this
      cases this
  have hp := (processAll_iff (impl sha)).mpr (.processErr (ord := ord) (coins := coins) _ _ r' hd hfull g3 hr' (by rw [hi.closed, hd]))
  refine ⟨_, by simp only [step, hp]; rfl, rfl, m, kg, c, hperm.mem_iff.mp g1, q1, ?_, ?_, ?_⟩
  · obtain ⟨c'', hc1, hc2⟩ := hgot _ (hkeys _ _ g1)
    rw [hcomm] at q2
    rw [hc1] at q2
    cases q2
    exact hc2
  · intro he
    exact g2 ⟨m, kg, c, rfl, q1, q2, by rw [hself]; exact he⟩
  · show some (s.err.getD _) = _
    rw [herr, hn]
    rfl

end Verif.Props
