import Verif.Lemmas.Crashes
import Verif.Props.SignBlame
import Verif.Props.Messages

/-!
C118: exactly when a session crashes.
-/

namespace Verif.Props

open Verif State Outcome

variable {G : Type} [RGroup G] {sha : Sha512}

/-- A message without the payload of its type, or of type KeyGen1 without commitments. -/
def Spec.Unusable (m : Message G) : Prop :=
  (m.header.type = 1 ∧ ∀ p, m.keyGen1 = some p → p.commitments = []) ∨ (m.header.type = 2 ∧ m.keyGen2 = none) ∨
    (m.header.type = 3 ∧ m.sign1 = none) ∨ (m.header.type = 4 ∧ m.sign2 = none)

/-- The threshold of a session with duplicate-free non-zero IDs is below the one that makes `NewPolynomial` panic. -/
theorem threshold_small {ids : IDSlice} {t : UInt16} (hnd : ids.Nodup) (h0 : (0 : ID) ∉ ids) (hne : ids ≠ []) (ht : t ≤ IDSlice.N ids - 1) : t ≠ 65535 := by
  rintro rfl
  have hl : ((0 : ID) :: ids).length ≤ 65536 := nodup_ids_length (List.nodup_cons.mpr ⟨h0, hnd⟩)
  have := UInt16.le_iff_toNat_le.mp ht
  rw [N_pred_eq hne (nodup_ids_length hnd)] at this
  simp at this hl
  omega

/-- The number of stored messages that makes `ProcessAll` go on. -/
theorem full_iff {R : Type} {impl : RoundImpl G R} {ids : IDSlice} {s : State G R} (hids : impl.partyIDs s.round = ids) (hne : ids ≠ []) (hnd : ids.Nodup) :
    Full impl s ↔ s.received.length + 1 = ids.length := by
  have := List.length_pos_iff.mpr hne
  unfold Full
  rw [hids, N_pred_eq hne (nodup_ids_length hnd)]
  omega

/-- Key generation: a call of `ProcessAll` that does not find an unusable message returns. -/
theorem keygen_returns {self : ID} {ids : IDSlice} {t : UInt16} {timeout now : Nat} {s₀ : State G (Keygen.Round G)}
    (h₀ : Keygen.newKeygenState sha self ids t timeout now = .ok s₀) (hnd : ids.Nodup) (h0 : (0 : ID) ∉ ids) {h : List (Op G × Ret G)}
    {s : State G (Keygen.Round G)} (hh : Hist (Keygen.impl sha) s₀ h s) (ord : MapOrder) (coins : Coins)
    (hu : s.done = false → ∀ j m, (j, some m) ∈ s.received → ¬ Spec.Unusable m) : ∃ x, processAll (Keygen.impl sha) ord coins s = some x := by
  obtain ⟨r₀, hs, rfl⟩ := start_of_new h₀ hnd
  obtain ⟨heq, _, htn, hc⟩ := hs.eq
  have hmem := IDSlice.contains_sound hc
  have hi := inv_hist (Keygen.impl_stable sha) hh
  cases hd : s.done with
  | true => exact ⟨_, by unfold processAll; rw [hd]; rfl⟩
  | false =>
  have hu := hu hd
  have hrun := (Keygen.running hs hh).1 hd
  have hty : s.acceptedTypes = ([0, 1, 2] : List MsgType).drop s.roundNumber := by
    rw [hi.types]; simp [used, hd]; rfl
  have hids : (Keygen.impl sha).partyIDs r₀ = ids := by rw [heq]; rfl
  have hself : (Keygen.impl sha).selfID r₀ = self := by rw [heq]; rfl
  have hstored : ∀ k m, (k, some m) ∈ ord.order _ s.received → ¬ Spec.Unusable m ∧ s.acceptedTypes.head? = some m.header.type ∧ k = m.header.fromID := by
    intro k m hm
    have hm := (ord.perm _ _).mem_iff.mp hm
    obtain ⟨g1, _, g3, _⟩ := hi.stored k m hm
    exact ⟨hu k m hm, g3, g1⟩
  have hnone : s.roundNumber ≠ 0 → ∀ k, (k, none) ∉ ord.order _ s.received := by
    intro hn k hk
    exact hn (hi.storedNone k ((ord.perm _ _).mem_iff.mp hk)).1
  have hready : Full (Keygen.impl sha) s → Ready (Keygen.impl sha) r₀ h s.roundNumber (ord.order _ s.received) := fun hf =>
    ready (Keygen.impl_stable sha) hh (by rw [hids]; exact hnd) (by rw [hids, hself]; exact hmem) hd hf ord
  have hself0 : self ≠ 0 := fun h => h0 (h ▸ hmem)
  generalize hN : s.roundNumber = N at hrun hty hnone hready
  match N, hrun with
  | 0, hrun =>
    have hrun : s.round = r₀ := hrun
    have hst : r₀.stage = .r0 := by rw [heq]
    refine processAll_isSome hi.closed (fun _ => by rw [hty]; simp) ?_ ?_ ?_
    · intro _ _ h
      rw [hrun, Keygen.loop0 hst] at h
      cases h
    · intro e r h
      rw [hrun, Keygen.loop0 hst] at h
      cases h
    · intro _ _ r h
      rw [hrun, Keygen.loop0 hst] at h
      cases h
      have hg := (Keygen.generate0_ok (sha := sha) (coins := coins) (r := r₀)).mpr
        ⟨(by rw [heq]; exact threshold_small hnd h0 (List.ne_nil_of_mem hmem) htn), (by rw [heq]; exact hself0), rfl, rfl⟩
      have hg' : (Keygen.impl sha).generateMessages ord coins r₀ = Keygen.generate0 sha coins r₀ := by simp only [Keygen.impl, hst]
      refine Or.inr ⟨_, _, hg'.trans hg, ?_⟩
      · intro hn
        simp [Keygen.impl, hst] at hn
  | 1, ⟨f, _, _, _, hround⟩ =>
    let Q : Keygen.Round G → Prop := fun r => r.stage = .r1 ∧ r.selfID = self ∧ r.partyIDs = ids ∧ (∃ p, r.polynomial = some p) ∧ ∃ c, r.commitmentsSum = some c
    have hQ0 : Q s.round := by
      rw [hround, heq]
      exact ⟨rfl, rfl, rfl, ⟨_, rfl⟩, ⟨_, rfl⟩⟩
    have hproc : ∀ r v, Q r → (Keygen.impl sha).processMessage r v = Keygen.process1 sha r v := by
      intro r v hr
      simp only [Keygen.impl, hr.1]
    obtain ⟨l1, l2, l3⟩ := loop_keeps (impl := Keygen.impl sha) (Q := Q) (by
        intro r v r' hr hv
        rw [hproc r v hr] at hv
        obtain ⟨_, _, _, _, _, _, _, _, _, rfl⟩ := Keygen.process1_ok.mp hv
        exact ⟨hr.1, hr.2.1, hr.2.2.1, hr.2.2.2.1, ⟨_, rfl⟩⟩) (by
        intro r v e r' hr hv
        rw [hproc r v hr] at hv
        obtain ⟨_, _, _, _, _, _, _, _, rfl⟩ := Keygen.process1_err.mp hv
        exact hr) (ord.order _ s.received) s.round hQ0
    refine processAll_isSome hi.closed (fun _ => by rw [hty]; simp) ?_ ?_ ?_
    · intro _ hf hp
      obtain ⟨k, v, r', hm, hr, hv⟩ := l3 hp
      rw [hproc r' v hr] at hv
      rcases Keygen.process1_panics (by obtain ⟨c, hc⟩ := hr.2.2.2.2; rw [hc]; simp) hv with rfl | ⟨m, rfl, hbad⟩
      · exact hnone (by omega) k hm
      · obtain ⟨g1, g2, _⟩ := hstored k m hm
        rw [hty] at g2
        exact g1 (Or.inl ⟨by simpa using g2.symm, hbad⟩)
    · intro e r hl
      obtain ⟨_, _, _, ⟨p, hp⟩, ⟨c, hc⟩⟩ := l2 e r hl
      exact ⟨_, Keygen.reset_eq.mpr ⟨p, c, hp, hc, rfl⟩⟩
    · intro _ _ r hl
      obtain ⟨q1, q2, q3, ⟨p, hp⟩, ⟨c, hc⟩⟩ := l1 r hl
      have hg := (Keygen.generate1_ok (r := r)).mpr ⟨p, hp, (by rw [q3]; intro id hid _ h; exact h0 (h ▸ hid)), rfl, rfl⟩
      have hg' : (Keygen.impl sha).generateMessages ord coins r = Keygen.generate1 r := by simp only [Keygen.impl, q1]
      refine Or.inr ⟨_, _, hg'.trans hg, ?_⟩
      · intro hn
        simp [Keygen.impl, q1] at hn
  | 2, ⟨f, l₁, _, _, _, hr1, _, _, _, hround⟩ =>
    let Q : Keygen.Round G → Prop := fun r => ∃ x, r = { Keygen.round2 r₀ f l₁ with secret := x }
    have hQ0 : Q s.round := ⟨_, hround⟩
    have hproc : ∀ r v, Q r → (Keygen.impl sha).processMessage r v = Keygen.process2 r v := by
      rintro r v ⟨x, rfl⟩
      rfl
    obtain ⟨l1, l2, l3⟩ := loop_keeps (impl := Keygen.impl sha) (Q := Q) (by
        intro r v r' hr hv
        rw [hproc r v hr] at hv
        obtain ⟨_, _, _, _, _, _, _, _, rfl⟩ := Keygen.process2_ok.mp hv
        obtain ⟨x, rfl⟩ := hr
        exact ⟨_, rfl⟩) (by
        intro r v e r' hr hv
        rw [hproc r v hr] at hv
        obtain ⟨_, _, _, _, _, _, _, _, _, rfl⟩ := Keygen.process2_err.mp hv
        exact hr) (ord.order _ s.received) s.round hQ0
    refine processAll_isSome hi.closed (fun _ => by rw [hty]; simp) ?_ ?_ ?_
    · intro _ hf hp
      obtain ⟨k, v, r', hm, hr, hv⟩ := l3 hp
      rw [hproc r' v hr] at hv
      obtain ⟨x, rfl⟩ := hr
      rcases Keygen.process2_panics (by show r₀.selfID ≠ 0; rw [heq]; exact hself0) hv with rfl | ⟨m, rfl, hbad | hbad⟩
      · exact hnone (by omega) k hm
      · obtain ⟨g1, g2, _⟩ := hstored k m hm
        rw [hty] at g2
        exact g1 (Or.inr (Or.inl ⟨by simpa using g2.symm, hbad⟩))
      · obtain ⟨_, _, g3⟩ := hstored k m hm
        have hk := (hready hf).keys.mem_iff.mp (List.mem_map_of_mem (f := Prod.fst) hm)
        have hk := hr1.keys.mem_iff.mpr hk
        obtain ⟨⟨k', v'⟩, hv', he⟩ := List.mem_map.mp hk
        have hl1nd : (l₁.map Prod.fst).Nodup := hr1.keys.nodup_iff.mpr (by rw [hids]; exact hnd.filter _)
        have hb : (Keygen.comms2 l₁).get? m.header.fromID = none := hbad
        unfold Keygen.comms2 at hb
        cases he
        rw [Keygen.get?_foldl_set Keygen.commOf l₁ [] hl1nd, ← g3, Keygen.find?_of_mem hl1nd hv'] at hb
        cases hb
    · intro e r hl
      obtain ⟨x, rfl⟩ := l2 e r hl
      exact ⟨_, Keygen.reset_eq.mpr ⟨_, _, rfl, rfl, rfl⟩⟩
    · intro _ _ r hl
      obtain ⟨x, rfl⟩ := l1 r hl
      obtain ⟨shares, hsh, _⟩ := Props.evaluateMulti_eq (Keygen.sum2 f l₁) ids h0 []
      have hlen : (Keygen.sum2 f l₁).length = f.length := by
        unfold Keygen.sum2
        rw [Keygen.foldl_addOrKeep_length (fun e : ID × Option (Message G) => Keygen.commOf e.2)]
        simp [Exponent.ofPoly]
      have hpos : Keygen.sum2 f l₁ ≠ [] := by
        obtain ⟨_, c, hf, _⟩ := ‹Keygen.Drawn r₀ h f›
        intro he
        rw [he, hf, Keygen.coinPoly_length] at hlen
        simp at hlen
      obtain ⟨gk, hgk⟩ := Keygen.getElem?_zero_iff.mpr hpos
      have hg := (Keygen.generate2_ok (r := { Keygen.round2 r₀ f l₁ with secret := x })).mpr ⟨_, shares, gk, rfl, by show (0 : ID) ∉ r₀.partyIDs; rw [heq]; exact h0,
          by show Exponent.evaluateMulti _ r₀.partyIDs [] = _; rw [heq]; exact hsh, hgk, by show r₀.hasOutput = true; rw [heq], rfl, rfl⟩
      refine Or.inr ⟨_, _, (show (Keygen.impl sha).generateMessages ord coins _ = _ from hg), ?_⟩
      · intro _
        exact ⟨_, Keygen.reset_eq.mpr ⟨_, _, rfl, rfl, rfl⟩⟩

/-- Signing: a call of `ProcessAll` that does not find an unusable message returns. -/
theorem sign_returns {secret : SecretShare G} {shares : Public G} {ids : IDSlice} {message : Bytes} {timeout now : Nat} {s₀ : State G (Sign.Round G)}
    (h₀ : Sign.newSignState sha ids secret shares message timeout now = .ok s₀) (hnd : ids.Nodup) {h : List (Op G × Ret G)}
    {s : State G (Sign.Round G)} (hh : Hist (Sign.impl sha) s₀ h s) (ord : MapOrder) (coins : Coins)
    (hu : s.done = false → ∀ j m, (j, some m) ∈ s.received → ¬ Spec.Unusable m) : ∃ x, processAll (Sign.impl sha) ord coins s = some x := by
  obtain ⟨r₀, hs, rfl⟩ := sign_start_of_new h₀ hnd
  obtain ⟨hstage, hself, hids, _, _, _, hout, _, hc, _, _, hget, _⟩ := hs.eq
  have hmem := IDSlice.contains_sound hc
  have hi := inv_hist (Sign.impl_stable sha) hh
  cases hd : s.done with
  | true => exact ⟨_, by unfold processAll; rw [hd]; rfl⟩
  | false =>
  have hu := hu hd
  have hrun := (Sign.running hs hh).1 hd
  have hty : s.acceptedTypes = ([0, 3, 4] : List MsgType).drop s.roundNumber := by
    rw [hi.types]; simp [used, hd]; rfl
  have hidsI : (Sign.impl sha).partyIDs r₀ = ids := hids
  have hselfI : (Sign.impl sha).selfID r₀ = secret.id := hself
  have hstored : ∀ k m, (k, some m) ∈ ord.order _ s.received → ¬ Spec.Unusable m ∧ s.acceptedTypes.head? = some m.header.type ∧ m.header.fromID ∈ ids := by
    intro k m hm
    have hm := (ord.perm _ _).mem_iff.mp hm
    obtain ⟨_, g2, g3, _⟩ := hi.stored k m hm
    exact ⟨hu k m hm, g3, by rw [hidsI] at g2; exact IDSlice.contains_sound g2.2.2⟩
  have hnone : s.roundNumber ≠ 0 → ∀ k, (k, none) ∉ ord.order _ s.received := by
    intro hn k hk
    exact hn (hi.storedNone k ((ord.perm _ _).mem_iff.mp hk)).1
  have hready : Full (Sign.impl sha) s → Ready (Sign.impl sha) r₀ h s.roundNumber (ord.order _ s.received) := fun hf =>
    ready (Sign.impl_stable sha) hh (by rw [hidsI]; exact hnd) (by rw [hidsI, hselfI]; exact hmem) hd hf ord
  have hnd' : r₀.partyIDs.Nodup := by rw [hids]; exact hnd
  have hmem' : r₀.selfID ∈ r₀.partyIDs := by rw [hids, hself]; exact hmem
  generalize hN : s.roundNumber = N at hrun hty hnone hready
  match N, hrun with
  | 0, hrun =>
    have hrun : s.round = r₀ := hrun
    refine processAll_isSome hi.closed (fun _ => by rw [hty]; simp) ?_ (fun _ _ _ => ⟨_, rfl⟩) ?_
    · intro _ _ h
      rw [hrun, Sign.loop0 hstage] at h
      cases h
    · intro _ _ r h
      rw [hrun, Sign.loop0 hstage] at h
      cases h
      have hg := (Sign.generate0_ok (coins := coins) (r := r₀)).mpr ⟨_, hget _ (by rw [hself]; exact hmem), rfl, rfl⟩
      have hg' : (Sign.impl sha).generateMessages ord coins r₀ = Sign.generate0 coins r₀ := by simp only [Sign.impl, hstage]
      exact Or.inr ⟨_, _, hg'.trans hg, fun _ => ⟨_, rfl⟩⟩
  | 1, ⟨d, e, parties, _, hparts, hround⟩ =>
    let Q : Sign.Round G → Prop := fun r => r.stage = .r1 ∧ ∀ id ∈ ids, r.parties.get? id ≠ none
    have hQ0 : Q s.round := by
      rw [hround]
      refine ⟨rfl, fun id hid => ?_⟩
      show parties.get? id ≠ none
      rw [hparts.get id (by rw [hids]; exact hid)]
      simp
    have hproc : ∀ r v, Q r → (Sign.impl sha).processMessage r v = Sign.process1 r v := by
      intro r v hr
      simp only [Sign.impl, hr.1]
    obtain ⟨_, _, l3⟩ := loop_keeps (impl := Sign.impl sha) (Q := Q) (by
        intro r v r' hr hv
        rw [hproc r v hr] at hv
        obtain ⟨_, _, _, _, _, _, _, _, rfl⟩ := Sign.process1_ok.mp hv
        refine ⟨hr.1, fun id hid => ?_⟩
        simp only [GoMap.get?_set]
        split
        · simp
        · exact hr.2 id hid) (by
        intro r v e r' hr hv
        rw [hproc r v hr] at hv
        obtain ⟨_, _, _, _, _, _, rfl⟩ := Sign.process1_err.mp hv
        exact hr) (ord.order _ s.received) s.round hQ0
    refine processAll_isSome hi.closed (fun _ => by rw [hty]; simp) ?_ (fun _ _ _ => ⟨_, rfl⟩) ?_
    · intro _ hf hp
      obtain ⟨k, v, r', hm, hr, hv⟩ := l3 hp
      rw [hproc r' v hr] at hv
      rcases Sign.process1_panics hv with rfl | ⟨m, rfl, hbad | hbad⟩
      · exact hnone (by omega) k hm
      · obtain ⟨g1, g2, _⟩ := hstored k m hm
        rw [hty] at g2
        exact g1 (Or.inr (Or.inr (Or.inl ⟨by simpa using g2.symm, hbad⟩)))
      · exact hr.2 _ (hstored k m hm).2.2 hbad
    · intro _ hf r hl
      rw [hround] at hl
      obtain ⟨D, E, parties', _, _, hg⟩ := Sign.step1 hnd' hmem' hparts (hready hf) hl ord
      have hst : r.stage = .r1 := by
        have := (loop_keeps (impl := Sign.impl sha) (Q := fun r => r.stage = .r1) (fun r v r' h1 h2 => (sign_stage r v r' h2).trans h1)
          (fun r v e r' h1 h2 => by
            simp only [Sign.impl, h1] at h2
            obtain ⟨_, _, _, _, _, _, rfl⟩ := Sign.process1_err.mp h2
            exact h1) (ord.order _ s.received) _ rfl).1 r hl
        exact this
      have hg' : (Sign.impl sha).generateMessages ord coins r = Sign.generate1 sha ord r := by simp only [Sign.impl, hst]
      exact Or.inr ⟨_, _, hg'.trans hg, fun _ => ⟨_, rfl⟩⟩
  | 2, ⟨d, e, l₁, D, E, parties, _, _, _, _, hparts, _, hround⟩ =>
    let Q : Sign.Round G → Prop := fun r => r.stage = .r2 ∧ r.hasOutput = true ∧ ∀ id ∈ ids, ∃ p, r.parties.get? id = some p ∧ p.Ri ≠ none
    have hQ0 : Q s.round := by
      rw [hround]
      refine ⟨rfl, hout, fun id hid => ⟨_, hparts.get id (by rw [hids]; exact hid), ?_⟩⟩
      simp [Sign.signer2]
    have hproc : ∀ r v, Q r → (Sign.impl sha).processMessage r v = Sign.process2 r v := by
      intro r v hr
      simp only [Sign.impl, hr.1]
    obtain ⟨l1, _, l3⟩ := loop_keeps (impl := Sign.impl sha) (Q := Q) (by
        intro r v r' hr hv
        rw [hproc r v hr] at hv
        obtain ⟨_, _, p, Ri, _, _, _, hRi, _, rfl⟩ := Sign.process2_ok.mp hv
        refine ⟨hr.1, hr.2.1, fun id hid => ?_⟩
        simp only [GoMap.get?_set]
        split
        · exact ⟨_, rfl, by simp [hRi]⟩
        · exact hr.2.2 id hid) (by
        intro r v e r' hr hv
        rw [hproc r v hr] at hv
        obtain ⟨_, _, _, _, _, _, _, _, _, _, rfl⟩ := Sign.process2_err.mp hv
        exact hr) (ord.order _ s.received) s.round hQ0
    refine processAll_isSome hi.closed (fun _ => by rw [hty]; simp) ?_ (fun _ _ _ => ⟨_, rfl⟩) ?_
    · intro _ hf hp
      obtain ⟨k, v, r', hm, hr, hv⟩ := l3 hp
      rw [hproc r' v hr] at hv
      rcases Sign.process2_panics hv with rfl | ⟨m, rfl, hbad | hbad⟩
      · exact hnone (by omega) k hm
      · obtain ⟨g1, g2, _⟩ := hstored k m hm
        rw [hty] at g2
        exact g1 (Or.inr (Or.inr (Or.inr ⟨by simpa using g2.symm, hbad⟩)))
      · obtain ⟨p, hp, hRi⟩ := hr.2.2 _ (hstored k m hm).2.2
        exact hRi (hbad p hp)
    · intro _ hf r hl
      obtain ⟨q1, q2, _⟩ := l1 r hl
      obtain ⟨b, hb, _⟩ := Props.C50_verify_iff sha r.groupKey r.message (Sign.finalSig r)
      have hg' : (Sign.impl sha).generateMessages ord coins r = Sign.generate2 sha ord r := by simp only [Sign.impl, q1]
      cases b with
      | false => exact Or.inl ⟨_, _, _, hg'.trans (Sign.generate2_err.mpr ⟨hb, rfl, rfl⟩), rfl⟩
      | true => exact Or.inr ⟨_, _, hg'.trans (Sign.generate2_ok.mpr ⟨hb, q2, rfl, rfl⟩), fun _ => ⟨_, rfl⟩⟩

/-- A stored unusable message: some order of the map crashes the party, the others crash it or end the session with an error. -/
theorem keygen_crashes {self : ID} {ids : IDSlice} {t : UInt16} {timeout now : Nat} {s₀ : State G (Keygen.Round G)}
    (h₀ : Keygen.newKeygenState sha self ids t timeout now = .ok s₀) (hnd : ids.Nodup) {h : List (Op G × Ret G)}
    {s : State G (Keygen.Round G)} (hh : Hist (Keygen.impl sha) s₀ h s) (hd : s.done = false) (hf : s.received.length + 1 = ids.length)
    {j : ID} {m : Message G} (hm : (j, some m) ∈ s.received) (hu : Spec.Unusable m) :
    (∀ coins, processAll (Keygen.impl sha) (orderFirst j) coins s = none) ∧
      ∀ ord coins s' out, processAll (Keygen.impl sha) ord coins s = some (s', out) → s'.done = true ∧ s'.err ≠ none := by
  obtain ⟨r₀, hs, rfl⟩ := start_of_new h₀ hnd
  obtain ⟨heq, _, _, hc⟩ := hs.eq
  have hi := inv_hist (Keygen.impl_stable sha) hh
  have hrun := (Keygen.running hs hh).1 hd
  have hids : (Keygen.impl sha).partyIDs s.round = ids := by rw [hi.ids, heq]; rfl
  have hF := (full_iff hids (List.ne_nil_of_mem (IDSlice.contains_sound hc)) hnd).mpr hf
  have hty : s.acceptedTypes = ([0, 1, 2] : List MsgType).drop s.roundNumber := by
    rw [hi.types]; simp [used, hd]; rfl
  obtain ⟨_, _, g3, _⟩ := hi.stored j m hm
  rw [hty] at g3
  generalize hN : s.roundNumber = N at hrun g3
  match N, hrun with
  | 0, _ =>
    have g3 : m.header.type = 0 := by simpa using g3.symm
    simp [Spec.Unusable, g3] at hu
  | 1, ⟨f, _, _, _, hround⟩ =>
    have g3 : m.header.type = 1 := by simpa using g3.symm
    have hbad : ∀ p, m.keyGen1 = some p → p.commitments = [] := by
      simpa [Spec.Unusable, g3] using hu
    exact first_crashes (Q := fun r => r.stage = .r1) (fun r v r' h1 h2 => (keygen_stage r v r' h2).trans h1)
      (fun r hr => by simp only [Keygen.impl, hr]; exact process1_panic hbad) (by rw [hround]; rfl) hd hF hi.wf hm
  | 2, ⟨f, l₁, _, _, _, _, _, _, _, hround⟩ =>
    have g3 : m.header.type = 2 := by simpa using g3.symm
    have hbad : m.keyGen2 = none := by
      simpa [Spec.Unusable, g3] using hu
    exact first_crashes (Q := fun r => r.stage = .r2) (fun r v r' h1 h2 => (keygen_stage r v r' h2).trans h1)
      (fun r hr => by simp only [Keygen.impl, hr]; exact Keygen.process2_nil hbad) (by rw [hround]; rfl) hd hF hi.wf hm

/-- The same for signing. -/
theorem sign_crashes {secret : SecretShare G} {shares : Public G} {ids : IDSlice} {message : Bytes} {timeout now : Nat} {s₀ : State G (Sign.Round G)}
    (h₀ : Sign.newSignState sha ids secret shares message timeout now = .ok s₀) (hnd : ids.Nodup) {h : List (Op G × Ret G)}
    {s : State G (Sign.Round G)} (hh : Hist (Sign.impl sha) s₀ h s) (hd : s.done = false) (hf : s.received.length + 1 = ids.length)
    {j : ID} {m : Message G} (hm : (j, some m) ∈ s.received) (hu : Spec.Unusable m) :
    (∀ coins, processAll (Sign.impl sha) (orderFirst j) coins s = none) ∧
      ∀ ord coins s' out, processAll (Sign.impl sha) ord coins s = some (s', out) → s'.done = true ∧ s'.err ≠ none := by
  obtain ⟨r₀, hs, rfl⟩ := sign_start_of_new h₀ hnd
  obtain ⟨_, _, hids, _, _, _, _, _, hc, _⟩ := hs.eq
  have hi := inv_hist (Sign.impl_stable sha) hh
  have hrun := (Sign.running hs hh).1 hd
  have hids : (Sign.impl sha).partyIDs s.round = ids := hi.ids.trans hids
  have hF := (full_iff hids (List.ne_nil_of_mem (IDSlice.contains_sound hc)) hnd).mpr hf
  have hty : s.acceptedTypes = ([0, 3, 4] : List MsgType).drop s.roundNumber := by
    rw [hi.types]; simp [used, hd]; rfl
  obtain ⟨_, _, g3, _⟩ := hi.stored j m hm
  rw [hty] at g3
  generalize hN : s.roundNumber = N at hrun g3
  match N, hrun with
  | 0, _ =>
    have g3 : m.header.type = 0 := by simpa using g3.symm
    simp [Spec.Unusable, g3] at hu
  | 1, ⟨_, _, _, _, _, hround⟩ =>
    have g3 : m.header.type = 3 := by simpa using g3.symm
    have hbad : m.sign1 = none := by
      simpa [Spec.Unusable, g3] using hu
    exact first_crashes (Q := fun r => r.stage = .r1) (fun r v r' h1 h2 => (sign_stage r v r' h2).trans h1)
      (fun r hr => by simp only [Sign.impl, hr]; exact Sign.process1_nil hbad) (by rw [hround]) hd hF hi.wf hm
  | 2, ⟨_, _, _, _, _, _, _, _, _, _, _, _, hround⟩ =>
    have g3 : m.header.type = 4 := by simpa using g3.symm
    have hbad : m.sign2 = none := by
      simpa [Spec.Unusable, g3] using hu
    exact first_crashes (Q := fun r => r.stage = .r2) (fun r v r' h1 h2 => (sign_stage r v r' h2).trans h1)
      (fun r hr => by simp only [Sign.impl, hr]; exact Sign.process2_nil hbad) (by rw [hround]; rfl) hd hF hi.wf hm

/-! ### C118 -/

/-- A crash of `ProcessAll` in key generation: the session is running, has the messages of all others, and one of them is
unusable. Conversely, with such a message some iteration order of the map crashes the party, whatever the others sent and whatever
is drawn; and no iteration order lets the session go on. -/
theorem C118_keygen_processAll {self : ID} {ids : IDSlice} {t : UInt16} {timeout now : Nat} {s₀ : State G (Keygen.Round G)}
    (h₀ : Keygen.newKeygenState sha self ids t timeout now = .ok s₀) (hnd : ids.Nodup) (h0 : (0 : ID) ∉ ids) {h : List (Op G × Ret G)}
    {s : State G (Keygen.Round G)} (hh : Hist (Keygen.impl sha) s₀ h s) :
    ((∃ ord coins, step (Keygen.impl sha) s (.processAll ord coins) = none) ↔
      s.done = false ∧ s.received.length + 1 = ids.length ∧ ∃ j m, (j, some m) ∈ s.received ∧ Spec.Unusable m) ∧
    ((∃ ord coins, step (Keygen.impl sha) s (.processAll ord coins) = none) → (∃ ord, ∀ coins, step (Keygen.impl sha) s (.processAll ord coins) = none) ∧
      ∀ ord coins s' ret, step (Keygen.impl sha) s (.processAll ord coins) = some (s', ret) → s'.done = true ∧ s'.err ≠ none) := by
  have key : (∃ ord coins, step (Keygen.impl sha) s (.processAll ord coins) = none) →
      s.done = false ∧ s.received.length + 1 = ids.length ∧ ∃ j m, (j, some m) ∈ s.received ∧ Spec.Unusable m := by
    rintro ⟨ord, coins, hx⟩
    have hx : processAll (Keygen.impl sha) ord coins s = none := by simpa [step] using hx
    obtain ⟨r₀, hs, heq₀⟩ := start_of_new h₀ hnd
    obtain ⟨heq, _, _, hc⟩ := hs.eq
    have hids : (Keygen.impl sha).partyIDs s.round = ids := by
      subst heq₀; rw [(inv_hist (Keygen.impl_stable sha) hh).ids, heq]; rfl
    by_contra hne
    have : ∃ x, processAll (Keygen.impl sha) ord coins s = some x := by
      by_cases hd : s.done = true
      · exact ⟨_, by unfold processAll; rw [if_pos hd]⟩
      have hd : s.done = false := by simpa using hd
      by_cases hf : s.received.length + 1 = ids.length
      · refine keygen_returns h₀ hnd h0 hh ord coins fun _ j m hm hu => hne ⟨hd, hf, j, m, hm, hu⟩
      · have hF : ¬ Full (Keygen.impl sha) s := fun h => hf ((full_iff hids (List.ne_nil_of_mem (IDSlice.contains_sound hc)) hnd).mp h)
        exact ⟨_, (processAll_iff _).mpr (.idle (Or.inr hF))⟩
    obtain ⟨x, hx'⟩ := this
    rw [hx] at hx'
    cases hx'
  refine ⟨⟨key, ?_⟩, ?_⟩
  · rintro ⟨hd, hf, j, m, hm, hu⟩
    exact ⟨orderFirst j, fun _ => 0, by simp [step, (keygen_crashes h₀ hnd hh hd hf hm hu).1]⟩
  · intro hc
    obtain ⟨hd, hf, j, m, hm, hu⟩ := key hc
    obtain ⟨g1, g2⟩ := keygen_crashes h₀ hnd hh hd hf hm hu
    refine ⟨⟨orderFirst j, fun coins => by simp [step, g1 coins]⟩, fun ord coins s' ret hx => ?_⟩
    simp only [step, Option.map_eq_some_iff, Prod.mk.injEq, Prod.exists] at hx
    obtain ⟨s'', out, hx, rfl, _⟩ := hx
    exact g2 ord coins s'' out hx

/-- The same for signing. -/
theorem C118_sign_processAll {secret : SecretShare G} {shares : Public G} {ids : IDSlice} {message : Bytes} {timeout now : Nat} {s₀ : State G (Sign.Round G)}
    (h₀ : Sign.newSignState sha ids secret shares message timeout now = .ok s₀) (hnd : ids.Nodup) {h : List (Op G × Ret G)}
    {s : State G (Sign.Round G)} (hh : Hist (Sign.impl sha) s₀ h s) :
    ((∃ ord coins, step (Sign.impl sha) s (.processAll ord coins) = none) ↔
      s.done = false ∧ s.received.length + 1 = ids.length ∧ ∃ j m, (j, some m) ∈ s.received ∧ Spec.Unusable m) ∧
    ((∃ ord coins, step (Sign.impl sha) s (.processAll ord coins) = none) → (∃ ord, ∀ coins, step (Sign.impl sha) s (.processAll ord coins) = none) ∧
      ∀ ord coins s' ret, step (Sign.impl sha) s (.processAll ord coins) = some (s', ret) → s'.done = true ∧ s'.err ≠ none) := by
  have key : (∃ ord coins, step (Sign.impl sha) s (.processAll ord coins) = none) →
      s.done = false ∧ s.received.length + 1 = ids.length ∧ ∃ j m, (j, some m) ∈ s.received ∧ Spec.Unusable m := by
    rintro ⟨ord, coins, hx⟩
    have hx : processAll (Sign.impl sha) ord coins s = none := by simpa [step] using hx
    obtain ⟨r₀, hs, heq₀⟩ := sign_start_of_new h₀ hnd
    obtain ⟨_, _, hids, _, _, _, _, _, hc, _⟩ := hs.eq
    have hids : (Sign.impl sha).partyIDs s.round = ids := by
      subst heq₀; exact (inv_hist (Sign.impl_stable sha) hh).ids.trans hids
    by_contra hne
    have : ∃ x, processAll (Sign.impl sha) ord coins s = some x := by
      by_cases hd : s.done = true
      · exact ⟨_, by unfold processAll; rw [if_pos hd]⟩
      have hd : s.done = false := by simpa using hd
      by_cases hf : s.received.length + 1 = ids.length
      · refine sign_returns h₀ hnd hh ord coins fun _ j m hm hu => hne ⟨hd, hf, j, m, hm, hu⟩
      · have hF : ¬ Full (Sign.impl sha) s := fun h => hf ((full_iff hids (List.ne_nil_of_mem (IDSlice.contains_sound hc)) hnd).mp h)
        exact ⟨_, (processAll_iff _).mpr (.idle (Or.inr hF))⟩
    obtain ⟨x, hx'⟩ := this
    rw [hx] at hx'
    cases hx'
  refine ⟨⟨key, ?_⟩, ?_⟩
  · rintro ⟨hd, hf, j, m, hm, hu⟩
    exact ⟨orderFirst j, fun _ => 0, by simp [step, (sign_crashes h₀ hnd hh hd hf hm hu).1]⟩
  · intro hc
    obtain ⟨hd, hf, j, m, hm, hu⟩ := key hc
    obtain ⟨g1, g2⟩ := sign_crashes h₀ hnd hh hd hf hm hu
    refine ⟨⟨orderFirst j, fun coins => by simp [step, g1 coins]⟩, fun ord coins s' ret hx => ?_⟩
    simp only [step, Option.map_eq_some_iff, Prod.mk.injEq, Prod.exists] at hx
    obtain ⟨s'', out, hx, rfl, _⟩ := hx
    exact g2 ord coins s'' out hx

/-- Every other crash of a key generation session is the timer going off before the first `ProcessAll` has run: `HandleMessage`, the
clock and the timer itself never crash, and the timer callback crashes exactly when the session is still in round 0. -/
theorem C118_keygen_others {self : ID} {ids : IDSlice} {t : UInt16} {timeout now : Nat} {s₀ : State G (Keygen.Round G)}
    (h₀ : Keygen.newKeygenState sha self ids t timeout now = .ok s₀) (hnd : ids.Nodup) {h : List (Op G × Ret G)}
    {s : State G (Keygen.Round G)} (hh : Hist (Keygen.impl sha) s₀ h s) (op : Op G) (hop : ∀ ord coins, op ≠ .processAll ord coins) :
    step (Keygen.impl sha) s op = none ↔ op = .callback ∧ s.timer.fired ≠ 0 ∧ s.done = false ∧ s.roundNumber = 0 := by
  constructor
  · intro hx
    match op with
    | .handle m => simp [step] at hx
    | .processAll ord coins => exact absurd rfl (hop ord coins)
    | .advance dt => simp [step] at hx
    | .fire =>
      simp only [step] at hx
      split at hx
      · split at hx <;> cases hx
      · cases hx
    | .callback =>
      refine ⟨rfl, ?_, ?_, ?_⟩
      · intro hf
        simp [step, hf] at hx
      · by_contra hd
        have hd : s.done = true := by simpa using hd
        simp only [step] at hx
        split at hx
        · cases hx
        · simp [timeoutCallback, reportError, hd] at hx
      · by_contra hn
        exact C33_keygen_timeout_safe_partial self ids t timeout now s₀ h₀ hnd hh hn hx
  · rintro ⟨rfl, hf, hd, hn⟩
    obtain ⟨r₀, hs, rfl⟩ := start_of_new h₀ hnd
    obtain ⟨heq, _, _, _⟩ := hs.eq
    have hrun := (Keygen.running hs hh).1 hd
    rw [hn] at hrun
    have hrun : s.round = r₀ := hrun
    have hp : s.round.polynomial = none := by rw [hrun, heq]
    simp only [step, if_neg hf, timeoutCallback, reportError, hd, finish, Keygen.impl]
    cases s.err <;> simp [Keygen.reset, hp]

/-- No other event ever crashes a signing session. -/
theorem C118_sign_others {secret : SecretShare G} {shares : Public G} {ids : IDSlice} {message : Bytes} {timeout now : Nat} {s₀ : State G (Sign.Round G)}
    (h₀ : Sign.newSignState sha ids secret shares message timeout now = .ok s₀) {h : List (Op G × Ret G)}
    {s : State G (Sign.Round G)} (hh : Hist (Sign.impl sha) s₀ h s) (op : Op G) (hop : ∀ ord coins, op ≠ .processAll ord coins) :
    step (Sign.impl sha) s op ≠ none := by
  intro hx
  match op with
  | .handle m => simp [step] at hx
  | .processAll ord coins => exact absurd rfl (hop ord coins)
  | .advance dt => simp [step] at hx
  | .fire =>
    simp only [step] at hx
    split at hx
    · split at hx <;> cases hx
    · cases hx
  | .callback => exact C33_sign_timeout_safe secret shares ids message timeout now s₀ h₀ hh hx

/-- A key generation session to which no unusable message was handed never crashes in `ProcessAll`, whatever else it was handed. -/
theorem C118_keygen_safe {self : ID} {ids : IDSlice} {t : UInt16} {timeout now : Nat} {s₀ : State G (Keygen.Round G)}
    (h₀ : Keygen.newKeygenState sha self ids t timeout now = .ok s₀) (hnd : ids.Nodup) (h0 : (0 : ID) ∉ ids) {h : List (Op G × Ret G)}
    {s : State G (Keygen.Round G)} (hh : Hist (Keygen.impl sha) s₀ h s) (hu : ∀ m ret, (Op.handle m, ret) ∈ h → ¬ Spec.Unusable m)
    (ord : MapOrder) (coins : Coins) : step (Keygen.impl sha) s (.processAll ord coins) ≠ none := by
  intro hx
  obtain ⟨_, _, j, m, hm, hbad⟩ := (C118_keygen_processAll h₀ hnd h0 hh).1.mp ⟨ord, coins, hx⟩
  obtain ⟨r₀, hs, rfl⟩ := start_of_new h₀ hnd
  exact hu m _ ((inv_hist (Keygen.impl_stable sha) hh).stored j m hm).2.2.2 hbad

/-- The same for signing: such a session never crashes at all. -/
theorem C118_sign_safe {secret : SecretShare G} {shares : Public G} {ids : IDSlice} {message : Bytes} {timeout now : Nat} {s₀ : State G (Sign.Round G)}
    (h₀ : Sign.newSignState sha ids secret shares message timeout now = .ok s₀) (hnd : ids.Nodup) {h : List (Op G × Ret G)}
    {s : State G (Sign.Round G)} (hh : Hist (Sign.impl sha) s₀ h s) (hu : ∀ m ret, (Op.handle m, ret) ∈ h → ¬ Spec.Unusable m)
    (op : Op G) : step (Sign.impl sha) s op ≠ none := by
  by_cases hop : ∀ ord coins, op ≠ .processAll ord coins
  · exact C118_sign_others h₀ hh op hop
  push Not at hop
  obtain ⟨ord, coins, rfl⟩ := hop
  intro hx
  obtain ⟨_, _, j, m, hm, hbad⟩ := (C118_sign_processAll h₀ hnd hh).1.mp ⟨ord, coins, hx⟩
  obtain ⟨r₀, hs, rfl⟩ := sign_start_of_new h₀ hnd
  exact hu m _ ((inv_hist (Sign.impl_stable sha) hh).stored j m hm).2.2.2 hbad

/-- Which received bytes give an unusable message, for a receiver that decodes into a new message: those that are not the encoding of
a message with the payload of its type, for KeyGen1 one with at least one and at most 65535 commitments. -/
theorem C118_bytes {data : Bytes} {m : Message G} (hm : Message.unmarshalBinary Message.fresh data = .ok m) :
    Spec.Unusable m ↔ ¬ ∃ m' : Message G, Message.marshalBinary m' = .ok data ∧ Spec.Fits m' ∧
      (m'.header.type = 1 → ∀ p, m'.keyGen1 = some p → p.commitments ≠ []) := by
  constructor
  · rintro hu ⟨m', h1, h2, h3⟩
    obtain ⟨_, h4⟩ := message_roundtrip m' Message.fresh h2 data h1
    rw [hm] at h4
    obtain rfl := Outcome.ok.inj h4
    obtain ⟨hv, pb, hp, _⟩ := (message_marshal m' data).mp h1
    unfold Spec.payloadBytes at hp
    rcases hu with ⟨ht, hu⟩ | ⟨ht, hu⟩ | ⟨ht, hu⟩ | ⟨ht, hu⟩ <;> simp only at ht hu <;> simp [ht] at hu hp
    · obtain ⟨p, hp, _⟩ := hp
      exact h3 ht p hp (hu p hp)
    · obtain ⟨p, hp, _⟩ := hp
      rw [hu] at hp; cases hp
    · obtain ⟨p, hp, _⟩ := hp
      rw [hu] at hp; cases hp
    · obtain ⟨p, hp, _⟩ := hp
      rw [hu] at hp; cases hp
  · intro hno
    by_contra hu
    apply hno
    have hm' := hm
    unfold Message.unmarshalBinary at hm'
    obtain ⟨hdr, hh, _⟩ := bind_eq_ok.mp hm'
    obtain ⟨hv, rest, rfl⟩ := (C18_unmarshal_iff data hdr).mp hh
    rw [message_unmarshal _ hv] at hm
    refine ⟨m, ?_⟩
    rw [message_marshal]
    have hval : hdr.type = 1 ∨ hdr.type = 2 ∨ hdr.type = 3 ∨ hdr.type = 4 := by
      obtain ⟨_, ⟨h | h | h, _⟩ | ⟨h, _⟩⟩ := hv <;> simp [h]
    rcases hval with ht | ht | ht | ht <;> simp only [ht] at hm
    · rw [if_pos trivial] at hm
      cases hk : (KeyGen1.unmarshalBinary rest : GoRes (KeyGen1 G)) with
      | panic => rw [hk] at hm; cases hm
      | err e =>
        rw [hk] at hm
        cases hm
        exact absurd (Or.inl ⟨rfl, by simp [Message.fresh]⟩) hu
      | ok p =>
        rw [hk] at hm
        cases hm
        obtain ⟨hr, hl⟩ := KeyGen1.unmarshal_ok hk
        have hne : p.commitments ≠ [] := fun h => hu (Or.inl ⟨rfl, by simp [h]⟩)
        refine ⟨⟨by rw [← ht]; exact hv, _, ?_, by rw [← ht]⟩, ?_, ?_⟩
        · simp only [Spec.payloadBytes, if_true, Option.map_some]
          rw [← keyGen1_bytes, ← hr]
        · intro _ q hq
          cases hq
          exact hl
        · intro _ q hq
          cases hq
          exact hne
    · rw [if_neg (by decide), if_pos trivial] at hm
      cases hk : KeyGen2.unmarshalBinary rest with
      | panic => rw [hk] at hm; cases hm
      | err e =>
        rw [hk] at hm
        cases hm
        exact absurd (Or.inr (Or.inl ⟨rfl, rfl⟩)) hu
      | ok p =>
        rw [hk] at hm
        cases hm
        have hr := KeyGen2.unmarshal_ok hk
        refine ⟨⟨by rw [← ht]; exact hv, rest, ?_, by rw [← ht]⟩, ?_, ?_⟩
        · simp [Spec.payloadBytes, hr, KeyGen2.marshal_eq]
        · intro h; exact absurd h (by simp)
        · intro h; exact absurd h (by simp)
    · rw [if_neg (by decide), if_neg (by decide), if_pos trivial] at hm
      cases hk : (Sign1.unmarshalBinary rest : GoRes (Sign1 G)) with
      | panic => rw [hk] at hm; cases hm
      | err e =>
        rw [hk] at hm
        cases hm
        exact absurd (Or.inr (Or.inr (Or.inl ⟨rfl, rfl⟩))) hu
      | ok p =>
        rw [hk] at hm
        cases hm
        have hr := Sign1.unmarshal_ok hk
        refine ⟨⟨by rw [← ht]; exact hv, rest, ?_, by rw [← ht]⟩, ?_, ?_⟩
        · simp [Spec.payloadBytes, hr, Sign1.marshal_eq]
        · intro h; exact absurd h (by simp)
        · intro h; exact absurd h (by simp)
    · rw [if_neg (by decide), if_neg (by decide), if_neg (by decide)] at hm
      cases hk : Sign2.unmarshalBinary rest with
      | panic => rw [hk] at hm; cases hm
      | err e =>
        rw [hk] at hm
        cases hm
        exact absurd (Or.inr (Or.inr (Or.inr ⟨rfl, rfl⟩))) hu
      | ok p =>
        rw [hk] at hm
        cases hm
        have hr := Sign2.unmarshal_ok hk
        refine ⟨⟨by rw [← ht]; exact hv, rest, ?_, by rw [← ht]⟩, ?_, ?_⟩
        · simp [Spec.payloadBytes, hr, Sign2.marshal_eq]
        · intro h; exact absurd h (by simp)
        · intro h; exact absurd h (by simp)

end Verif.Props
