import Verif.Props.ConfigSign
import Verif.Props.Integration
import Verif.Props.Unsorted

/-!
C124: two checks after key generation that make up for what key generation does not check.  Findings 5, 20 and 49 are about parties that finish
without error and hold shares that do not fit together.  Both checks use what the library exports: `Public.Equal`, and the fields `Public.Shares`
and `SecretShare.Public`.
-/

namespace Verif.Props

open Verif State Outcome Polynomial

variable {G : Type} [RGroup G] {sha : Sha512}

theorem equalLoop_true {a b : Public G} : ∀ {l : List ID}, Public.equalLoop a b l = .ok true → ∀ i ∈ l, a.shares.get? i = b.shares.get? i
  | [], _ => fun _ hi => absurd hi List.not_mem_nil
  | id :: l, h => by
    rw [Public.equalLoop] at h
    obtain ⟨x, hx, h⟩ := Outcome.bind_eq_ok.mp h
    obtain ⟨y, hy, h⟩ := Outcome.bind_eq_ok.mp h
    rw [deref_eq_ok] at hx hy
    by_cases hxy : x = y
    · rw [if_neg (by simpa using hxy)] at h
      intro i hi
      rcases List.mem_cons.mp hi with rfl | hi
      · rw [hx, hy, hxy]
      · exact equalLoop_true h i hi
    · rw [if_pos hxy] at h
      cases h

/-- What `Equal` means when it returns true, for any two values. -/
theorem equal_true {a b : Public G} (h : Public.equal a b = .ok true) : a.partyIDs = b.partyIDs ∧ a.threshold = b.threshold ∧
    a.groupKey = b.groupKey ∧ ∀ id ∈ a.partyIDs, a.shares.get? id = b.shares.get? id := by
  unfold Public.equal at h
  by_cases h1 : a.shares.length = b.shares.length
  swap
  · rw [if_pos h1] at h
    cases h
  rw [if_neg (by simpa using h1), IDSlice.equal_eq, Outcome.ok_bind] at h
  by_cases h2 : a.partyIDs = b.partyIDs
  swap
  · simp [h2] at h
  by_cases h3 : a.threshold = b.threshold
  swap
  · simp [h2, h3] at h
  by_cases h4 : a.groupKey = b.groupKey
  swap
  · simp [h2, h3, h4, PublicKey.equal] at h
  simp only [h2, h3, h4, PublicKey.equal, decide_true, Bool.true_eq_false, if_false, ne_eq, not_true_eq_false] at h
  exact ⟨h2, h3, h4, fun id hid => equalLoop_true h id (h2 ▸ hid)⟩

/-- The checks: everybody's `Public` is equal to everybody else's, and everybody's own share is the one that its `Public` has for it. -/
structure Spec.Checked (H : List ID) (sk : ID → SecretShare G) (pub : ID → Public G) : Prop where
  same : ∀ i ∈ H, ∀ j ∈ H, Public.equal (pub i) (pub j) = .ok true
  own : ∀ i ∈ H, (pub i).shares.get? i = some (sk i).pub

/-- If the results of the honest parties `H` pass the checks, they hold shares of one key, with one list and one threshold, whatever lists and
thresholds they were given, whatever the others did and whatever became of the messages. -/
theorem C124_one_key (H : List ID) (hH : H ≠ []) (ids : ID → IDSlice) (t : ID → UInt16) (timeout now : ID → Nat) (s₀ s : ID → State G (Keygen.Round G))
    (h : ID → List (Op G × Ret G)) (hnd : ∀ j ∈ H, (ids j).Nodup)
    (hnew : ∀ j ∈ H, Keygen.newKeygenState sha j (ids j) (t j) (timeout j) (now j) = .ok (s₀ j))
    (hh : ∀ j ∈ H, Hist (Keygen.impl sha) (s₀ j) (h j) (s j)) (hok : ∀ j ∈ H, (s j).done = true ∧ (s j).err = none)
    (sk : ID → SecretShare G) (pub : ID → Public G) (hsk : ∀ j ∈ H, (s j).round.output.secretKey = some (sk j))
    (hpub : ∀ j ∈ H, (s j).round.output.pub = some (pub j)) (hc : Spec.Checked H sk pub) :
    ∃ (F : Scalar[X]) (L : IDSlice) (T : UInt16), F.natDegree ≤ T.toNat ∧ (∀ j ∈ H, j ∈ L) ∧ ∀ j ∈ H, ids j = L ∧ t j = T ∧ (pub j).partyIDs = L ∧
      (pub j).threshold = T ∧ (sk j).id = j ∧ (sk j).secret = F.eval (j.toNat : Scalar) ∧ (pub j).groupKey = F.eval 0 • (base : G) ∧
      ∀ k ∈ L, (pub j).shares.get? k = some (F.eval (k.toNat : Scalar) • (base : G)) := by
  obtain ⟨i, hi⟩ := List.exists_mem_of_ne_nil H hH
  obtain ⟨F, p, f1, f2, f3, f4, f5, f6, _⟩ := C39_public_on_polynomial i (ids i) (t i) _ _ _ (hnew i hi) (hnd i hi) (hh i hi) (hok i hi).1 (hok i hi).2
  rw [hpub i hi] at f2
  cases f2
  have key : ∀ j ∈ H, ids j = ids i ∧ t j = t i ∧ (pub j).partyIDs = ids i ∧ (pub j).threshold = t i ∧ j ∈ ids i ∧ (pub j).groupKey = F.eval 0 • (base : G) ∧
      ∀ k ∈ ids i, (pub j).shares.get? k = some (F.eval (k.toNat : Scalar) • (base : G)) := by
    intro j hj
    obtain ⟨_, q, _, g2, g3, g4, _⟩ := C39_public_on_polynomial j (ids j) (t j) _ _ _ (hnew j hj) (hnd j hj) (hh j hj) (hok j hj).1 (hok j hj).2
    rw [hpub j hj] at g2
    cases g2
    obtain ⟨e1, e2, e3, e4⟩ := equal_true (hc.same i hi j hj)
    rw [f3, g3] at e1
    rw [f4, g4] at e2
    obtain ⟨r₀, hs, _⟩ := start_of_new (hnew j hj) (hnd j hj)
    have hjm := IDSlice.contains_sound hs.eq.2.2.2
    exact ⟨e1.symm, e2.symm, g3.trans e1.symm, g4.trans e2.symm, e1 ▸ hjm, e3 ▸ f5, fun k hk => (e4 k (f3 ▸ hk)) ▸ f6 k hk⟩
  refine ⟨F, ids i, t i, f1, fun j hj => (key j hj).2.2.2.2.1, fun j hj => ?_⟩
  obtain ⟨k1, k2, k3, k4, k5, k6, k7⟩ := key j hj
  obtain ⟨_, sk', _, _, a1, _, _, a4, a5, _⟩ := C39_own_share_exact j (ids j) (t j) _ _ _ (hnew j hj) (hnd j hj) (hh j hj) (hok j hj).1 (hok j hj).2
  rw [hsk j hj] at a1
  cases a1
  refine ⟨k1, k2, k3, k4, a4, ?_, k6, k7⟩
  have := hc.own j hj
  rw [k7 j k5, a5] at this
  exact (smul_base_injective (G := G) (Option.some.inj this)).symm

/-- So more than `t` of them can sign: their sessions can be started, and are such that C43 applies, by which they get a signature. -/
theorem C124_can_sign (H : List ID) (ids : ID → IDSlice) (t : ID → UInt16) (timeout now : ID → Nat) (s₀ s : ID → State G (Keygen.Round G))
    (h : ID → List (Op G × Ret G)) (hnd : ∀ j ∈ H, (ids j).Nodup)
    (hnew : ∀ j ∈ H, Keygen.newKeygenState sha j (ids j) (t j) (timeout j) (now j) = .ok (s₀ j))
    (hh : ∀ j ∈ H, Hist (Keygen.impl sha) (s₀ j) (h j) (s j)) (hok : ∀ j ∈ H, (s j).done = true ∧ (s j).err = none)
    (sk : ID → SecretShare G) (pub : ID → Public G) (hsk : ∀ j ∈ H, (s j).round.output.secretKey = some (sk j))
    (hpub : ∀ j ∈ H, (s j).round.output.pub = some (pub j)) (hc : Spec.Checked H sk pub)
    (S : IDSlice) (hS : S.Pairwise (· < ·)) (hsub : ∀ j ∈ S, j ∈ H) (hlen : ∀ j ∈ S, (t j).toNat < S.length) (hne : S ≠ []) (message : Bytes)
    (ts ns : ID → Nat) :
    (∃ init : ID → State G (Sign.Round G), ∀ j ∈ S, Sign.newSignState sha S (sk j) (pub j) message (ts j) (ns j) = .ok (init j)) ∧
    ∃ (F : Scalar[X]) (T : UInt16), ∀ init, (∀ j ∈ S, Sign.newSignState sha S (sk j) (pub j) message (ts j) (ns j) = .ok (init j)) →
      Spec.SignSetup sha S T F message sk pub ts ns init := by
  obtain ⟨i, hi⟩ := List.exists_mem_of_ne_nil S hne
  have hHne : H ≠ [] := List.ne_nil_of_mem (hsub i hi)
  obtain ⟨F, L, T, f1, f2, f3⟩ := C124_one_key H hHne ids t timeout now s₀ s h hnd hnew hh hok sk pub hsk hpub hc
  have hSle : S.Pairwise (· ≤ ·) := hS.imp fun h => UInt16.le_of_lt h
  have hSnd : S.Nodup := hS.imp fun {a b} h e => by subst e; exact absurd h (by simp)
  have hL : L.Pairwise (· < ·) ∧ (0 : ID) ∉ L := by
    have hi' := hsub i hi
    have := C121_keygen_list (hnew i hi') (nodup_ids_length (hnd i hi')) (hh i hi') (Or.inl (hok i hi'))
    rwa [(f3 i hi').1] at this
  have hLle : L.Pairwise (· ≤ ·) := hL.1.imp fun h => UInt16.le_of_lt h
  have hacc : ∀ j ∈ S, ∃ x : State G (Sign.Round G), Sign.newSignState sha S (sk j) (pub j) message (ts j) (ns j) = .ok x := by
    intro j hj
    obtain ⟨_, _, g3, _, g5, _, _, g8⟩ := f3 j (hsub j hj)
    exact C42_accepts (sk j) (pub j) S message (ts j) (ns j) hSle (by rw [g3]; exact hLle) (by rw [g5]; exact hj)
      fun id hid => ⟨by rw [g3]; exact f2 id (hsub id hid), fun h => hL.2 (h ▸ f2 id (hsub id hid)), by rw [g8 id (f2 id (hsub id hid))]; simp⟩
  constructor
  · obtain ⟨x₀, _⟩ := hacc i hi
    have : ∀ j, ∃ x : State G (Sign.Round G), j ∈ S → Sign.newSignState sha S (sk j) (pub j) message (ts j) (ns j) = .ok x := by
      intro j
      by_cases hj : j ∈ S
      · obtain ⟨x, hx⟩ := hacc j hj
        exact ⟨x, fun _ => hx⟩
      · exact ⟨x₀, fun h => absurd h hj⟩
    choose init hinit using this
    exact ⟨init, hinit⟩
  · refine ⟨F, T, fun init hinit => ⟨hSle, hSnd, f1, ?_, ?_, ?_, ?_, ?_, hinit⟩⟩
    · rw [← (f3 i (hsub i hi)).2.1]
      exact hlen i hi
    · exact fun j hj => (f3 j (hsub j hj)).2.2.2.2.1
    · exact fun j hj => (f3 j (hsub j hj)).2.2.2.2.2.1
    · exact fun j hj => (f3 j (hsub j hj)).2.2.2.2.2.2.1
    · exact fun j hj k hk => (f3 j (hsub j hj)).2.2.2.2.2.2.2 k (f2 k (hsub k hk))

/-- The second check is needed: a signer `a` whose secret share does not fit its public share is blamed by every honest signer that has seen the same
commitments, unless the challenge happens to be 0. -/
theorem C124_own_needed {a b : SecretShare G} {shares : Public G} {ids : IDSlice} {message : Bytes} {ta na tb nb : Nat}
    {sa sb sa' sb' : State G (Sign.Round G)} (hsa : Sign.newSignState sha ids a shares message ta na = .ok sa)
    (hsb : Sign.newSignState sha ids b shares message tb nb = .ok sb) (hnd : ids.Nodup) (X : G) (hX : shares.shares.get? a.id = some X)
    (hne : a.secret • (base : G) ≠ X) {ha hb : List (Op G × Ret G)} (hha : Hist (Sign.impl sha) sa ha sa') (hhb : Hist (Sign.impl sha) sb hb sb')
    (hsame : ∀ D E D' E', Spec.Commitments a.id ids ha D E → Spec.Commitments b.id ids hb D' E' → ∀ id ∈ ids, D id = D' id ∧ E id = E' id)
    (m : Message G) (z : Sign2) (hm : m ∈ Spec.emitted ha) (hz : m.sign2 = some z) (hd : sb'.done = false) (hn : sb'.roundNumber = 2) :
    ∃ D E, Spec.Commitments a.id ids ha D E ∧ (Spec.chal sha ids message shares.groupKey D E ≠ 0 → ∀ (msgs : List (Option (Message G))) (r : Sign.Round G),
      Spec.Fed (Sign.impl sha).processMessage sb'.round msgs r →
        ∃ e, (Sign.impl sha).processMessage r (some m) = .err (e, r) ∧ e.partyID = a.id) := by
  obtain ⟨hmeq, D, E, h1, h2⟩ := sent_share hsa hnd hha hm hz
  obtain ⟨D', E', h3, h4⟩ := C45_share_accepted_iff b shares ids message tb nb sb hsb hnd hhb hd hn
  have hfrom : m.header.fromID = a.id := by rw [hmeq]; rfl
  have hacc := C42_accepted a shares ids message ta na sa hsa
  have hag := hsame D E D' E' h1 h3
  refine ⟨D, E, h1, fun hch msgs r hfed => ?_⟩
  have h5 := h4 msgs r hfed m z (by rw [hfrom]; exact hacc.1) hz
  rw [hfrom] at h5
  refine h5.2 fun heq => ?_
  have hrho : ∀ id ∈ ids, Spec.nonce sha ids message D E id = Spec.nonce sha ids message D' E' id := by
    intro id hid
    unfold Spec.nonce Spec.rho
    rw [nonce_congr (message := message) hag, (hag id hid).1, (hag id hid).2]
  have hR : Spec.groupNonce sha ids message D E = Spec.groupNonce sha ids message D' E' := by
    unfold Spec.groupNonce
    rw [List.map_congr_left hrho]
  have hcc : Spec.chal sha ids message shares.groupKey D E = Spec.chal sha ids message shares.groupKey D' E' := by
    unfold Spec.chal
    rw [hR]
  rw [h2, hrho _ hacc.1, ← hcc, add_right_inj, Spec.weightedShare, hX, Option.getD_some] at heq
  have h0 : (0 : ID) ∉ ids := fun h => (hacc.2.1 0 h).2.1 rfl
  exact hne (smul_right_injective G (weight_ne_zero a.id h0) (smul_right_injective G hch heq))

end Verif.Props
