import Verif.Props.KeygenRogue
import Verif.Props.Demo

/-!
C74: do honest parties that finish key generation hold shares of one key?  They do if everybody's commitments reached all of them
alike.  The code does not see to that: there is no echo of the broadcasts.
-/

namespace Verif.Props

open Verif State Keygen Outcome Polynomial

variable {G : Type} [RGroup G] {sha : Sha512}

theorem perm_self {ids : List ID} (hnd : ids.Nodup) {j : ID} (hj : j ∈ ids) : ids.Perm (j :: others j ids) := by
  refine (List.perm_ext_iff_of_nodup hnd ?_).mpr ?_
  · exact List.nodup_cons.mpr ⟨by simp [mem_others], hnd.filter _⟩
  · intro k
    rw [List.mem_cons, mem_others]
    by_cases hk : k = j
    · simp [hk, hj]
    · simp [hk]

/-- The public result of a successful session, from the commitments of everybody including its own. -/
theorem pub_of_commitments (self : ID) (ids : IDSlice) (t : UInt16) (timeout now : Nat) (s₀ : State G (Round G))
    (h₀ : newKeygenState sha self ids t timeout now = .ok s₀) (hnd : ids.Nodup) {h : List (Op G × Ret G)} {s : State G (Round G)}
    (hh : Hist (impl sha) s₀ h s) (hd : s.done = true) (he : s.err = none) :
    ∃ (K : ID → List G) (pub : Public G), (∃ π, Message.newKeyGen1 self π (K self) ∈ Spec.emitted h) ∧
      (K self).length = t.toNat + 1 ∧
      (∀ m k, m ∈ Spec.emitted h → m.keyGen1 = some k → k.commitments = K self) ∧
      (∀ id ∈ ids, id ≠ self → Spec.GotCommitments self ids h id (K id)) ∧
      s.round.output.pub = some pub ∧ pub.partyIDs = ids ∧ pub.threshold = t ∧
      pub.groupKey = (ids.map fun k => if (K k).length = t.toNat + 1 then Spec.evalAt (K k) (0 : Scalar) else 0).sum ∧
      (∀ id ∈ ids, pub.shares.get? id =
        some (ids.map fun k => if (K k).length = t.toNat + 1 then Spec.evalAt (K k) id.val else 0).sum) ∧
      ∀ id, id ∉ ids → pub.shares.get? id = none := by
  have hem := C67_keygen_sends self ids t timeout now s₀ h₀ hnd hh
  obtain ⟨r₀, hs, rfl⟩ := start_of_new h₀ hnd
  have hself := IDSlice.contains_sound hs.eq.2.2.2
  obtain ⟨f, C, z, h1, h2, h3, h4, h5, pub, h6, h7, h8, h9, h10, h11, _⟩ := finished_spec hs ((running hs hh).2 hd he)
  have hthr : r₀.threshold = t := by rw [hs.eq.1]
  have hsid : r₀.selfID = self := by rw [hs.eq.1]
  let K : ID → List G := fun k => if k = self then Exponent.ofPoly f else C k
  have hKs : K self = Exponent.ofPoly f := by simp [K]
  have hKo : ∀ k ∈ others self ids, K k = C k := by
    intro k hk
    simp [K, (mem_others.mp hk).2]
  have hKl : (K self).length = t.toNat + 1 := by rw [hKs]; simp [Exponent.ofPoly, h1]
  have hin : ∃ π, Message.newKeyGen1 self π (K self) ∈ Spec.emitted h := by
    obtain ⟨ord, coins, hc, hm⟩ := h2
    refine ⟨⟨0, coins (r₀.threshold.toNat + 1)⟩, ?_⟩
    unfold Spec.emitted
    rw [List.mem_flatMap]
    refine ⟨_, hm, ?_⟩
    rw [hKs, ← hsid]
    simp
  have hsum : ∀ x : Scalar, Spec.evalAt f x • (base : G) +
      ((others self ids).map fun k => if (C k).length = t.toNat + 1 then Spec.evalAt (C k) x else 0).sum =
      (ids.map fun k => if (K k).length = t.toNat + 1 then Spec.evalAt (K k) x else 0).sum := by
    intro x
    rw [((perm_self hnd hself).map _).sum_eq, List.map_cons, List.sum_cons, if_pos hKl, hKs, Exponent.ofPoly_evalAt]
    congr 2
    apply List.map_congr_left
    intro k hk
    rw [hKo k hk]
  refine ⟨K, pub, hin, hKl, ?_, ?_, h6, h7, h8, ?_, ?_, h11⟩
  · intro m k hm hk
    obtain ⟨π, hπ⟩ := hin
    have uniq : ∀ m ∈ Spec.emitted h, ∀ m' ∈ Spec.emitted h, ∀ k k', m.keyGen1 = some k → m'.keyGen1 = some k' →
        k.commitments = k'.commitments := by
      rcases hem with h0 | ⟨g, π', c, _, _, h0 | h0⟩
      · rw [h0]
        intro m hm
        exact absurd hm List.not_mem_nil
      · rw [h0]
        intro m hm m' hm' k k' hk hk'
        rw [List.mem_singleton] at hm hm'
        subst hm hm'
        rw [hk] at hk'
        cases hk'
        rfl
      · rw [h0]
        have hsh : ∀ m ∈ Spec.shares self g ids, (m : Message G).keyGen1 = none := by
          intro m hm
          unfold Spec.shares at hm
          obtain ⟨_, _, rfl⟩ := List.mem_map.mp hm
          rfl
        intro m hm m' hm' k k' hk hk'
        rcases List.mem_cons.mp hm with rfl | hm
        · rcases List.mem_cons.mp hm' with rfl | hm'
          · rw [hk] at hk'
            cases hk'
            rfl
          · rw [hsh m' hm'] at hk'
            cases hk'
        · rw [hsh m hm] at hk
          cases hk
    exact uniq m hm _ hπ k ⟨π, K self⟩ hk rfl
  · intro id hid hne
    rw [hKo id (mem_others.mpr ⟨hid, hne⟩)]
    exact (h4 id (mem_others.mpr ⟨hid, hne⟩)).1
  · rw [h9, hsum]
  · intro id hid
    rw [h10 id hid, hsum]

/-- The broadcasts reached the sessions `a` and `b` (with histories `ha`, `hb`) alike: they accepted the same commitments from every
other party, and from each other what the other has sent. -/
structure Spec.SameBroadcasts (ids : List ID) (a b : ID) (ha hb : List (Op G × Ret G)) : Prop where
  others : ∀ k ∈ ids, k ≠ a → k ≠ b → ∀ c c', Spec.GotCommitments a ids ha k c → Spec.GotCommitments b ids hb k c' → c = c'
  left : ∀ c, Spec.GotCommitments a ids ha b c → ∃ m k, m ∈ Spec.emitted hb ∧ m.keyGen1 = some k ∧ k.commitments = c
  right : ∀ c, Spec.GotCommitments b ids hb a c → ∃ m k, m ∈ Spec.emitted ha ∧ m.keyGen1 = some k ∧ k.commitments = c

/-- Two parties that finish key generation without error, whatever the others did, have the same public key, with the same public
share for everybody, if the broadcasts reached them alike. -/
theorem C74_agree_on_public (a b : ID) (ids : IDSlice) (t : UInt16) (ta na tb nb : Nat) (sa sb : State G (Round G))
    (h₀a : newKeygenState sha a ids t ta na = .ok sa) (h₀b : newKeygenState sha b ids t tb nb = .ok sb) (hnd : ids.Nodup)
    {ha hb : List (Op G × Ret G)} {sa' sb' : State G (Round G)} (hha : Hist (impl sha) sa ha sa') (hhb : Hist (impl sha) sb hb sb')
    (hab : a ≠ b) (hoka : sa'.done = true ∧ sa'.err = none) (hokb : sb'.done = true ∧ sb'.err = none)
    (hsame : Spec.SameBroadcasts ids a b ha hb) :
    ∃ pa pb : Public G, sa'.round.output.pub = some pa ∧ sb'.round.output.pub = some pb ∧ pa.partyIDs = pb.partyIDs ∧
      pa.threshold = pb.threshold ∧ pa.groupKey = pb.groupKey ∧ ∀ id, pa.shares.get? id = pb.shares.get? id := by
  obtain ⟨K, pa, _, a2, a3, a4, a5, a6, a7, a8, a9, a10⟩ := pub_of_commitments a ids t ta na sa h₀a hnd hha hoka.1 hoka.2
  obtain ⟨L, pb, _, b2, b3, b4, b5, b6, b7, b8, b9, b10⟩ := pub_of_commitments b ids t tb nb sb h₀b hnd hhb hokb.1 hokb.2
  have hKL : ∀ k ∈ ids, K k = L k := by
    intro k hk
    by_cases hka : k = a
    · subst hka
      obtain ⟨m, kg, h1, h2, h3⟩ := hsame.right _ (b4 k hk hab)
      rw [← h3, a3 m kg h1 h2]
    · by_cases hkb : k = b
      · subst hkb
        obtain ⟨m, kg, h1, h2, h3⟩ := hsame.left _ (a4 k hk hka)
        rw [← h3, b3 m kg h1 h2]
      · exact hsame.others k hk hka hkb _ _ (a4 k hk hka) (b4 k hk hkb)
  have hsum : ∀ x : Scalar, (ids.map fun k => if (K k).length = t.toNat + 1 then Spec.evalAt (K k) x else 0) =
      ids.map fun k => if (L k).length = t.toNat + 1 then Spec.evalAt (L k) x else 0 := by
    intro x
    apply List.map_congr_left
    intro k hk
    rw [hKL k hk]
  refine ⟨pa, pb, a5, b5, a6.trans b6.symm, a7.trans b7.symm, by rw [a8, b8, hsum], fun id => ?_⟩
  by_cases hid : id ∈ ids
  · rw [a9 id hid, b9 id hid, hsum]
  · rw [a10 id hid, b10 id hid]

/-- The secrets of all honest parties `H` that finish key generation without error are the values of one polynomial of degree at most
`t`, whose constant term is the discrete logarithm of the group key all of them hold, whatever the others did, if the broadcasts
reached them alike and had the right length.  So any `t + 1` of them can sign. -/
theorem C74_one_key (H : List ID) (ids : IDSlice) (t : UInt16) (timeout now : ID → Nat) (s₀ s : ID → State G (Round G))
    (h : ID → List (Op G × Ret G)) (hnd : ids.Nodup) (hH : H ≠ []) (hnew : ∀ j ∈ H, newKeygenState sha j ids t (timeout j) (now j) = .ok (s₀ j))
    (hh : ∀ j ∈ H, Hist (impl sha) (s₀ j) (h j) (s j)) (hok : ∀ j ∈ H, (s j).done = true ∧ (s j).err = none)
    (hsame : ∀ i ∈ H, ∀ j ∈ H, i ≠ j → Spec.SameBroadcasts ids i j (h i) (h j))
    (hlen : ∀ j ∈ H, ∀ id c, Spec.GotCommitments j ids (h j) id c → c.length = t.toNat + 1) :
    ∃ F : Scalar[X], F.natDegree ≤ t.toNat ∧ ∀ j ∈ H, ∃ (sk : SecretShare G) (pub : Public G),
      (s j).round.output.secretKey = some sk ∧ (s j).round.output.pub = some pub ∧ sk.id = j ∧ sk.secret = F.eval (j.toNat : Scalar) ∧
      pub.groupKey = F.eval 0 • base ∧ ∀ id ∈ ids, pub.shares.get? id = some (F.eval (id.toNat : Scalar) • base) := by
  obtain ⟨i, hi⟩ := List.exists_mem_of_ne_nil H hH
  obtain ⟨F, pi, f1, f2, _, _, f3, f4, _⟩ := C39_public_on_polynomial i ids t _ _ _ (hnew i hi) hnd (hh i hi) (hok i hi).1 (hok i hi).2
  refine ⟨F, f1, ?_⟩
  intro j hj
  obtain ⟨sk, pub, g1, g2, g3, g4, _⟩ := C39_own_share_partial j ids t _ _ _ (hnew j hj) hnd (hh j hj) (hok j hj).1 (hok j hj).2 (hlen j hj)
  have hpub : pub.groupKey = F.eval 0 • base ∧ ∀ id ∈ ids, pub.shares.get? id = some (F.eval id.val • base) := by
    by_cases hij : i = j
    · subst hij
      rw [f2] at g2
      cases g2
      exact ⟨f3, f4⟩
    · obtain ⟨pa, pb, p1, p2, _, _, p3, p4⟩ := C74_agree_on_public i j ids t _ _ _ _ _ _ (hnew i hi) (hnew j hj) hnd (hh i hi) (hh j hj) hij
        (hok i hi) (hok j hj) (hsame i hi j hj hij)
      rw [f2] at p1
      cases p1
      rw [g2] at p2
      cases p2
      exact ⟨p3 ▸ f3, fun id hid => (p4 id) ▸ f4 id hid⟩
  obtain ⟨r₀, hs, _⟩ := start_of_new (hnew j hj) hnd
  have hjm := IDSlice.contains_sound hs.eq.2.2.2
  refine ⟨sk, pub, g1, g2, g3, ?_, hpub.1, hpub.2⟩
  apply smul_base_injective (G := G)
  have := hpub.2 j hjm
  rw [g4] at this
  exact Option.some.inj this

/-- A session in which everybody's messages are those of honest parties with the coins `κ` can succeed with the sum of everybody's
contributions as group key. -/
theorem session_honest (sha : Sha512) (ids : IDSlice) (hsorted : ids.Pairwise (· < ·)) (h0 : (0 : ID) ∉ ids) (t : UInt16) (ht : t ≠ 65535)
    (κ : ID → Coins) (j : ID) (timeout now : Nat) (s₀ : State G (Round G)) (hnew : newKeygenState sha j ids t timeout now = .ok s₀) :
    ∃ h s, Hist (impl sha) s₀ h s ∧
      (∀ m r, (Op.handle m, r) ∈ h → ∃ k ∈ ids, k ≠ j ∧ (m = Spec.honestBroadcast t k (κ k) ∨ m = Spec.honestShare t k j (κ k))) ∧
      (∃ ord, (Op.processAll ord (κ j), Ret.messages [Spec.honestBroadcast t j (κ j)]) ∈ h) ∧
      s.done = true ∧ s.err = none ∧ ∃ pub, s.round.output.pub = some pub ∧ pub.groupKey = (ids.map fun k => κ k 0 • (base : G)).sum := by
  have hnd : ids.Nodup := hsorted.imp fun {a b} h e => by subst e; exact absurd h (by simp)
  have hle : ids.Pairwise (· ≤ ·) := hsorted.imp fun h => UInt16.le_of_lt h
  have hnew' := hnew
  obtain ⟨r₀, hs, rfl⟩ := start_of_new hnew hnd
  have hself := IDSlice.contains_sound hs.eq.2.2.2
  have hlen : ∀ k, (Exponent.ofPoly (coinPoly t (κ k)) : Exponent G).length = t.toNat + 1 := by
    intro k
    simp [Exponent.ofPoly, coinPoly_length]
  obtain ⟨s, hh, hd, he⟩ := completes (sha := sha) hs hle h0 ht timeout now (fun k => Spec.honestBroadcast t k (κ k))
    (fun k => Spec.honestShare t k j (κ k)) (fun k => Exponent.ofPoly (coinPoly t (κ k))) (fun k => Spec.evalAt (coinPoly t (κ k)) j.val)
    (by
      intro k _
      refine ⟨rfl, ⟨0, κ k (t.toNat + 1)⟩, rfl, rfl, ?_⟩
      intro h
      have := hlen k
      rw [h] at this
      simp at this)
    (by
      intro k _
      exact ⟨rfl, rfl, (Exponent.ofPoly_evalAt _ _).symm⟩)
    MapOrder.insertion MapOrder.insertion MapOrder.insertion (κ j) (κ j) (κ j)
  refine ⟨_, s, hh, ?_, ⟨MapOrder.insertion, ?_⟩, hd, he, ?_⟩
  · intro m r hm
    simp only [List.mem_append, List.mem_map, List.mem_singleton, Prod.mk.injEq, reduceCtorEq, false_and, false_or, or_false,
      Op.handle.injEq] at hm
    rcases hm with ⟨k, hk, h1, _⟩ | ⟨k, hk, h1, _⟩
    · exact ⟨k, (mem_others.mp hk).1, (mem_others.mp hk).2, Or.inl h1.symm⟩
    · exact ⟨k, (mem_others.mp hk).1, (mem_others.mp hk).2, Or.inr h1.symm⟩
  · simp only [List.append_assoc]
    exact List.mem_append_left _ (List.mem_singleton.mpr rfl)
  · obtain ⟨K, pub, _, _, a3, a4, a5, _, _, a8, _⟩ := pub_of_commitments j ids t timeout now _ hnew' hnd hh hd he
    refine ⟨pub, a5, ?_⟩
    have hK : ∀ k ∈ ids, K k = Exponent.ofPoly (coinPoly t (κ k)) := by
      intro k hk
      by_cases hkj : k = j
      · subst hkj
        refine (a3 (Spec.honestBroadcast t k (κ k)) ⟨⟨0, κ k (t.toNat + 1)⟩, Exponent.ofPoly (coinPoly t (κ k))⟩ ?_ rfl).symm
        unfold Spec.emitted
        rw [List.mem_flatMap]
        refine ⟨(Op.processAll MapOrder.insertion (κ k), Ret.messages [Spec.honestBroadcast t k (κ k)]), ?_, by simp⟩
        simp only [List.append_assoc]
        exact List.mem_append_left _ (List.mem_singleton.mpr rfl)
      · obtain ⟨m, kg, g1, g2, g3, g4, g5, g6⟩ := a4 k hk hkj
        simp only [List.mem_append, List.mem_map, List.mem_singleton, Prod.mk.injEq, reduceCtorEq, false_and, false_or, or_false,
          Op.handle.injEq] at g1
        rcases g1 with ⟨k', hk', h1, _⟩ | ⟨k', hk', h1, _⟩
        · have : k' = k := by rw [← g3, ← h1]; rfl
          subst this
          rw [← g6]
          rw [← h1] at g5
          simp only [Message.newKeyGen1, Spec.honestBroadcast, Option.some.injEq] at g5
          rw [← g5]
        · exfalso
          rw [← h1] at g4
          exact absurd g4 (by simp only [Message.newKeyGen2, Spec.honestShare]; decide)
    rw [a8]
    congr 1
    apply List.map_congr_left
    intro k hk
    rw [hK k hk, if_pos (hlen k), Exponent.ofPoly_evalAt]
    congr 1
    unfold coinPoly
    simp [evalAt_cons]

/-- A single dishonest participant `a` that sends some parties the messages for one polynomial and the others those for another makes
two honest parties `i` and `j` both finish without error, with different group keys, although all other participants are honest. -/
theorem C74_equivocation (sha : Sha512) (ids : IDSlice) (hsorted : ids.Pairwise (· < ·)) (h0 : (0 : ID) ∉ ids) (t : UInt16) (ht : t ≠ 65535)
    (a i j : ID) (hi : i ≠ a) (hj : j ≠ a) (ha : a ∈ ids) (coins : ID → Coins) (other : Coins)
    (ti ni tj nj : Nat) (si sj : State G (Round G)) (hsi : newKeygenState sha i ids t ti ni = .ok si)
    (hsj : newKeygenState sha j ids t tj nj = .ok sj) :
    ∃ hi' si' hj' sj', Hist (impl sha) si hi' si' ∧ Hist (impl sha) sj hj' sj' ∧
      (∀ m r, (Op.handle m, r) ∈ hi' → m.header.fromID ≠ a →
        ∃ k ∈ ids, k ≠ a ∧ k ≠ i ∧ (m = Spec.honestBroadcast t k (coins k) ∨ m = Spec.honestShare t k i (coins k))) ∧
      (∀ m r, (Op.handle m, r) ∈ hj' → m.header.fromID ≠ a →
        ∃ k ∈ ids, k ≠ a ∧ k ≠ j ∧ (m = Spec.honestBroadcast t k (coins k) ∨ m = Spec.honestShare t k j (coins k))) ∧
      (∃ ord, (Op.processAll ord (coins i), Ret.messages [Spec.honestBroadcast t i (coins i)]) ∈ hi') ∧
      (∃ ord, (Op.processAll ord (coins j), Ret.messages [Spec.honestBroadcast t j (coins j)]) ∈ hj') ∧
      si'.done = true ∧ si'.err = none ∧ sj'.done = true ∧ sj'.err = none ∧
      ∃ pi pj, si'.round.output.pub = some pi ∧ sj'.round.output.pub = some pj ∧
        (coins a 0 ≠ other 0 → pi.groupKey ≠ pj.groupKey) := by
  have hnd : ids.Nodup := hsorted.imp fun {a b} h e => by subst e; exact absurd h (by simp)
  obtain ⟨h1, s1, a1, a2, a3, a4, a5, p1, a6, a7⟩ := session_honest sha ids hsorted h0 t ht coins i ti ni si hsi
  obtain ⟨h2, s2, b1, b2, b3, b4, b5, p2, b6, b7⟩ := session_honest sha ids hsorted h0 t ht (Function.update coins a other) j tj nj sj hsj
  rw [Function.update_of_ne hj] at b3
  refine ⟨h1, s1, h2, s2, a1, b1, ?_, ?_, a3, b3, a4, a5, b4, b5, p1, p2, a6, b6, ?_⟩
  · intro m r hm hma
    obtain ⟨k, hk, hki, hmk⟩ := a2 m r hm
    refine ⟨k, hk, ?_, hki, hmk⟩
    rintro rfl
    rcases hmk with rfl | rfl <;> exact hma rfl
  · intro m r hm hma
    obtain ⟨k, hk, hki, hmk⟩ := b2 m r hm
    have hka : k ≠ a := by
      rintro rfl
      rcases hmk with rfl | rfl <;> exact hma rfl
    rw [Function.update_of_ne hka] at hmk
    exact ⟨k, hk, hka, hki, hmk⟩
  · intro hne heq
    apply hne
    rw [a7, b7, ((perm_self hnd ha).map _).sum_eq, ((perm_self hnd ha).map _).sum_eq, List.map_cons, List.map_cons, List.sum_cons,
      List.sum_cons, Function.update_self] at heq
    have : ((others a ids).map fun k => Function.update coins a other k 0 • (base : G)) = (others a ids).map fun k => coins k 0 • base := by
      apply List.map_congr_left
      intro k hk
      rw [Function.update_of_ne (mem_others.mp hk).2]
    rw [this] at heq
    exact smul_base_injective (G := G) (add_right_cancel heq)

/-- What a party accepted as commitments in a session in which everybody's messages are those of honest parties. -/
theorem got_honest {ids : IDSlice} {t : UInt16} {κ : ID → Coins} {j : ID} {h : List (Op G × Ret G)}
    (hm : ∀ m r, (Op.handle m, r) ∈ h → ∃ k ∈ ids, k ≠ j ∧ (m = Spec.honestBroadcast t k (κ k) ∨ m = Spec.honestShare t k j (κ k)))
    {id : ID} {c : List G} (hg : Spec.GotCommitments j ids h id c) : c = Exponent.ofPoly (coinPoly t (κ id)) := by
  obtain ⟨m, kg, g1, g2, g3, g4, g5, g6⟩ := hg
  obtain ⟨k, _, _, rfl | rfl⟩ := hm m _ g1
  · have : k = id := g3
    subst this
    rw [← g6]
    simp only [Message.newKeyGen1, Spec.honestBroadcast, Option.some.injEq] at g5
    rw [← g5]
  · exact absurd g4 (by simp only [Message.newKeyGen2, Spec.honestShare]; decide)

/-- The hypotheses of `C74_agree_on_public` and `C74_one_key` are met by all parties when all are honest, for every choice of coins. -/
theorem C74_hypotheses_met (sha : Sha512) (ids : IDSlice) (hsorted : ids.Pairwise (· < ·)) (h0 : (0 : ID) ∉ ids) (t : UInt16) (ht : t ≠ 65535)
    (κ : ID → Coins) (timeout now : ID → Nat) (s₀ : ID → State G (Round G)) (hnew : ∀ j ∈ ids, newKeygenState sha j ids t (timeout j) (now j) = .ok (s₀ j)) :
    ∃ (h : ID → List (Op G × Ret G)) (s : ID → State G (Round G)), (∀ j ∈ ids, Hist (impl sha) (s₀ j) (h j) (s j)) ∧ (∀ j ∈ ids, (s j).done = true ∧ (s j).err = none) ∧
      (∀ i ∈ ids, ∀ j ∈ ids, i ≠ j → Spec.SameBroadcasts ids i j (h i) (h j)) ∧
      ∀ j ∈ ids, ∀ id c, Spec.GotCommitments j ids (h j) id c → c.length = t.toNat + 1 := by
  have hx : ∀ j, ∃ h s, j ∈ ids → Hist (impl sha) (s₀ j) h s ∧
      (∀ m r, (Op.handle m, r) ∈ h → ∃ k ∈ ids, k ≠ j ∧ (m = Spec.honestBroadcast t k (κ k) ∨ m = Spec.honestShare t k j (κ k))) ∧
      (∃ ord, (Op.processAll ord (κ j), Ret.messages [Spec.honestBroadcast t j (κ j)]) ∈ h) ∧ s.done = true ∧ s.err = none := by
    intro j
    by_cases hj : j ∈ ids
    · obtain ⟨h, s, h1, h2, h3, h4, h5, _⟩ := session_honest sha ids hsorted h0 t ht κ j _ _ _ (hnew j hj)
      exact ⟨h, s, fun _ => ⟨h1, h2, h3, h4, h5⟩⟩
    · exact ⟨[], s₀ j, fun h => absurd h hj⟩
  choose h s hx using hx
  have hsent : ∀ j ∈ ids, ∃ m k, m ∈ Spec.emitted (h j) ∧ m.keyGen1 = some k ∧ k.commitments = (Exponent.ofPoly (coinPoly t (κ j)) : Exponent G) := by
    intro j hj
    obtain ⟨ord, ho⟩ := (hx j hj).2.2.1
    refine ⟨Spec.honestBroadcast t j (κ j), ⟨⟨0, κ j (t.toNat + 1)⟩, Exponent.ofPoly (coinPoly t (κ j))⟩, ?_, rfl, rfl⟩
    unfold Spec.emitted
    rw [List.mem_flatMap]
    exact ⟨_, ho, by simp⟩
  refine ⟨h, s, fun j hj => (hx j hj).1, fun j hj => (hx j hj).2.2.2, ?_, ?_⟩
  · intro i hi j hj _
    refine ⟨?_, ?_, ?_⟩
    · intro k _ _ _ c c' hc hc'
      rw [got_honest (hx i hi).2.1 hc, got_honest (hx j hj).2.1 hc']
    · intro c hc
      rw [got_honest (hx i hi).2.1 hc]
      exact hsent j hj
    · intro c hc
      rw [got_honest (hx j hj).2.1 hc]
      exact hsent i hi
  · intro j hj id c hc
    rw [got_honest (hx j hj).2.1 hc]
    simp [Exponent.ofPoly, coinPoly_length]

/-- Three parties, threshold 1, of which parties 1 and 2 commit to `5 + 6 X` and `7 + 8 X`: the hypotheses of the theorems above. -/
example : ∃ (h : ID → List (Op Toy × Ret Toy)) (s : ID → State Toy (Round Toy)), (∀ j ∈ Demo.ids, Hist (impl toySha) (Demo.session Demo.ids 1 j) (h j) (s j)) ∧
    (∀ j ∈ Demo.ids, (s j).done = true ∧ (s j).err = none) ∧
    (∀ i ∈ Demo.ids, ∀ j ∈ Demo.ids, i ≠ j → Spec.SameBroadcasts Demo.ids i j (h i) (h j)) ∧
    ∀ j ∈ Demo.ids, ∀ id c, Spec.GotCommitments j Demo.ids (h j) id c → c.length = (1 : UInt16).toNat + 1 :=
  C74_hypotheses_met toySha Demo.ids (by decide) (by decide) 1 (by decide)
    (fun i => if i = 1 then Demo.coins [5, 6] else if i = 2 then Demo.coins [7, 8] else Demo.coins []) (fun _ => 10) (fun _ => 0) _
    (fun i hi => Demo.keygen_setup.start i hi)

/-- Party 3 sends party 1 commitments to `9 + 10 X` and party 2 commitments to `11 + 10 X`: parties 1 and 2 end with different keys. -/
example : ∃ h1 s1 h2 s2, Hist (impl toySha) (Demo.session Demo.ids 1 1) h1 s1 ∧ Hist (impl toySha) (Demo.session Demo.ids 1 2) h2 s2 ∧
    s1.done = true ∧ s1.err = none ∧ s2.done = true ∧ s2.err = none ∧
    ∃ p1 p2, s1.round.output.pub = some p1 ∧ s2.round.output.pub = some p2 ∧ p1.groupKey ≠ p2.groupKey := by
  obtain ⟨h1, s1, h2, s2, a1, a2, _, _, _, _, a3, a4, a5, a6, p1, p2, a7, a8, a9⟩ := C74_equivocation toySha Demo.ids (by decide) (by decide) 1
    (by decide) 3 1 2 (by decide) (by decide) (by decide) (fun _ => Demo.coins [9, 10]) (Demo.coins [11, 10]) _ _ _ _ _ _
    (Demo.keygen_setup.start 1 (by decide)) (Demo.keygen_setup.start 2 (by decide))
  exact ⟨h1, s1, h2, s2, a1, a2, a3, a4, a5, a6, p1, p2, a7, a8, a9 (by decide +kernel)⟩

end Verif.Props
