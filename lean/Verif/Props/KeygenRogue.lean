import Verif.Lemmas.Forward
import Verif.Props.KeygenOut

/-!
C40: the claim that no participant can choose the group key is false for this code when at most `threshold` of the participants are honest,
because the proof of knowledge proves nothing (C17).  With more honest participants, what they check determines the secret
behind every contribution.
-/

namespace Verif.Props

open Verif State Keygen Outcome Polynomial

variable {G : Type} [RGroup G] {sha : Sha512}

/-- The coefficients of a polynomial. -/
theorem exists_coeffs (L : Scalar[X]) (t : Nat) (h : L.natDegree ≤ t) :
    ∃ l : List Scalar, l.length = t + 1 ∧ ∀ x, Spec.evalAt l x = L.eval x := by
  refine ⟨(List.range (t + 1)).map L.coeff, by simp, fun x => ?_⟩
  rw [← toPoly_eval]
  congr 1
  ext n
  rw [toPoly_coeff]
  by_cases hn : n < t + 1
  · simp [List.getD_eq_getElem?_getD, List.getElem?_range hn]
  · rw [List.getD_eq_getElem?_getD, List.getElem?_eq_none (by simp; omega), coeff_eq_zero_of_natDegree_lt (by omega)]
    rfl

/-- What an honest participant `k` with random coins `coins` broadcasts in round 1. -/
def Spec.honestBroadcast (t : UInt16) (k : ID) (coins : Coins) : Message G :=
  Message.newKeyGen1 k ⟨0, coins (t.toNat + 1)⟩ (Exponent.ofPoly (coinPoly t coins))

/-- What it sends to `j` in round 2. -/
def Spec.honestShare (t : UInt16) (k j : ID) (coins : Coins) : Message G :=
  Message.newKeyGen2 k j (Spec.evalAt (coinPoly t coins) j.val)

/-- An attacker `a` who has seen the broadcasts of all others makes every honest participant finish key generation with the group
key `P` of its choice, if at most `t` participants (the list `H`) are honest: it broadcasts multiples of `P - S`, where `S` is
the sum of the others' public contributions, by coefficients `L` that depend on `H` only, and sends the share 0. -/
theorem C40_rogue_key_refuted (sha : Sha512) (ids : IDSlice) (hsorted : ids.Pairwise (· < ·)) (h0 : (0 : ID) ∉ ids) (t : UInt16) (a : ID)
    (ha : a ∈ ids) (H : List ID) (hH : ∀ j ∈ H, j ∈ ids ∧ j ≠ a) (hlen : H.length ≤ t.toNat) (ht : t ≠ 65535) :
    ∃ L : List Scalar, ∀ (coins : ID → Coins) (P : G), ∀ j ∈ H, ∀ (timeout now : Nat) (s₀ : State G (Round G)),
      newKeygenState sha j ids t timeout now = .ok s₀ →
      let S : G := ((ids.filter (· ≠ a)).map fun k => coins k 0 • base).sum
      ∃ h s, Hist (impl sha) s₀ h s ∧
        (∀ m r, (Op.handle m, r) ∈ h →
          (m.header.fromID = a ∧ (m = Message.newKeyGen1 a ⟨0, 0⟩ (L.map (· • (P - S))) ∨ m = Message.newKeyGen2 a j 0)) ∨
          ∃ k ∈ ids, k ≠ a ∧ k ≠ j ∧ (m = Spec.honestBroadcast t k (coins k) ∨ m = Spec.honestShare t k j (coins k))) ∧
        (∃ ord, (Op.processAll ord (coins j), Ret.messages [Spec.honestBroadcast t j (coins j)]) ∈ h) ∧
        s.done = true ∧ s.err = none ∧ ∃ pub, s.round.output.pub = some pub ∧ pub.groupKey = P := by
  have hH0 : (0 : ID) ∉ H := fun h => h0 (hH 0 h).1
  obtain ⟨Lp, hdeg, hL0, hLv⟩ := exists_vanishing H hH0
  obtain ⟨L, hLlen, hLe⟩ := exists_coeffs Lp t.toNat (hdeg.trans hlen)
  refine ⟨L, ?_⟩
  intro coins P j hj timeout now s₀ hnew S
  have hnd : ids.Nodup := hsorted.imp fun {a b} h e => by subst e; exact absurd h (by simp)
  have hle : ids.Pairwise (· ≤ ·) := hsorted.imp fun h => UInt16.le_of_lt h
  obtain ⟨r₀, hs, rfl⟩ := start_of_new hnew hnd
  have hja : j ≠ a := (hH j hj).2
  let c : Exponent G := L.map (· • (P - S))
  have hc : ∀ x, Spec.evalAt c x = Lp.eval x • (P - S) := by
    intro x
    rw [← hLe, ← evalAt_map_smul]
  let C : ID → Exponent G := fun k => if k = a then c else Exponent.ofPoly (coinPoly t (coins k))
  let z : ID → Scalar := fun k => if k = a then 0 else Spec.evalAt (coinPoly t (coins k)) j.val
  let M₁ : ID → Message G := fun k => if k = a then Message.newKeyGen1 a ⟨0, 0⟩ c else Spec.honestBroadcast t k (coins k)
  let M₂ : ID → Message G := fun k => if k = a then Message.newKeyGen2 a j 0 else Spec.honestShare t k j (coins k)
  have hClen : ∀ k, (C k).length = t.toNat + 1 := by
    intro k
    by_cases h : k = a
    · simp [C, h, c, hLlen]
    · simp [C, h, Exponent.ofPoly, coinPoly_length]
  obtain ⟨s, hh, hd, he⟩ := completes (sha := sha) hs hle h0 ht timeout now M₁ M₂ C z
    (by
      intro k _
      have hne : C k ≠ [] := by
        intro h
        have := hClen k
        rw [h] at this
        simp at this
      by_cases h : k = a
      · subst h
        exact ⟨by simp [M₁, Message.newKeyGen1]; rfl, ⟨0, 0⟩, by simp [M₁, C, Message.newKeyGen1], rfl, hne⟩
      · exact ⟨by simp [M₁, h, Message.newKeyGen1, Spec.honestBroadcast]; rfl, ⟨0, coins k (t.toNat + 1)⟩, by simp [M₁, C, h, Message.newKeyGen1, Spec.honestBroadcast], rfl, hne⟩)
    (by
      intro k _
      by_cases h : k = a
      · subst h
        refine ⟨by simp [M₂, Message.newKeyGen2]; rfl, by simp [M₂, z, Message.newKeyGen2], ?_⟩
        simp only [C, z, if_true, hc, hLv j hj, zero_smul]
      · refine ⟨by simp [M₂, h, Message.newKeyGen2, Spec.honestShare]; rfl, by simp [M₂, z, h, Message.newKeyGen2, Spec.honestShare], ?_⟩
        simp only [C, z, if_neg h, Exponent.ofPoly_evalAt])
    MapOrder.insertion MapOrder.insertion MapOrder.insertion (coins j) (coins j) (coins j)
  refine ⟨_, s, hh, ?_, ⟨MapOrder.insertion, ?_⟩, hd, he, ?_⟩
  · intro m r hm
    have hm : ∃ k ∈ others j ids, m = M₁ k ∨ m = M₂ k := by
      simp only [List.mem_append, List.mem_map, List.mem_singleton, Prod.mk.injEq, reduceCtorEq, false_and, false_or, or_false,
        Op.handle.injEq] at hm
      rcases hm with ⟨k, hk, h1, _⟩ | ⟨k, hk, h1, _⟩
      · exact ⟨k, hk, Or.inl h1.symm⟩
      · exact ⟨k, hk, Or.inr h1.symm⟩
    obtain ⟨k, hk, hm⟩ := hm
    obtain ⟨hk1, hk2⟩ := mem_others.mp hk
    by_cases h : k = a
    · left
      subst h
      rcases hm with rfl | rfl
      · exact ⟨by simp [M₁, Message.newKeyGen1], Or.inl (by simp [M₁, c])⟩
      · exact ⟨by simp [M₂, Message.newKeyGen2], Or.inr (by simp [M₂])⟩
    · right
      refine ⟨k, hk1, h, hk2, ?_⟩
      rcases hm with rfl | rfl
      · exact Or.inl (by simp [M₁, h])
      · exact Or.inr (by simp [M₂, h])
  · simp only [List.append_assoc]
    exact List.mem_append_left _ (List.mem_singleton.mpr rfl)
  · obtain ⟨f, C', z', hflen, hdr, _, h4, _, pub, h6, _, _, h9, _⟩ := finished_spec hs ((running hs hh).2 hd he)
    refine ⟨pub, h6, ?_⟩
    have hCC : ∀ k ∈ others j ids, C' k = C k := by
      intro k hk
      obtain ⟨m, kg, g1, g2, g3, g4, g5, g6⟩ := (h4 k hk).1
      simp only [List.mem_append, List.mem_map, List.mem_singleton, Prod.mk.injEq, reduceCtorEq, false_and, false_or, or_false,
        Op.handle.injEq] at g1
      rcases g1 with ⟨k', hk', h1, _⟩ | ⟨k', hk', h1, _⟩
      · have : k' = k := by
          rw [← g3, ← h1]
          by_cases h : k' = a <;> simp [M₁, h, Message.newKeyGen1, Spec.honestBroadcast]
        subst this
        rw [← g6]
        rw [← h1] at g5
        by_cases h : k' = a
        · simp only [M₁, h, if_true, Message.newKeyGen1, Option.some.injEq] at g5
          simp [← g5, C, h]
        · simp only [M₁, h, if_false, Message.newKeyGen1, Spec.honestBroadcast, Option.some.injEq] at g5
          simp [← g5, C, h]
      · exfalso
        rw [← h1] at g4
        by_cases h : k' = a
        · simp only [M₂, h, if_true, Message.newKeyGen2] at g4
          exact absurd g4 (by decide)
        · simp only [M₂, h, if_false, Message.newKeyGen2, Spec.honestShare] at g4
          exact absurd g4 (by decide)
    have hff : Spec.evalAt f (0 : Scalar) • (base : G) = coins j 0 • base := by
      obtain ⟨ord, coins', _, hmem⟩ := hdr
      have hthr : r₀.threshold = t := by rw [hs.eq.1]
      simp only [List.mem_append, List.mem_map, List.mem_singleton, Prod.mk.injEq, reduceCtorEq, false_and, false_or, or_false,
        and_false, exists_false, Ret.messages.injEq] at hmem
      rcases hmem with (⟨_, h1⟩ | ⟨_, h1⟩)
      · have h1 := congrArg (fun m => (m.keyGen1.map fun k => k.commitments)) (List.cons.inj h1).1
        simp only [Message.newKeyGen1, Option.map_some, Option.some.injEq] at h1
        rw [← Exponent.ofPoly_evalAt, h1, Exponent.ofPoly_evalAt]
        congr 1
        unfold coinPoly
        simp [evalAt_cons]
      · exfalso
        have : (Message.newKeyGen1 r₀.selfID ⟨0, coins' (r₀.threshold.toNat + 1)⟩ (Exponent.ofPoly f) : Message G) ∈
            (dealt j (coinPoly t (coins j)) ids : List (Message G)) := by rw [← h1]; exact List.mem_singleton.mpr rfl
        unfold dealt at this
        obtain ⟨_, _, h2⟩ := List.mem_map.mp this
        have := congrArg (fun m => m.header.type) h2
        simp only [Message.newKeyGen2, Message.newKeyGen1] at this
        exact absurd this (by decide)
    rw [h9, hff]
    have hsum : ((others j ids).map fun id => if (C' id).length = t.toNat + 1 then Spec.evalAt (C' id) (0 : Scalar) else 0) =
        (others j ids).map fun k => if k = a then P - S else coins k 0 • base := by
      apply List.map_congr_left
      intro k hk
      rw [hCC k hk, if_pos (hClen k)]
      by_cases h : k = a
      · simp only [C, h, if_true, hc, hL0, one_smul]
      · simp only [C, h, if_false, Exponent.ofPoly_evalAt]
        congr 1
        unfold coinPoly
        simp [evalAt_cons]
    rw [hsum]
    -- put the own contribution back and split off the attacker's
    have e1 : (ids.map fun k => if k = a then P - S else coins k 0 • (base : G)).sum =
        coins j 0 • base + ((others j ids).map fun k => if k = a then P - S else coins k 0 • base).sum := by
      have hp : ids.Perm (j :: others j ids) := by
        refine (List.perm_ext_iff_of_nodup hnd ?_).mpr ?_
        · exact List.nodup_cons.mpr ⟨by simp [mem_others], hnd.filter _⟩
        · intro k
          rw [List.mem_cons, mem_others]
          by_cases hk : k = j
          · simp [hk, (hH j hj).1]
          · simp [hk]
      rw [(hp.map _).sum_eq, List.map_cons, List.sum_cons, if_neg hja]
    have e2 : (ids.map fun k => if k = a then P - S else coins k 0 • (base : G)).sum = (P - S) + S := by
      have hp : ids.Perm (a :: others a ids) := by
        refine (List.perm_ext_iff_of_nodup hnd ?_).mpr ?_
        · exact List.nodup_cons.mpr ⟨by simp [mem_others], hnd.filter _⟩
        · intro k
          rw [List.mem_cons, mem_others]
          by_cases hk : k = a
          · simp [hk, ha]
          · simp [hk]
      rw [(hp.map _).sum_eq, List.map_cons, List.sum_cons, if_pos rfl]
      congr 2
      apply List.map_congr_left
      intro k hk
      rw [if_neg (mem_others.mp hk).2]
    rw [← e1, e2]
    abel

/-- The hypotheses can be met: parties 1, 2, 3, threshold 2, attacker 2. -/
example : [(1 : ID), 2, 3].Pairwise (· < ·) ∧ (0 : ID) ∉ [(1 : ID), 2, 3] ∧ (2 : ID) ∈ [(1 : ID), 2, 3] ∧
    (∀ j ∈ [(1 : ID), 3], j ∈ [(1 : ID), 2, 3] ∧ j ≠ 2) ∧ [(1 : ID), 3].length ≤ (2 : UInt16).toNat ∧
    ∃ s₀, newKeygenState (G := Toy) toySha 1 [1, 2, 3] 2 0 0 = .ok s₀ := by
  refine ⟨by decide, by decide, by decide, by decide, by decide, ?_⟩
  exact C34_accepts 1 [1, 2, 3] 2 0 0 (by decide) (by decide) (by decide) (by decide) (by decide)

/-- When more than `t` participants are honest, succeed, and saw the same commitments `c` (of the right length) from dealer `d`, the
shares `d` sent them determine the secret behind its contribution: every polynomial of degree at most `t` through these shares
has it as constant term.  So a dealer with more than `t` honest recipients knows the secret of what it contributes.  Missing for
the full claim: that honest participants see the same commitments, that there are more than `t` of them, and that knowledge of
each contribution's secret rules out choosing the sum. -/
theorem C40_contribution_known_partial (sha : Sha512) (ids : IDSlice) (hnd : ids.Nodup) (t : UInt16) (d : ID) (hd : d ∈ ids)
    (c : List G) (hc : c.length = t.toNat + 1) (H : List ID) (hH : H.Nodup) (hdH : d ∉ H) (hlen : t.toNat < H.length)
    (timeout now : ID → Nat) (s₀ s : ID → State G (Round G)) (h : ID → List (Op G × Ret G))
    (hnew : ∀ j ∈ H, newKeygenState sha j ids t (timeout j) (now j) = .ok (s₀ j)) (hh : ∀ j ∈ H, Hist (impl sha) (s₀ j) (h j) (s j))
    (hok : ∀ j ∈ H, (s j).done = true ∧ (s j).err = none) (hgot : ∀ j ∈ H, Spec.GotCommitments j ids (h j) d c) :
    ∃ z : ID → Scalar, (∀ j ∈ H, Spec.GotShare j ids (h j) d (z j)) ∧
      (∃ F : Scalar[X], F.natDegree ≤ t.toNat ∧ ∀ j ∈ H, F.eval j.val = z j) ∧
      ∀ F : Scalar[X], F.natDegree ≤ t.toNat → (∀ j ∈ H, F.eval j.val = z j) → F.eval 0 • (base : G) = Spec.evalAt c (0 : Scalar) := by
  have key : ∀ j, ∃ z, j ∈ H → Spec.GotShare j ids (h j) d z ∧ z • (base : G) = Spec.evalAt c j.val := by
    intro j
    by_cases hj : j ∈ H
    · obtain ⟨_, _, own, C, z, _, _, _, h1, _⟩ := C38_shares_match j ids t (timeout j) (now j) (s₀ j) (hnew j hj) hnd (hh j hj) (hok j hj).1 (hok j hj).2
      obtain ⟨_, g2, g3, g4⟩ := h1 d hd (fun hne => hdH (hne ▸ hj))
      refine ⟨z d, fun _ => ⟨g3, ?_⟩⟩
      rw [g4, g2 c (hgot j hj)]
    · exact ⟨0, fun h => absurd h hj⟩
  choose z hz using key
  have hP : ∀ j ∈ H, (Spec.toPoly (c.map dlog)).eval j.val = z j := by
    intro j hj
    apply smul_base_injective (G := G)
    rw [(hz j hj).2, toPoly_eval, ← evalAt_dlog]
  refine ⟨z, fun j hj => (hz j hj).1, ⟨Spec.toPoly (c.map dlog), toPoly_natDegree_le (by simp [hc]), hP⟩, ?_⟩
  intro F hF hFz
  have hdeg : ∀ F : Scalar[X], F.natDegree ≤ t.toNat → F.degree < H.length := fun F hF =>
    lt_of_le_of_lt degree_le_natDegree (by exact_mod_cast lt_of_le_of_lt hF hlen)
  have e1 := ID.lagrangeVal_sum hH F (hdeg F hF)
  have e2 := ID.lagrangeVal_sum hH (Spec.toPoly (c.map dlog)) (hdeg _ (toPoly_natDegree_le (by simp [hc])))
  have e3 : (H.map fun i => ID.lagrangeVal i H * F.eval i.val) =
      H.map fun i => ID.lagrangeVal i H * (Spec.toPoly (c.map dlog)).eval i.val := by
    apply List.map_congr_left
    intro j hj
    rw [hFz j hj, hP j hj]
  rw [evalAt_dlog, ← toPoly_eval, ← e1, e3, e2]

end Verif.Props
