import Verif.Props.Agree
import Verif.Props.Eddsa

/-!
C122: parties of one key generation that were started with different lists of participants or different thresholds.

The messages carry neither the list nor the threshold.  Round 1 drops the error of adding commitments of another length than its own
(/repo/pkg/frost/keygen/round1.go:22-23), so they are left out of the public key, while round 2 adds every share to the secret (round2.go:20-23).
-/

namespace Verif.Props

open Verif State Keygen Outcome

variable {G : Type} [RGroup G] {sha : Sha512}

/-- What the session with history `ha` took from `b` is what the session of `b` (with history `hb`) has sent. -/
def Spec.Authentic (b : ID) (ha hb : List (Op G × Ret G)) : Prop :=
  ∀ m, (Op.handle m, Ret.handled none) ∈ ha → m.header.fromID = b → m ∈ Spec.emitted hb

/-- What a session sends, as a polynomial that its broadcast commits to and its shares are values of. -/
theorem sends_poly {me : ID} {ids : IDSlice} {t : UInt16} {timeout now : Nat} {s₀ : State G (Round G)}
    (h₀ : newKeygenState sha me ids t timeout now = .ok s₀) (hnd : ids.Nodup) {h : List (Op G × Ret G)} {s : State G (Round G)}
    (hh : Hist (impl sha) s₀ h s) :
    ∃ f : List Scalar, f.length = t.toNat + 1 ∧ ∀ m ∈ Spec.emitted h,
      (∃ π, m = Message.newKeyGen1 me π (f.map fun a => a • (base : G))) ∨
        ∃ j ∈ ids, j ≠ me ∧ m = Message.newKeyGen2 me j (Spec.evalAt f j.val) := by
  rcases C67_keygen_sends me ids t timeout now s₀ h₀ hnd hh with h1 | ⟨f, π, c, h1, rfl, h2 | h2⟩
  · exact ⟨List.replicate (t.toNat + 1) 0, by simp, by rw [h1]; simp⟩
  · refine ⟨f, h1, fun m hm => ?_⟩
    rw [h2, List.mem_singleton] at hm
    exact Or.inl ⟨π, hm⟩
  · refine ⟨f, h1, fun m hm => ?_⟩
    rw [h2] at hm
    rcases List.mem_cons.mp hm with hm | hm
    · exact Or.inl ⟨π, hm⟩
    · unfold Spec.shares at hm
      obtain ⟨j, hj, rfl⟩ := List.mem_map.mp hm
      rw [List.mem_filter] at hj
      exact Or.inr ⟨j, hj.1, by simpa using hj.2, rfl⟩

theorem map_base_injective {f g : List Scalar} (h : f.map (fun a => a • (base : G)) = g.map fun a => a • (base : G)) : f = g :=
  List.map_injective_iff.mpr (fun _ _ h => smul_base_injective (G := G) h) h

/-- A party that finishes without error is in the lists of all honest parties of its own list. -/
theorem C122_lists {a b : ID} {idsa idsb : IDSlice} {ta tb : UInt16} {toa na tob nb : Nat} {sa sb sa' sb' : State G (Round G)}
    (h₀a : newKeygenState sha a idsa ta toa na = .ok sa) (h₀b : newKeygenState sha b idsb tb tob nb = .ok sb) (hnda : idsa.Nodup)
    (hndb : idsb.Nodup) {ha hb : List (Op G × Ret G)} (hha : Hist (impl sha) sa ha sa') (hhb : Hist (impl sha) sb hb sb')
    (hok : sa'.done = true ∧ sa'.err = none) (hmem : b ∈ idsa) (hne : b ≠ a) (hauth : Spec.Authentic b ha hb) : a ∈ idsb := by
  obtain ⟨r₀, hs, rfl⟩ := start_of_new h₀a hnda
  obtain ⟨_, _, _, _, _, _, h4, _⟩ := finished_spec hs ((running hs hha).2 hok.1 hok.2)
  obtain ⟨_, _, ⟨m, k, g1, g2, g3, g4, g5, _⟩, _⟩ := h4 b (mem_others.mpr ⟨hmem, hne⟩)
  obtain ⟨rb, hsb, rfl⟩ := start_of_new h₀b hndb
  have hm := hauth m g1 g3
  obtain ⟨n, h1, _⟩ := keygenSent hsb hhb
  match n, h1 with
  | 0, h1 =>
    rw [h1] at hm
    exact absurd hm List.not_mem_nil
  | 1, ⟨f, k, _, _, _, h3⟩ =>
    rw [h3, List.mem_singleton] at hm
    rw [hm] at g5
    cases g5
  | 2, ⟨f, k, _, _, _, h0, h3⟩ =>
    rw [h3] at hm
    rcases List.mem_cons.mp hm with hm | hm
    · rw [hm] at g5
      cases g5
    · unfold Keygen.dealt at hm
      obtain ⟨j, hj, rfl⟩ := List.mem_map.mp hm
      have hj := (mem_others.mp hj).1
      rcases g2.2.2 with h | h
      · exact absurd h (h0 j hj)
      · exact h ▸ hj

/-- What every party gets, when all follow the protocol and nobody alters messages, whatever lists and thresholds they were given:
its secret is the sum of all values it was sent, but its public key is made of the commitments of those parties only that have the
same threshold. -/
theorem C122_result (P : List ID) (ids : ID → IDSlice) (t : ID → UInt16) (timeout now : ID → Nat) (s₀ s : ID → State G (Round G))
    (h : ID → List (Op G × Ret G)) (hnd : ∀ j ∈ P, (ids j).Nodup) (hsub : ∀ i ∈ P, ∀ j ∈ ids i, j ∈ P)
    (hnew : ∀ j ∈ P, newKeygenState sha j (ids j) (t j) (timeout j) (now j) = .ok (s₀ j))
    (hh : ∀ j ∈ P, Hist (impl sha) (s₀ j) (h j) (s j)) (hauth : ∀ i ∈ P, ∀ j ∈ ids i, j ≠ i → Spec.Authentic j (h i) (h j)) :
    ∃ F : ID → List Scalar, (∀ j ∈ P, (F j).length = (t j).toNat + 1 ∧
        ∀ m k, m ∈ Spec.emitted (h j) → m.keyGen1 = some k → k.commitments = (F j).map fun a => a • (base : G)) ∧
      ∀ i ∈ P, (s i).done = true ∧ (s i).err = none → ∃ (sk : SecretShare G) (pub : Public G),
        (s i).round.output.secretKey = some sk ∧ (s i).round.output.pub = some pub ∧ pub.partyIDs = ids i ∧ pub.threshold = t i ∧
        sk.id = i ∧ sk.secret = ((ids i).map fun j => Spec.evalAt (F j) i.val).sum ∧
        pub.groupKey = (((ids i).filter fun j => t j = t i).map fun j => Spec.evalAt (F j) (0 : Scalar)).sum • base ∧
        ∀ id ∈ ids i, pub.shares.get? id = some ((((ids i).filter fun j => t j = t i).map fun j => Spec.evalAt (F j) id.val).sum • base) := by
  have hF : ∀ j, ∃ f : List Scalar, j ∈ P → f.length = (t j).toNat + 1 ∧ ∀ m ∈ Spec.emitted (h j),
      (∃ π, m = Message.newKeyGen1 j π (f.map fun a => a • (base : G))) ∨
        ∃ k ∈ ids j, k ≠ j ∧ m = Message.newKeyGen2 j k (Spec.evalAt f k.val) := by
    intro j
    by_cases hj : j ∈ P
    · obtain ⟨f, h1, h2⟩ := sends_poly (hnew j hj) (hnd j hj) (hh j hj)
      exact ⟨f, fun _ => ⟨h1, h2⟩⟩
    · exact ⟨[], fun h => absurd h hj⟩
  choose F hF using hF
  have hcomm : ∀ j ∈ P, ∀ m k, m ∈ Spec.emitted (h j) → m.keyGen1 = some k → k.commitments = (F j).map fun a => a • (base : G) := by
    intro j hj m k hm hk
    rcases (hF j hj).2 m hm with ⟨π, rfl⟩ | ⟨_, _, _, rfl⟩
    · cases hk
      rfl
    · cases hk
  refine ⟨F, fun j hj => ⟨(hF j hj).1, hcomm j hj⟩, ?_⟩
  intro i hi hok
  obtain ⟨r₀, hs, hr₀⟩ := start_of_new (hnew i hi) (hnd i hi)
  have hhi := hh i hi
  rw [hr₀] at hhi
  have hself := IDSlice.contains_sound hs.eq.2.2.2
  have hthr : r₀.threshold = t i := by rw [hs.eq.1]
  obtain ⟨f, C, z, h1, h2, h3, h4, h5, pub, h6, h7, h8, h9, h10, _⟩ := finished_spec hs ((running hs hhi).2 hok.1 hok.2)
  have hf : f = F i := by
    obtain ⟨ord, coins, hc, hm⟩ := h2
    apply map_base_injective (G := G)
    refine hcomm i hi _ ⟨_, _⟩ (?_ : Message.newKeyGen1 r₀.selfID ⟨0, coins (r₀.threshold.toNat + 1)⟩ (Exponent.ofPoly f) ∈ _) rfl
    unfold Spec.emitted
    rw [List.mem_flatMap]
    exact ⟨_, hm, by simp⟩
  have hC : ∀ j ∈ others i (ids i), C j = Exponent.ofPoly (F j) := by
    intro j hj
    obtain ⟨⟨m, k, g1, _, g3, _, g5, g6⟩, _⟩ := h4 j hj
    have hj := mem_others.mp hj
    rw [← g6]
    exact hcomm j (hsub i hi j hj.1) m k (hauth i hi j hj.1 hj.2 m g1 g3) g5
  have hz : ∀ j ∈ others i (ids i), z j = Spec.evalAt (F j) i.val := by
    intro j hj
    have := (h4 j hj).2.2.2
    rw [hC j hj, Exponent.ofPoly_evalAt] at this
    exact smul_base_injective (G := G) this
  have hsum : ∀ x : Scalar, Spec.evalAt f x • (base : G) +
      ((others i (ids i)).map fun k => if (C k).length = (t i).toNat + 1 then Spec.evalAt (C k) x else 0).sum =
      (((ids i).filter fun j => t j = t i).map fun j => Spec.evalAt (F j) x).sum • base := by
    intro x
    have e1 : ((others i (ids i)).map fun k => if (C k).length = (t i).toNat + 1 then Spec.evalAt (C k) x else 0) =
        (others i (ids i)).map fun k => (if t k = t i then Spec.evalAt (F k) x else 0) • (base : G) := by
      apply List.map_congr_left
      intro k hk
      have hk' := mem_others.mp hk
      have hl : (C k).length = (t i).toNat + 1 ↔ t k = t i := by
        rw [hC k hk]
        simp only [Exponent.ofPoly, List.length_map, (hF k (hsub i hi k hk'.1)).1, Nat.add_right_cancel_iff]
        exact UInt16.toNat_inj
      by_cases ht : t k = t i
      · rw [if_pos (hl.mpr ht), if_pos ht, hC k hk, Exponent.ofPoly_evalAt]
      · rw [if_neg (fun h => ht (hl.mp h)), if_neg ht, zero_smul]
    have e2 : ∀ l : List ID, ((l.filter fun j => t j = t i).map fun j => Spec.evalAt (F j) x).sum =
        (l.map fun k => if t k = t i then Spec.evalAt (F k) x else 0).sum := by
      intro l
      induction l with
      | nil => rfl
      | cons a l ih =>
        by_cases ha : t a = t i
        · rw [List.filter_cons_of_pos (by simpa using ha), List.map_cons, List.map_cons, List.sum_cons, List.sum_cons, ih, if_pos ha]
        · rw [List.filter_cons_of_neg (by simpa using ha), List.map_cons, List.sum_cons, ih, if_neg ha, zero_add]
    have e3 : ∀ (l : List ID) (g : ID → Scalar), (l.map fun k => g k • (base : G)).sum = (l.map g).sum • base := by
      intro l g
      induction l with
      | nil => simp
      | cons a l ih => simp [ih, add_smul]
    rw [e1, e3, e2, ← add_smul, ((perm_self (hnd i hi) hself).map _).sum_eq, List.map_cons, List.sum_cons, if_pos rfl, hf]
  refine ⟨_, pub, h5, h6, h7, h8, rfl, ?_, ?_, ?_⟩
  · show Spec.evalAt f i.val + _ = _
    rw [((perm_self (hnd i hi) hself).map _).sum_eq, List.map_cons, List.sum_cons, hf]
    congr 2
    exact List.map_congr_left hz
  · rw [h9, hsum]
  · intro id hid
    rw [h10 id hid, hsum]

/-- Comparing the results shows it: `Equal` of the public keys of two parties that finish without error is false, if their lists or
thresholds were different. -/
theorem C122_equal {a b : ID} {idsa idsb : IDSlice} {ta tb : UInt16} {toa na tob nb : Nat} {sa sb sa' sb' : State G (Round G)}
    (h₀a : newKeygenState sha a idsa ta toa na = .ok sa) (h₀b : newKeygenState sha b idsb tb tob nb = .ok sb) (hnda : idsa.Nodup)
    (hndb : idsb.Nodup) {ha hb : List (Op G × Ret G)} (hha : Hist (impl sha) sa ha sa') (hhb : Hist (impl sha) sb hb sb')
    (hoka : sa'.done = true ∧ sa'.err = none) (hokb : sb'.done = true ∧ sb'.err = none) (hdiff : idsa ≠ idsb ∨ ta ≠ tb) :
    ∃ pa pb : Public G, sa'.round.output.pub = some pa ∧ sb'.round.output.pub = some pb ∧ Public.equal pa pb = .ok false := by
  obtain ⟨_, pa, _, _, _, _, a5, a6, a7, _⟩ := pub_of_commitments a idsa ta toa na sa h₀a hnda hha hoka.1 hoka.2
  obtain ⟨_, pb, _, _, _, _, b5, b6, b7, _⟩ := pub_of_commitments b idsb tb tob nb sb h₀b hndb hhb hokb.1 hokb.2
  refine ⟨pa, pb, a5, b5, ?_⟩
  unfold Public.equal
  by_cases h1 : pa.shares.length = pb.shares.length
  swap
  · exact if_pos h1
  rw [if_neg (by simpa using h1), IDSlice.equal_eq, Outcome.ok_bind, a6, b6, a7, b7]
  by_cases h2 : idsa = idsb
  swap
  · simp [h2]
  · simp [h2, hdiff.resolve_left (fun h => h h2)]

/-- C122, refuted: parties with any thresholds, and any lists that are symmetric, all finish without an error, with the group key
that is the sum of the contributions of those with the same threshold. -/
theorem C122_undetected (P : List ID) (ids : ID → IDSlice) (t : ID → UInt16) (timeout now : ID → Nat) (s₀ : ID → State G (Round G))
    (κ : ID → Coins) (hsorted : ∀ j ∈ P, (ids j).Pairwise (· < ·)) (h0 : ∀ j ∈ P, (0 : ID) ∉ ids j) (ht : ∀ j ∈ P, t j ≠ 65535)
    (hsym : ∀ i ∈ P, ∀ j ∈ ids i, j ∈ P ∧ i ∈ ids j)
    (hnew : ∀ j ∈ P, newKeygenState sha j (ids j) (t j) (timeout j) (now j) = .ok (s₀ j)) :
    ∃ (h : ID → List (Op G × Ret G)) (s : ID → State G (Round G)), (∀ j ∈ P, Hist (impl sha) (s₀ j) (h j) (s j)) ∧
      (∀ i ∈ P, ∀ j ∈ ids i, j ≠ i → Spec.Authentic j (h i) (h j)) ∧
      ∀ i ∈ P, (s i).done = true ∧ (s i).err = none ∧ ∃ pub, (s i).round.output.pub = some pub ∧
        pub.groupKey = (((ids i).filter fun j => t j = t i).map fun j => κ j 0).sum • (base : G) := by
  have hnd : ∀ j ∈ P, (ids j).Nodup := fun j hj => (hsorted j hj).imp fun {a b} h e => by subst e; exact absurd h (by simp)
  let H : ID → List (Op G × Ret G) := fun j =>
    [(.processAll .insertion (κ j), .messages [Message.newKeyGen1 j ⟨0, κ j ((t j).toNat + 1)⟩ (Exponent.ofPoly (coinPoly (t j) (κ j)))])] ++
      (others j (ids j)).map (fun k => (.handle (Spec.honestBroadcast (t k) k (κ k)), .handled none)) ++
      [(.processAll .insertion (κ j), .messages (dealt j (coinPoly (t j) (κ j)) (ids j)))] ++
      (others j (ids j)).map (fun k => (.handle (Spec.honestShare (t k) k j (κ k)), .handled none)) ++
      [(.processAll .insertion (κ j), .messages [])]
  have hex : ∀ j, ∃ s : State G (Round G), j ∈ P → Hist (impl sha) (s₀ j) (H j) s ∧ s.done = true ∧ s.err = none := by
    intro j
    by_cases hj : j ∈ P
    swap
    · exact ⟨s₀ j, fun h => absurd h hj⟩
    obtain ⟨r₀, hs, hr₀⟩ := start_of_new (hnew j hj) (hnd j hj)
    obtain ⟨s, hh, hd, he⟩ := completes (sha := sha) hs ((hsorted j hj).imp fun h => UInt16.le_of_lt h) (h0 j hj) (ht j hj) (timeout j) (now j)
      (fun k => Spec.honestBroadcast (t k) k (κ k)) (fun k => Spec.honestShare (t k) k j (κ k)) (fun k => Exponent.ofPoly (coinPoly (t k) (κ k)))
      (fun k => Spec.evalAt (coinPoly (t k) (κ k)) j.val)
      (by
        intro k _
        refine ⟨rfl, ⟨0, κ k ((t k).toNat + 1)⟩, rfl, rfl, ?_⟩
        intro h
        have : (Exponent.ofPoly (coinPoly (t k) (κ k)) : Exponent G).length = (t k).toNat + 1 := by simp [Exponent.ofPoly, coinPoly_length]
        rw [h] at this
        simp at this)
      (by
        intro k _
        exact ⟨rfl, rfl, (Exponent.ofPoly_evalAt _ _).symm⟩)
      MapOrder.insertion MapOrder.insertion MapOrder.insertion (κ j) (κ j) (κ j)
    exact ⟨s, fun _ => ⟨hr₀ ▸ hh, hd, he⟩⟩
  choose S hS using hex
  have hemit : ∀ j, Spec.honestBroadcast (t j) j (κ j) ∈ Spec.emitted (H j) ∧ ∀ i ∈ others j (ids j), Spec.honestShare (t j) j i (κ j) ∈ Spec.emitted (H j) := by
    intro j
    unfold Spec.emitted
    constructor
    · rw [List.mem_flatMap]
      refine ⟨_, (?_ : (Op.processAll MapOrder.insertion (κ j), Ret.messages [Spec.honestBroadcast (t j) j (κ j)]) ∈ _), by simp⟩
      simp only [H, List.append_assoc]
      exact List.mem_append_left _ (List.mem_singleton.mpr rfl)
    · intro i hi
      rw [List.mem_flatMap]
      refine ⟨_, (?_ : (Op.processAll MapOrder.insertion (κ j), Ret.messages (dealt j (coinPoly (t j) (κ j)) (ids j))) ∈ _), ?_⟩
      · simp [H]
      · exact List.mem_map.mpr ⟨i, hi, rfl⟩
  have hauth : ∀ i ∈ P, ∀ j ∈ ids i, j ≠ i → Spec.Authentic j (H i) (H j) := by
    intro i hi j hj hne m hm hfrom
    simp only [H, List.mem_append, List.mem_map, List.mem_singleton, Prod.mk.injEq, reduceCtorEq, false_and, false_or, or_false,
      Op.handle.injEq] at hm
    rcases hm with ⟨k, hk, h1, _⟩ | ⟨k, hk, h1, _⟩
    · have : k = j := by rw [← hfrom, ← h1]; rfl
      subst this
      exact h1 ▸ (hemit k).1
    · have : k = j := by rw [← hfrom, ← h1]; rfl
      subst this
      exact h1 ▸ (hemit k).2 i (mem_others.mpr ⟨(hsym i hi k hj).2, fun h => hne h.symm⟩)
  refine ⟨H, S, fun j hj => (hS j hj).1, hauth, ?_⟩
  obtain ⟨F, hF, hres⟩ := C122_result P ids t timeout now s₀ S H hnd (fun i hi j hj => (hsym i hi j hj).1) hnew (fun j hj => (hS j hj).1) hauth
  intro i hi
  obtain ⟨_, pub, _, g2, _, _, _, _, g7, _⟩ := hres i hi (hS i hi).2
  refine ⟨(hS i hi).2.1, (hS i hi).2.2, pub, g2, ?_⟩
  rw [g7]
  congr 2
  apply List.map_congr_left
  intro j hj
  have hj := (hsym i hi j (List.mem_filter.mp hj).1).1
  have : coinPoly (t j) (κ j) = F j := map_base_injective (G := G) ((hF j hj).2 _ ⟨_, _⟩ (hemit j).1 rfl)
  rw [← this]
  unfold coinPoly
  simp [evalAt_cons]

end Verif.Props
