import Verif.Props.KeygenAbort
import Verif.Props.KeygenRogue
import Verif.Props.KeygenNet
import Verif.Props.Config

/-!
C126: a participant that sends wrong shares to some of the others makes exactly those abort.  The rest finish and are not told.
-/

namespace Verif.Props

open Verif State Keygen Outcome Polynomial

variable {G : Type} [RGroup G] {sha : Sha512}

/-- A session up to the last round, when all broadcasts have arrived. -/
theorem reaches_last {self : ID} {ids : IDSlice} {t : UInt16} {r₀ : Keygen.Round G} (hs : Start r₀ self ids t)
    (hsorted : ids.Pairwise (· ≤ ·)) (h0 : (0 : ID) ∉ ids) (ht : t ≠ 65535) (timeout now : Nat) (M₁ : ID → Message G) (C : ID → Exponent G)
    (hM₁ : ∀ id ∈ others self ids, (M₁ id).header = ⟨1, id, 0⟩ ∧ ∃ π, (M₁ id).keyGen1 = some ⟨π, C id⟩ ∧ π.S = 0 ∧ C id ≠ [])
    (ord₀ ord₁ : MapOrder) (coins coins₁ : Coins) :
    ∃ s, Hist (impl sha) (newBaseState (impl sha) r₀ timeout now)
        ([(.processAll ord₀ coins, .messages [Message.newKeyGen1 self ⟨0, coins (t.toNat + 1)⟩ (Exponent.ofPoly (coinPoly t coins))])] ++
          (others self ids).map (fun id => (.handle (M₁ id), .handled none)) ++
          [(.processAll ord₁ coins₁, .messages (dealt self (coinPoly t coins) ids))]) s ∧
      s.done = false ∧ s.roundNumber = 2 ∧ s.acceptedTypes = [2] ∧ s.received = [] ∧ s.round.selfID = self ∧ s.round.partyIDs = ids := by
  obtain ⟨heq, ht0, htn, hc⟩ := hs.eq
  have hself := IDSlice.contains_sound hc
  have hself0 : self ≠ 0 := fun h => h0 (h ▸ hself)
  have hndo : (others self ids).Nodup := hs.nodup.filter _
  have hl := filter_self_length hs.nodup hself
  let f := coinPoly t coins
  -- round 0
  let s₀ := newBaseState (impl sha) r₀ timeout now
  have hinit := wf_initReceived (G := G) self ids [] GoMap.wf_nil
  have hkeys : ((initReceived self ids ([] : GoMap (Option (Message G)))).map Prod.fst).Perm (others self ids) := by
    refine (List.perm_ext_iff_of_nodup hinit hndo).mpr fun k => ?_
    rw [mem_others, mem_initReceived]
    simp
  let s₁ : State G (Round G) := { s₀ with received := [], queue := [], acceptedTypes := [1, 2], roundNumber := 1, round := round1 r₀ f }
  have p0 : processAll (impl sha) ord₀ coins s₀ = some (s₁, [Message.newKeyGen1 self ⟨0, coins (t.toNat + 1)⟩ (Exponent.ofPoly f)]) := by
    rw [processAll_iff]
    refine .next 0 [1, 2] r₀ { r₀ with secret := Spec.evalAt (coinPoly t coins) self.val, polynomial := some (coinPoly t coins), commitmentsSum := some (Exponent.ofPoly (coinPoly t coins)) } (round1 r₀ f) _ rfl ?_ (loop0 (by show r₀.stage = .r0; rw [heq])) ?_ rfl ?_
    · show (initReceived _ _ _).length = _
      have e1 : (impl sha).selfID r₀ = self := by rw [heq]; rfl
      have e2 : (impl sha).partyIDs r₀ = ids := by rw [heq]; rfl
      rw [show s₀.round = r₀ from rfl, e1, e2, ← hl, ← hkeys.length_eq, List.length_map]
    · have hst : r₀.stage = .r0 := by rw [heq]
      show (match r₀.stage with | .r0 => _ | .r1 => _ | .r2 => _) = _
      rw [hst]
      refine generate0_ok.mpr ⟨?_, ?_, ?_, ?_⟩ <;> rw [heq]
      · exact ht
      · exact hself0
    · rw [heq]; rfl
  -- deliveries of round 1
  let l₁ : List (ID × Option (Message G)) := (others self ids).map fun id => (id, some (M₁ id))
  obtain ⟨tm₁, d1⟩ := deliver_all (impl := impl sha) (t := 1) (ts := [2]) ((others self ids).map M₁) (s := s₁) rfl rfl
    (by
      intro m hm
      obtain ⟨id, hid, rfl⟩ := List.mem_map.mp hm
      obtain ⟨hh, _⟩ := hM₁ id hid
      have e1 : (impl sha).selfID s₁.round = self := by show r₀.selfID = self; rw [heq]
      have e2 : (impl sha).partyIDs s₁.round = ids := by show r₀.partyIDs = ids; rw [heq]
      rw [e1, e2]
      exact ⟨relevant_of hsorted (by rw [hh]; exact hid) (by rw [hh]; exact Or.inl rfl), by rw [hh]⟩)
    (by
      rw [List.map_map, List.map_congr_left (g := id) (fun i hi => by simp [(hM₁ i hi).1]), List.map_id]
      exact hndo)
    (by intro m hm; simp [s₁])
  have hmap₁ : (((others self ids).map M₁).map fun m => (m.header.fromID, some m)) = l₁ := by
    rw [List.map_map]
    apply List.map_congr_left
    intro id hid
    simp [(hM₁ id hid).1]
  rw [hmap₁] at d1
  let s₂ : State G (Round G) := { s₁ with timer := tm₁, received := l₁ }
  have d1 : Hist (impl sha) s₁ ((others self ids).map (fun id => (.handle (M₁ id), .handled none))) s₂ := by
    have : ([] : GoMap (Option (Message G))) ++ l₁ = l₁ := List.nil_append _
    rw [List.map_map] at d1
    rw [show s₁.received ++ l₁ = l₁ from this] at d1
    exact d1
  have hp1 := ord₁.perm _ l₁
  have p1 : ∃ l', l'.Perm l₁ ∧ processAll (impl sha) ord₁ coins₁ s₂ =
      some ({ s₂ with received := [], queue := [], acceptedTypes := [2], roundNumber := 2, round := round2 r₀ f l' }, dealt self f ids) := by
    refine ⟨ord₁.order _ l₁, hp1, ?_⟩
    rw [processAll_iff]
    have hloop := (loop1 (sha := sha) (l := ord₁.order _ l₁) (r := round1 r₀ f) (sum := Exponent.ofPoly f) rfl rfl (by
      intro k v hkv
      obtain ⟨id, hid, he⟩ := List.mem_map.mp (hp1.mem_iff.mp hkv)
      cases he
      exact ⟨_, rfl, by rw [(hM₁ k hid).1]⟩)).mpr ⟨by
        intro k v hkv
        obtain ⟨id, hid, he⟩ := List.mem_map.mp (hp1.mem_iff.mp hkv)
        cases he
        obtain ⟨_, π, h1, h2, h3⟩ := hM₁ k hid
        exact ⟨_, _, rfl, h1, h3, h2⟩, rfl⟩
    refine .next 1 [2] _ _ (round2 r₀ f (ord₁.order _ l₁)) _ rfl ?_ hloop (generate1_ok.mpr ⟨f, rfl, ?_, rfl, ?_⟩) rfl ?_
    · show l₁.length = (IDSlice.N r₀.partyIDs - 1).toNat
      rw [heq, ← hl]; simp [l₁]
    · intro id hid _ h
      have hid : id ∈ r₀.partyIDs := hid
      rw [heq] at hid
      exact h0 (h ▸ hid)
    · show dealt self f ids = dealt r₀.selfID f r₀.partyIDs
      rw [heq]
    · show some _ = some _
      congr 1
      simp only [round2, round1, sum2, comms2]
      rw [heq]
  obtain ⟨l', hl', p1⟩ := p1
  have q0 : State.step (impl sha) s₀ (.processAll ord₀ coins) = some (s₁, .messages [Message.newKeyGen1 self ⟨0, coins (t.toNat + 1)⟩ (Exponent.ofPoly f)]) := by
    show Option.map _ (processAll (impl sha) ord₀ coins s₀) = _
    rw [p0]
    rfl
  have q1 : State.step (impl sha) s₂ (.processAll ord₁ coins₁) =
      some ({ s₂ with received := [], queue := [], acceptedTypes := [2], roundNumber := 2, round := round2 r₀ f l' }, .messages (dealt self f ids)) := by
    show Option.map _ (processAll (impl sha) ord₁ coins₁ s₂) = _
    rw [p1]
    rfl
  exact ⟨_, ((Hist.one q0).trans d1).trans (Hist.one q1), rfl, rfl, rfl, rfl, by show r₀.selfID = _; rw [heq], by show r₀.partyIDs = _; rw [heq]⟩

/-- What `a` sends to `j` in round 2 if it cheats those of `V`: a share that does not match. -/
def Spec.cheatShare (t : UInt16) (a j : ID) (coins : Coins) (V : List ID) : Message G :=
  Message.newKeyGen2 a j (Spec.evalAt (coinPoly t coins) j.val + if j ∈ V then 1 else 0)

/-- What the honest party `j` sees of a key generation in which all broadcasts are honest and consistent and all shares are right, except that `a` sends wrong ones to
the parties of `V`; and what `j` sends. -/
structure Spec.SplitRun (ids : IDSlice) (t : UInt16) (a : ID) (coins : ID → Coins) (V : List ID) (j : ID) (h : List (Op G × Ret G)) : Prop where
  gets : ∀ m r, (Op.handle m, r) ∈ h → (∃ k ∈ ids, k ≠ j ∧ m = Spec.honestBroadcast t k (coins k)) ∨
    (∃ k ∈ ids, k ≠ j ∧ k ≠ a ∧ m = Spec.honestShare t k j (coins k)) ∨ m = Spec.cheatShare t a j (coins a) V
  sends : Spec.emitted h = Spec.honestBroadcast t j (coins j) :: (others j ids).map fun k => Spec.honestShare t j k (coins j)

/-- Any participant can pick the set `V` of those for whom key generation fails.  They end with an error that blames the cheater, and without a share.  All others finish
without an error and have a key for all participants. -/
theorem C126_split_refuted (ids : IDSlice) (hsorted : ids.Pairwise (· < ·)) (h0 : (0 : ID) ∉ ids) (t : UInt16) (a : ID) (ha : a ∈ ids)
    (coins : ID → Coins) (V : List ID) (j : ID) (hja : j ≠ a) (timeout now : Nat) (s₀ : State G (Keygen.Round G))
    (hnew : newKeygenState sha j ids t timeout now = .ok s₀) :
    ∃ h s, Hist (impl sha) s₀ h s ∧ Spec.SplitRun ids t a coins V j h ∧ s.done = true ∧
      (j ∈ V → s.err = some ⟨a, 2, .vssFailed⟩ ∧ s.round.output.pub = none ∧ s.round.output.secretKey = none) ∧
      (j ∉ V → s.err = none ∧ ∃ pub, s.round.output.pub = some pub ∧ pub.partyIDs = ids ∧ pub.threshold = t) := by
  have hnd : ids.Nodup := hsorted.imp fun {a b} h e => by subst e; exact absurd h (by simp)
  have hle : ids.Pairwise (· ≤ ·) := hsorted.imp fun h => UInt16.le_of_lt h
  obtain ⟨r₀, hs, rfl⟩ := start_of_new hnew hnd
  have ht := threshold_ne hs h0
  have hji : j ∈ ids := IDSlice.contains_sound hs.eq.2.2.2
  have haj : a ∈ others j ids := mem_others.mpr ⟨ha, fun h => hja h.symm⟩
  let M₂ : ID → Message G := fun k => if k = a then Spec.cheatShare t a j (coins a) V else Spec.honestShare t k j (coins k)
  have hM₂ : ∀ k, (M₂ k).header = ⟨2, k, j⟩ := by
    intro k
    by_cases h : k = a
    · subst h; simp [M₂, Spec.cheatShare, Message.newKeyGen2]; rfl
    · simp [M₂, h, Spec.honestShare, Message.newKeyGen2]; rfl
  have hpay : ∀ k, (M₂ k).keyGen2 = some ⟨Spec.evalAt (coinPoly t (coins k)) j.val + if k = a ∧ j ∈ V then 1 else 0⟩ := by
    intro k
    by_cases h : k = a
    · subst h; simp [M₂, Spec.cheatShare, Message.newKeyGen2]
    · simp [M₂, h, Spec.honestShare, Message.newKeyGen2]
  obtain ⟨s₃, d0, d1, d2, d3, d4, d5, d6⟩ := reaches_last (sha := sha) hs hle h0 ht timeout now (fun k => Spec.honestBroadcast t k (coins k))
    (fun k => Exponent.ofPoly (coinPoly t (coins k)))
    (fun k _ => ⟨rfl, ⟨0, coins k (t.toNat + 1)⟩, rfl, rfl, fun h => by
      have : (Exponent.ofPoly (coinPoly t (coins k)) : Exponent G).length = t.toNat + 1 := by simp [Exponent.ofPoly, coinPoly_length]
      rw [h] at this
      simp at this⟩)
    .insertion .insertion (coins j) (coins j)
  obtain ⟨tm, e0⟩ := deliver_all (impl := impl sha) (t := 2) (ts := []) ((others j ids).map M₂) (s := s₃) d1 d3
    (by
      intro m hm
      obtain ⟨k, hk, rfl⟩ := List.mem_map.mp hm
      rw [show (impl sha).selfID s₃.round = j from d5, show (impl sha).partyIDs s₃.round = ids from d6]
      exact ⟨relevant_of hle (by rw [hM₂]; exact hk) (by rw [hM₂]; exact Or.inr rfl), by rw [hM₂]⟩)
    (by
      rw [List.map_map, List.map_congr_left (g := id) (fun i _ => by simp [hM₂ i]), List.map_id]
      exact hnd.filter _)
    (by intro m _; rw [d4]; simp)
  let H : List (Op G × Ret G) :=
    [(.processAll .insertion (coins j), .messages [Message.newKeyGen1 j ⟨0, coins j (t.toNat + 1)⟩ (Exponent.ofPoly (coinPoly t (coins j)))])] ++
      (others j ids).map (fun k => (.handle (Spec.honestBroadcast t k (coins k)), .handled none)) ++
      [(.processAll .insertion (coins j), .messages (dealt j (coinPoly t (coins j)) ids))] ++
      (others j ids).map (fun k => (.handle (M₂ k), .handled none))
  have hmem : ∀ m r, (Op.handle m, r) ∈ H → r = .handled none ∧ ∃ k ∈ others j ids, m = Spec.honestBroadcast t k (coins k) ∨ m = M₂ k := by
    intro m r hm
    simp only [H, List.mem_append, List.mem_map, List.mem_singleton, Prod.mk.injEq, reduceCtorEq, false_and, false_or, or_false, Op.handle.injEq] at hm
    rcases hm with ⟨k, hk, h1, h2⟩ | ⟨k, hk, h1, h2⟩
    · exact ⟨h2.symm, k, hk, Or.inl h1.symm⟩
    · exact ⟨h2.symm, k, hk, Or.inr h1.symm⟩
  have hrun : Spec.SplitRun ids t a coins V j (H ++ [(.processAll .insertion (coins j), .messages [])]) := by
    constructor
    · intro m r hm
      rw [List.mem_append] at hm
      rcases hm with hm | hm
      swap
      · simp at hm
      obtain ⟨_, k, hk, rfl | rfl⟩ := hmem m r hm
      · exact Or.inl ⟨k, (mem_others.mp hk).1, (mem_others.mp hk).2, rfl⟩
      · by_cases h : k = a
        · exact Or.inr (Or.inr (by simp [M₂, h]))
        · exact Or.inr (Or.inl ⟨k, (mem_others.mp hk).1, (mem_others.mp hk).2, h, by simp [M₂, h]⟩)
    · have hz : ∀ (f : ID → Message G) (l : List ID), Spec.emitted (l.map fun k => ((Op.handle (f k), Ret.handled none) : Op G × Ret G)) = [] := by
        intro f l
        induction l with
        | nil => rfl
        | cons k l ih => simpa [Spec.emitted] using ih
      have ha : ∀ x y : List (Op G × Ret G), Spec.emitted (x ++ y) = Spec.emitted x ++ Spec.emitted y := fun x y => List.flatMap_append
      simp only [H, ha, hz]
      simp [Spec.emitted, Spec.honestBroadcast, dealt, Spec.honestShare, others]
  by_cases hV : j ∈ V
  · rw [d4, List.map_map, List.map_map] at e0
    have hh : Hist (impl sha) _ H _ := d0.trans e0
    have hrec : ∀ m : Message G, (m.header.fromID, some m) ∈ ([] : GoMap (Option (Message G))) ++
        (others j ids).map ((fun m => (m.header.fromID, some m)) ∘ M₂) → ∃ k ∈ others j ids, m = M₂ k := by
      intro m hm
      rw [List.nil_append] at hm
      obtain ⟨k, hk, he⟩ := List.mem_map.mp hm
      exact ⟨k, hk, (Option.some.inj (Prod.mk.inj he).2).symm⟩
    have hgot : ∀ k c, Spec.GotCommitments j ids H k c → c = Exponent.ofPoly (coinPoly t (coins k)) := by
      rintro k c ⟨m, x, g1, _, g3, g4, g5, g6⟩
      obtain ⟨_, k', _, rfl | rfl⟩ := hmem m _ g1
      · have : k' = k := g3
        subst this
        cases g5
        exact g6.symm
      · rw [hM₂] at g4
        exact absurd (show (2 : UInt8) = 1 from g4) (by decide)
    have hgota : Spec.GotCommitments j ids H a (Exponent.ofPoly (coinPoly t (coins a))) :=
      ⟨Spec.honestBroadcast t a (coins a), ⟨⟨0, coins a (t.toNat + 1)⟩, _⟩, by
        simp only [H, List.mem_append, List.mem_map]
        exact Or.inl (Or.inl (Or.inr ⟨a, haj, rfl⟩)), ⟨fun h => hja h.symm, ha, Or.inl rfl⟩, rfl, rfl, rfl, rfl⟩
    obtain ⟨s', g1, g2, m, k, c, g3, g4, g5, g6, g7⟩ := C38_mismatch_aborts j ids t timeout now _ hnew hnd hh d1 d2
      (by
        have : (others j ids).length = _ := others_length (self := j) hnd hji
        rw [N_pred_eq (List.ne_nil_of_mem hji) (nodup_ids_length hnd)] at this
        have hpos : 0 < ids.length := List.length_pos_of_mem hji
        simp only [List.nil_append, List.length_map]
        omega)
      (by
        intro m hm
        obtain ⟨k, _, rfl⟩ := hrec m hm
        rw [hpay]
        simp)
      ⟨M₂ a, _, Exponent.ofPoly (coinPoly t (coins a)), by
        rw [List.nil_append]
        exact List.mem_map.mpr ⟨a, haj, rfl⟩, hpay a, by rw [hM₂]; exact hgota, by
        rw [Exponent.ofPoly_evalAt, if_pos ⟨rfl, hV⟩, add_smul, one_smul]
        intro h
        exact RGroup.base_ne_zero (G := G) (by simpa using h)⟩
      .insertion (coins j)
    refine ⟨_, s', hh.trans (Hist.one g1), hrun, g2, fun _ => ?_, fun h => absurd hV h⟩
    obtain ⟨k', _, rfl⟩ := hrec m g3
    have hk' : k' = a := by
      by_contra hne
      rw [hM₂] at g5
      rw [hpay, if_neg (by simp [hne])] at g4
      cases g4
      rw [hgot _ _ g5, Exponent.ofPoly_evalAt] at g6
      exact g6 (by simp)
    rw [hM₂, hk'] at g7
    refine ⟨g7, (C41_output_iff_success j ids t timeout now _ hnew hnd (hh.trans (Hist.one g1))).1 ?_⟩
    rw [g7]
    simp
  · obtain ⟨s, hh, hd, he⟩ := completes (sha := sha) hs hle h0 ht timeout now (fun k => Spec.honestBroadcast t k (coins k)) M₂
      (fun k => Exponent.ofPoly (coinPoly t (coins k))) (fun k => Spec.evalAt (coinPoly t (coins k)) j.val)
      (fun k _ => ⟨rfl, ⟨0, coins k (t.toNat + 1)⟩, rfl, rfl, fun h => by
        have : (Exponent.ofPoly (coinPoly t (coins k)) : Exponent G).length = t.toNat + 1 := by simp [Exponent.ofPoly, coinPoly_length]
        rw [h] at this
        simp at this⟩)
      (fun k _ => ⟨hM₂ k, by rw [hpay]; simp [hV], (Exponent.ofPoly_evalAt _ _).symm⟩)
      .insertion .insertion .insertion (coins j) (coins j) (coins j)
    refine ⟨_, s, hh, hrun, hd, fun h => absurd h hV, fun _ => ⟨he, ?_⟩⟩
    obtain ⟨_, pub, _, g1, g2, g3, _⟩ := C39_public_on_polynomial j ids t timeout now _ hnew hnd hh hd he
    exact ⟨pub, g1, g2, g3⟩

end Verif.Props
