import Verif.Lemmas.KeygenInv

/-!
Running sessions forward: what happens when the messages of a round are delivered and processed.
-/

namespace Verif.State

variable {G R : Type} {impl : RoundImpl G R}

theorem Hist.trans {s s₁ s₂ : State G R} {h h' : List (Op G × Ret G)} (h1 : Hist impl s h s₁) (h2 : Hist impl s₁ h' s₂) :
    Hist impl s (h ++ h') s₂ := by
  induction h2 with
  | nil => simpa using h1
  | snoc _ hs ih => rw [← List.append_assoc]; exact ih.snoc hs

theorem Hist.one {s s₁ : State G R} {op : Op G} {ret : Ret G} (h : step impl s op = some (s₁, ret)) : Hist impl s [(op, ret)] s₁ :=
  Hist.nil.snoc h

/-- A message of the current type from somebody not heard from yet is stored. -/
theorem handle_stores {s : State G R} {m : Message G} {t : MsgType} {ts : List MsgType} (hd : s.done = false)
    (ht : s.acceptedTypes = t :: ts) (hr : Relevant (impl.selfID s.round) (impl.partyIDs s.round) m) (hn : m.header.fromID ∉ s.received.keys)
    (hm : m.header.type = t) :
    handleMessage impl s m = ({ s with timer := s.timer.ackMessage, received := s.received.set m.header.fromID (some m) }, none) := by
  obtain ⟨h1, h2, h3⟩ := hr
  unfold handleMessage
  simp only [hd, Bool.false_eq_true, if_false, ht, h1, if_false, h3]
  rw [if_neg, if_neg (by simp), if_neg (by rw [GoMap.has_iff]; exact hn), if_neg, if_pos hm]
  · rw [← ht, isAcceptedType_false, not_not, ht, hm]
    exact List.mem_cons_self
  · rintro ⟨h4, h5⟩
    rcases h2 with h2 | h2
    · simp [Header.isBroadcast, h2] at h4
    · exact h5 h2

theorem deliver_all {t : MsgType} {ts : List MsgType} (ms : List (Message G)) {s : State G R} (hd : s.done = false)
    (ht : s.acceptedTypes = t :: ts)
    (hr : ∀ m ∈ ms, Relevant (impl.selfID s.round) (impl.partyIDs s.round) m ∧ m.header.type = t)
    (hnd : (ms.map fun m => m.header.fromID).Nodup) (hn : ∀ m ∈ ms, m.header.fromID ∉ s.received.keys) :
    ∃ tm, Hist impl s (ms.map fun m => (Op.handle m, Ret.handled none))
      { s with timer := tm, received := s.received ++ ms.map fun m => (m.header.fromID, some m) } := by
  induction ms generalizing s with
  | nil => exact ⟨s.timer, by simpa using Hist.nil⟩
  | cons m ms ih =>
    have h1 := handle_stores hd ht (hr m List.mem_cons_self).1 (hn m List.mem_cons_self) (hr m List.mem_cons_self).2
    rw [GoMap.set_of_not_mem _ (hn m List.mem_cons_self)] at h1
    rw [List.map_cons, List.nodup_cons] at hnd
    obtain ⟨tm, h2⟩ := ih (s := { s with timer := s.timer.ackMessage, received := s.received ++ [(m.header.fromID, some m)] }) hd ht
      (fun m' hm' => hr m' (List.mem_cons_of_mem _ hm')) hnd.2 (by
        intro m' hm'
        simp only [GoMap.keys, List.map_append, List.map_cons, List.map_nil, List.mem_append, List.mem_singleton, not_or]
        refine ⟨hn m' (List.mem_cons_of_mem _ hm'), ?_⟩
        intro he
        exact hnd.1 (List.mem_map.mpr ⟨m', hm', he⟩))
    refine ⟨tm, ?_⟩
    have h3 : step impl s (.handle m) = some ({ s with timer := s.timer.ackMessage, received := s.received ++ [(m.header.fromID, some m)] }, .handled none) := by
      simp only [step, h1]
    have := (Hist.one h3).trans h2
    simpa using this

end Verif.State

namespace Verif.Keygen

open State Outcome

variable {G : Type} [RGroup G] {sha : Sha512}

theorem relevant_of {ids : IDSlice} {self : ID} (hsorted : ids.Pairwise (· ≤ ·)) {m : Message G} (h1 : m.header.fromID ∈ others self ids)
    (h2 : m.header.toID = 0 ∨ m.header.toID = self) : Relevant self ids m := by
  obtain ⟨h3, h4⟩ := mem_others.mp h1
  exact ⟨h4, h2, IDSlice.contains_complete hsorted h3⟩

theorem filter_self_length {ids : List ID} {self : ID} (hnd : ids.Nodup) (h : self ∈ ids) :
    (others self ids).length = (IDSlice.N ids - 1).toNat := Props.others_length hnd h

/-- A session of key generation in which everybody sends well-formed messages with matching shares succeeds, for any orders of
iteration. -/
theorem completes {self : ID} {ids : IDSlice} {t : UInt16} {r₀ : Round G} (hs : Start r₀ self ids t)
    (hsorted : ids.Pairwise (· ≤ ·)) (h0 : (0 : ID) ∉ ids) (ht : t ≠ 65535) (timeout now : Nat)
    (M₁ M₂ : ID → Message G) (C : ID → Exponent G) (z : ID → Scalar)
    (hM₁ : ∀ id ∈ others self ids, (M₁ id).header = ⟨1, id, 0⟩ ∧ ∃ π, (M₁ id).keyGen1 = some ⟨π, C id⟩ ∧ π.S = 0 ∧ C id ≠ [])
    (hM₂ : ∀ id ∈ others self ids, (M₂ id).header = ⟨2, id, self⟩ ∧ (M₂ id).keyGen2 = some ⟨z id⟩ ∧
      z id • (base : G) = Spec.evalAt (C id) self.val)
    (ord₀ ord₁ ord₂ : MapOrder) (coins coins₁ coins₂ : Coins) :
    ∃ s, Hist (impl sha) (newBaseState (impl sha) r₀ timeout now)
        ([(.processAll ord₀ coins, .messages [Message.newKeyGen1 self ⟨0, coins (t.toNat + 1)⟩ (Exponent.ofPoly (coinPoly t coins))])] ++
          (others self ids).map (fun id => (.handle (M₁ id), .handled none)) ++
          [(.processAll ord₁ coins₁, .messages (dealt self (coinPoly t coins) ids))] ++
          (others self ids).map (fun id => (.handle (M₂ id), .handled none)) ++
          [(.processAll ord₂ coins₂, .messages [])]) s ∧
      s.done = true ∧ s.err = none := by
  obtain ⟨heq, ht0, htn, hc⟩ := hs.eq
  have hself := IDSlice.contains_sound hc
  have hself0 : self ≠ 0 := fun h => h0 (h ▸ hself)
  have hndo : (others self ids).Nodup := hs.nodup.filter _
  have hl := filter_self_length hs.nodup hself
  let f := coinPoly t coins
  -- round 0
  let s₀ := newBaseState (impl sha) r₀ timeout now
  have hinit := wf_initReceived (G := G) self ids [] GoMap.wf_nil
  have hkeys : ((initReceived self ids ([] : GoMap (Option (Message G)))).map Prod.fst).Perm (others self ids) := by
    refine (List.perm_ext_iff_of_nodup hinit hndo).mpr fun k => ?_
    rw [mem_others, mem_initReceived]
    simp
  let s₁ : State G (Round G) := { s₀ with received := [], queue := [], acceptedTypes := [1, 2], roundNumber := 1, round := round1 r₀ f }
  have p0 : processAll (impl sha) ord₀ coins s₀ = some (s₁, [Message.newKeyGen1 self ⟨0, coins (t.toNat + 1)⟩ (Exponent.ofPoly f)]) := by
    rw [processAll_iff]
    refine .next 0 [1, 2] r₀ { r₀ with secret := Spec.evalAt (coinPoly t coins) self.val, polynomial := some (coinPoly t coins), commitmentsSum := some (Exponent.ofPoly (coinPoly t coins)) } (round1 r₀ f) _ rfl ?_ (loop0 (by show r₀.stage = .r0; rw [heq])) ?_ rfl ?_
    · show (initReceived _ _ _).length = _
      have e1 : (impl sha).selfID r₀ = self := by rw [heq]; rfl
      have e2 : (impl sha).partyIDs r₀ = ids := by rw [heq]; rfl
      rw [show s₀.round = r₀ from rfl, e1, e2, ← hl, ← hkeys.length_eq, List.length_map]
    · have hst : r₀.stage = .r0 := by rw [heq]
      show (match r₀.stage with | .r0 => _ | .r1 => _ | .r2 => _) = _
      rw [hst]
      refine generate0_ok.mpr ⟨?_, ?_, ?_, ?_⟩ <;> rw [heq]
      · exact ht
      · exact hself0
    · rw [heq]; rfl
  -- deliveries of round 1
  let l₁ : List (ID × Option (Message G)) := (others self ids).map fun id => (id, some (M₁ id))
  obtain ⟨tm₁, d1⟩ := deliver_all (impl := impl sha) (t := 1) (ts := [2]) ((others self ids).map M₁) (s := s₁) rfl rfl
    (by
      intro m hm
      obtain ⟨id, hid, rfl⟩ := List.mem_map.mp hm
      obtain ⟨hh, _⟩ := hM₁ id hid
      have e1 : (impl sha).selfID s₁.round = self := by show r₀.selfID = self; rw [heq]
      have e2 : (impl sha).partyIDs s₁.round = ids := by show r₀.partyIDs = ids; rw [heq]
      rw [e1, e2]
      exact ⟨relevant_of hsorted (by rw [hh]; exact hid) (by rw [hh]; exact Or.inl rfl), by rw [hh]⟩)
    (by
      rw [List.map_map, List.map_congr_left (g := id) (fun i hi => by simp [(hM₁ i hi).1]), List.map_id]
      exact hndo)
    (by intro m hm; simp [s₁])
  have hmap₁ : (((others self ids).map M₁).map fun m => (m.header.fromID, some m)) = l₁ := by
    rw [List.map_map]
    apply List.map_congr_left
    intro id hid
    simp [(hM₁ id hid).1]
  rw [hmap₁] at d1
  let s₂ : State G (Round G) := { s₁ with timer := tm₁, received := l₁ }
  have d1 : Hist (impl sha) s₁ ((others self ids).map (fun id => (.handle (M₁ id), .handled none))) s₂ := by
    have : ([] : GoMap (Option (Message G))) ++ l₁ = l₁ := List.nil_append _
    rw [List.map_map] at d1
    rw [show s₁.received ++ l₁ = l₁ from this] at d1
    exact d1
  have hp1 := ord₁.perm _ l₁
  have p1 : ∃ l', l'.Perm l₁ ∧ processAll (impl sha) ord₁ coins₁ s₂ =
      some ({ s₂ with received := [], queue := [], acceptedTypes := [2], roundNumber := 2, round := round2 r₀ f l' }, dealt self f ids) := by
    refine ⟨ord₁.order _ l₁, hp1, ?_⟩
    rw [processAll_iff]
    have hloop := (loop1 (sha := sha) (l := ord₁.order _ l₁) (r := round1 r₀ f) (sum := Exponent.ofPoly f) rfl rfl (by
      intro k v hkv
      obtain ⟨id, hid, he⟩ := List.mem_map.mp (hp1.mem_iff.mp hkv)
      cases he
      exact ⟨_, rfl, by rw [(hM₁ k hid).1]⟩)).mpr ⟨by
        intro k v hkv
        obtain ⟨id, hid, he⟩ := List.mem_map.mp (hp1.mem_iff.mp hkv)
        cases he
        obtain ⟨_, π, h1, h2, h3⟩ := hM₁ k hid
        exact ⟨_, _, rfl, h1, h3, h2⟩, rfl⟩
    refine .next 1 [2] _ _ (round2 r₀ f (ord₁.order _ l₁)) _ rfl ?_ hloop (generate1_ok.mpr ⟨f, rfl, ?_, rfl, ?_⟩) rfl ?_
    · show l₁.length = (IDSlice.N r₀.partyIDs - 1).toNat
      rw [heq, ← hl]; simp [l₁]
    · intro id hid _ h
      have hid : id ∈ r₀.partyIDs := hid
      rw [heq] at hid
      exact h0 (h ▸ hid)
    · show dealt self f ids = dealt r₀.selfID f r₀.partyIDs
      rw [heq]
    · show some _ = some _
      congr 1
      simp only [round2, round1, sum2, comms2]
      rw [heq]
  obtain ⟨l', hl', p1⟩ := p1
  have hnd1 : (l'.map Prod.fst).Nodup := by
    rw [(hl'.map _).nodup_iff, List.map_map, show (Prod.fst ∘ fun id => (id, some (M₁ id))) = id from rfl, List.map_id]
    exact hndo
  have hcomms : ∀ id ∈ others self ids, (comms2 l').get? id = some (C id) := by
    intro id hid
    unfold comms2
    rw [get?_foldl_set commOf l' [] hnd1, find?_of_mem hnd1 (hl'.mem_iff.mpr (List.mem_map.mpr ⟨id, hid, rfl⟩))]
    obtain ⟨_, π, h1, _⟩ := hM₁ id hid
    simp [commOf, h1]
  -- deliveries of round 2
  let s₃ : State G (Round G) := { s₂ with received := [], queue := [], acceptedTypes := [2], roundNumber := 2, round := round2 r₀ f l' }
  let l₂ : List (ID × Option (Message G)) := (others self ids).map fun id => (id, some (M₂ id))
  obtain ⟨tm₂, d2⟩ := deliver_all (impl := impl sha) (t := 2) (ts := []) ((others self ids).map M₂) (s := s₃) rfl rfl
    (by
      intro m hm
      obtain ⟨id, hid, rfl⟩ := List.mem_map.mp hm
      obtain ⟨hh, _⟩ := hM₂ id hid
      have e1 : (impl sha).selfID s₃.round = self := by show r₀.selfID = self; rw [heq]
      have e2 : (impl sha).partyIDs s₃.round = ids := by show r₀.partyIDs = ids; rw [heq]
      rw [e1, e2]
      exact ⟨relevant_of hsorted (by rw [hh]; exact hid) (by rw [hh]; exact Or.inr rfl), by rw [hh]⟩)
    (by
      rw [List.map_map, List.map_congr_left (g := id) (fun i hi => by simp [(hM₂ i hi).1]), List.map_id]
      exact hndo)
    (by intro m hm; simp [s₃])
  have hmap₂ : (((others self ids).map M₂).map fun m => (m.header.fromID, some m)) = l₂ := by
    rw [List.map_map]
    apply List.map_congr_left
    intro id hid
    simp [(hM₂ id hid).1]
  rw [hmap₂] at d2
  let s₄ : State G (Round G) := { s₃ with timer := tm₂, received := l₂ }
  have d2 : Hist (impl sha) s₃ ((others self ids).map (fun id => (.handle (M₂ id), .handled none))) s₄ := by
    have : ([] : GoMap (Option (Message G))) ++ l₂ = l₂ := List.nil_append _
    rw [List.map_map] at d2
    rw [show s₃.received ++ l₂ = l₂ from this] at d2
    exact d2
  have hp2 := ord₂.perm _ l₂
  have hr0self : r₀.selfID = self := by rw [heq]
  have hr0ids : r₀.partyIDs = ids := by rw [heq]
  have hloop := (loop2 (sha := sha) (l := ord₂.order _ l₂) (r := round2 r₀ f l') rfl (by show r₀.selfID ≠ 0; rw [hr0self]; exact hself0) (by
      intro k v hkv
      obtain ⟨id, hid, he⟩ := List.mem_map.mp (hp2.mem_iff.mp hkv)
      cases he
      exact ⟨_, rfl, by rw [(hM₂ k hid).1]⟩)).mpr ⟨by
        intro k v hkv
        obtain ⟨id, hid, he⟩ := List.mem_map.mp (hp2.mem_iff.mp hkv)
        cases he
        obtain ⟨_, h2, h3⟩ := hM₂ k hid
        exact ⟨_, _, _, rfl, h2, hcomms k hid, by show _ = Spec.evalAt (C k) r₀.selfID.val; rw [hr0self]; exact h3⟩, rfl⟩
  obtain ⟨shares, hsh, _⟩ := Props.evaluateMulti_eq (sum2 f l') ids h0 []
  have hlen : (sum2 f l').length = t.toNat + 1 := by
    unfold sum2
    rw [foldl_addOrKeep_length (fun e : ID × Option (Message G) => commOf e.2)]
    simp [Exponent.ofPoly, f, coinPoly_length]
  obtain ⟨gk, hgk⟩ := getElem?_zero_iff.mpr (show sum2 f l' ≠ [] by intro h; rw [h] at hlen; simp at hlen)
  have hgen := generate2_ok (r := { round2 r₀ f l' with secret := (round2 r₀ f l').secret + ((ord₂.order _ l₂).map fun e => shareOf e.2).sum })
    |>.mpr ⟨sum2 f l', shares, gk, rfl, by show (0 : ID) ∉ r₀.partyIDs; rw [hr0ids]; exact h0,
      by show Exponent.evaluateMulti _ r₀.partyIDs [] = _; rw [hr0ids]; exact hsh, hgk, by show r₀.hasOutput = true; rw [heq], rfl, rfl⟩
  have p2 : ∃ s, processAll (impl sha) ord₂ coins₂ s₄ = some (s, []) ∧ s.done = true ∧ s.err = none := by
    refine ⟨_, processAll_iff (impl sha) |>.mpr (.last 2 [] _ _ _ _ rfl ?_ hloop hgen rfl rfl rfl rfl), rfl, rfl⟩
    show l₂.length = (IDSlice.N r₀.partyIDs - 1).toNat
    rw [hr0ids, ← hl]; simp [l₂]
  obtain ⟨s, p2, hdone, herr⟩ := p2
  refine ⟨s, ?_, hdone, herr⟩
  have q0 : Hist (impl sha) s₀ _ s₁ := Hist.one (op := .processAll ord₀ coins) (by simp only [step, p0]; rfl)
  have q1 : Hist (impl sha) s₂ _ s₃ := Hist.one (op := .processAll ord₁ coins₁) (by simp only [step, p1]; rfl)
  have q2 : Hist (impl sha) s₄ _ s := Hist.one (op := .processAll ord₂ coins₂) (by simp only [step, p2]; rfl)
  exact (((q0.trans d1).trans q1).trans d2).trans q2

end Verif.Keygen
