import Verif.Lemmas.KeygenInv
import Verif.Lemmas.StateFirst

/-!
C30 (key generation), C34, C38 to C41, C66 (key generation): sessions of key generation receiving arbitrary messages.  Concrete
sessions are in `Verif/Props/Demo.lean`.
-/

namespace Verif.Props

open Verif State Keygen Outcome

variable {G : Type} [RGroup G] {sha : Sha512}

/-! ### C34 -/

theorem N_pred_le {ids : List ID} (h : ids ≠ []) : (IDSlice.N ids - 1).toNat ≤ ids.length - 1 := by
  have hpos : 0 < ids.length := List.length_pos_iff.mpr h
  have h3 : (IDSlice.N ids - 1).toNat = (ids.length + 65535) % 65536 := by
    unfold IDSlice.N
    rw [UInt16.toNat_sub, UInt16.toNat_ofNat']
    simp only [UInt16.toNat_one]
    omega
  omega

theorem N_pred_eq {ids : List ID} (h : ids ≠ []) (hl : ids.length ≤ 65536) : (IDSlice.N ids - 1).toNat = ids.length - 1 := by
  have hpos : 0 < ids.length := List.length_pos_iff.mpr h
  have h3 : (IDSlice.N ids - 1).toNat = (ids.length + 65535) % 65536 := by
    unfold IDSlice.N
    rw [UInt16.toNat_sub, UInt16.toNat_ofNat']
    simp only [UInt16.toNat_one]
    omega
  omega

theorem nodup_ids_length {ids : List ID} (hnd : ids.Nodup) : ids.length ≤ 65536 := by
  have h3 := (hnd.map (f := UInt16.toNat) fun a b h => UInt16.toNat_inj.mp h)
  have h4 : (ids.map UInt16.toNat).toFinset ⊆ Finset.range 65536 := by
    intro x hx
    simp only [List.mem_toFinset, List.mem_map] at hx
    obtain ⟨y, _, rfl⟩ := hx
    exact Finset.mem_range.mpr (UInt16.toNat_lt y)
  have h5 := Finset.card_le_card h4
  rw [List.toFinset_card_of_nodup h3, List.length_map, Finset.card_range] at h5
  exact h5

theorem newKeygenState_ok {self : ID} {ids : IDSlice} {t : UInt16} {timeout now : Nat} {s : State G (Round G)} :
    newKeygenState sha self ids t timeout now = .ok s ↔
      ∃ r₀, newRound self ids t = .ok r₀ ∧ s = newBaseState (impl sha) r₀ timeout now := by
  unfold newKeygenState
  simp only [bind_eq_ok, pure_def, Outcome.ok.injEq]
  constructor
  · rintro ⟨r, h1, rfl⟩; exact ⟨r, h1, rfl⟩
  · rintro ⟨r, h1, rfl⟩; exact ⟨r, h1, rfl⟩

/-- If `NewKeygenState` succeeds, the party is in the list, `1 ≤ t ≤ n - 1`, and the output is empty. -/
theorem C34_accepted (self : ID) (ids : IDSlice) (t : UInt16) (timeout now : Nat) (s : State G (Round G))
    (h : newKeygenState sha self ids t timeout now = .ok s) :
    self ∈ ids ∧ 1 ≤ t.toNat ∧ t.toNat ≤ ids.length - 1 ∧ s.round.output.pub = none ∧ s.round.output.secretKey = none := by
  obtain ⟨r₀, h1, rfl⟩ := newKeygenState_ok.mp h
  unfold newRound newBaseRound at h1
  simp only [bind_eq_ok, failIf_eq_ok, pure_def, Outcome.ok.injEq] at h1
  obtain ⟨_, h2, _, h3, _, h4, rfl⟩ := h1
  have hm : self ∈ ids := IDSlice.contains_sound (by simpa using h4)
  refine ⟨hm, ?_, ?_, rfl, rfl⟩
  · by_contra hc
    exact h2 (UInt16.toNat_inj.mp (by simp; omega))
  · exact (UInt16.le_iff_toNat_le.mp (UInt16.not_lt.mp h3)).trans (N_pred_le (List.ne_nil_of_mem hm))

/-- It succeeds for every sorted duplicate-free list containing the party and every threshold from 1 to `n - 1`. -/
theorem C34_accepts (self : ID) (ids : IDSlice) (t : UInt16) (timeout now : Nat) (hs : ids.Pairwise (· ≤ ·)) (hnd : ids.Nodup)
    (hm : self ∈ ids) (h1 : 1 ≤ t.toNat) (h2 : t.toNat ≤ ids.length - 1) :
    ∃ s : State G (Round G), newKeygenState sha self ids t timeout now = .ok s := by
  obtain ⟨r₀, hr⟩ : ∃ r₀ : Round G, newRound self ids t = .ok r₀ := by
    unfold newRound newBaseRound
    rw [Outcome.failIf_neg (by rintro rfl; simp at h1), Outcome.ok_bind, Outcome.failIf_neg, Outcome.ok_bind, Outcome.failIf_neg,
      Outcome.ok_bind]
    · exact ⟨_, rfl⟩
    · simpa using IDSlice.contains_complete hs hm
    · apply UInt16.not_lt.mpr
      rw [UInt16.le_iff_toNat_le, N_pred_eq (List.ne_nil_of_mem hm) (nodup_ids_length hnd)]
      exact h2
  exact ⟨_, newKeygenState_ok.mpr ⟨r₀, hr, rfl⟩⟩

/-- The zero threshold, too large thresholds and parties not in the list are refused. -/
theorem C34_refused (self : ID) (ids : IDSlice) (t : UInt16) (timeout now : Nat)
    (h : self ∉ ids ∨ t = 0 ∨ ids.length - 1 < t.toNat) :
    ∃ e, (newKeygenState sha self ids t timeout now : GoRes (State G (Round G))) = .err e := by
  cases hr : (newKeygenState sha self ids t timeout now : GoRes (State G (Round G))) with
  | err e => exact ⟨e, rfl⟩
  | ok s =>
    exfalso
    obtain ⟨h1, h2, h3, _⟩ := C34_accepted self ids t timeout now s hr
    rcases h with h | rfl | h
    · exact h h1
    · simp at h2
    · omega
  | panic =>
    exfalso
    unfold newKeygenState newRound newBaseRound at hr
    simp only [bind_eq_panic, failIf_eq_panic, failIf_eq_ok, pure_def, reduceCtorEq, and_false, exists_false, or_false] at hr

/-! ### What success means -/

/-- A session of `NewKeygenState` with a list without duplicates. -/
theorem start_of_new {self : ID} {ids : IDSlice} {t : UInt16} {timeout now : Nat} {s₀ : State G (Round G)}
    (h : newKeygenState sha self ids t timeout now = .ok s₀) (hnd : ids.Nodup) :
    ∃ r₀, Start r₀ self ids t ∧ s₀ = newBaseState (impl sha) r₀ timeout now := by
  obtain ⟨r₀, h1, h2⟩ := newKeygenState_ok.mp h
  exact ⟨r₀, ⟨h1, hnd⟩, h2⟩

/-- What an accepted broadcast of round 1 from `id` with commitments `c` is. -/
def Spec.GotCommitments (self : ID) (ids : List ID) (h : List (Op G × Ret G)) (id : ID) (c : List G) : Prop :=
  ∃ m k, (Op.handle m, Ret.handled none) ∈ h ∧ Spec.ForUs self ids m ∧ m.header.fromID = id ∧ m.header.type = 1 ∧
    m.keyGen1 = some k ∧ k.commitments = c

/-- What an accepted share of round 2 from `id` is. -/
def Spec.GotShare (self : ID) (ids : List ID) (h : List (Op G × Ret G)) (id : ID) (z : Scalar) : Prop :=
  ∃ m k, (Op.handle m, Ret.handled none) ∈ h ∧ Spec.ForUs self ids m ∧ m.header.fromID = id ∧ m.header.type = 2 ∧
    m.keyGen2 = some k ∧ k.share = z

theorem got_of_ready {self : ID} {ids : IDSlice} {t : UInt16} {r₀ : Round G} (hs : Start r₀ self ids t)
    {h : List (Op G × Ret G)} {l : List (ID × Option (Message G))} (hr : Ready (impl sha) r₀ h 1 l)
    (hv : ∀ k v, (k, v) ∈ l → Valid1 v) {k : ID} {v : Option (Message G)} (hk : (k, v) ∈ l) :
    Spec.GotCommitments self ids h k (commOf v) ∧ commOf v ≠ [] := by
  obtain ⟨heq, _⟩ := hs.eq
  obtain ⟨m, rfl, h2, h3, h4, h5⟩ := hr.later (by omega) k v hk
  obtain ⟨m', kg, h6, h7, h8, h9⟩ := hv _ _ hk
  cases h6
  have e1 : (impl sha).selfID r₀ = self := by rw [heq]; rfl
  have e2 : (impl sha).partyIDs r₀ = ids := by rw [heq]; rfl
  rw [e1, e2] at h5
  have h3 : some (1 : MsgType) = some m.header.type := h3
  refine ⟨⟨m, kg, h4, h5, h2, (Option.some.inj h3).symm, h7, ?_⟩, ?_⟩
  · simp [commOf, h7]
  · simpa [commOf, h7] using h8

/-- Success, spelled out with functions for what was received. -/
theorem finished_spec {self : ID} {ids : IDSlice} {t : UInt16} {r₀ : Round G} (hs : Start r₀ self ids t)
    {h : List (Op G × Ret G)} {r : Round G} (hf : Finished sha r₀ h r) :
    ∃ (f : Poly) (C : ID → Exponent G) (z : ID → Scalar), f.length = t.toNat + 1 ∧ Drawn r₀ h f ∧ (∀ id ∈ ids, id ≠ 0) ∧
      (∀ id ∈ others self ids, Spec.GotCommitments self ids h id (C id) ∧ C id ≠ [] ∧ Spec.GotShare self ids h id (z id) ∧
        z id • (base : G) = Spec.evalAt (C id) self.val) ∧
      r.output.secretKey = some (SecretShare.new self (Spec.evalAt f self.val + ((others self ids).map z).sum)) ∧
      ∃ pub, r.output.pub = some pub ∧ pub.partyIDs = ids ∧ pub.threshold = t ∧
        pub.groupKey = Spec.evalAt f (0 : Scalar) • base +
          ((others self ids).map fun id => if (C id).length = t.toNat + 1 then Spec.evalAt (C id) (0 : Scalar) else 0).sum ∧
        (∀ id ∈ ids, pub.shares.get? id = some (Spec.evalAt f id.val • base +
          ((others self ids).map fun k => if (C k).length = t.toNat + 1 then Spec.evalAt (C k) id.val else 0).sum)) ∧
        (∀ id, id ∉ ids → pub.shares.get? id = none) ∧
        ∃ sum : Exponent G, sum.length = t.toNat + 1 ∧ pub.groupKey = Spec.evalAt sum (0 : Scalar) ∧
          ∀ id ∈ ids, pub.shares.get? id = some (Spec.evalAt sum id.val) := by
  obtain ⟨heq, _, _, hc⟩ := hs.eq
  obtain ⟨f, l₁, l₂, shares, gk, h1, h2, h3, h4, h5, h6, h7, h8, h9, h10, _⟩ := hf
  have e1 : r₀.selfID = self := by rw [heq]
  have e2 : r₀.partyIDs = ids := by rw [heq]
  have e3 : r₀.threshold = t := by rw [heq]
  have e1' : (impl sha).selfID r₀ = self := e1
  have e2' : (impl sha).partyIDs r₀ = ids := e2
  rw [e2] at h5
  have hflen : f.length = t.toNat + 1 := by
    obtain ⟨_, coins, rfl, _⟩ := h2
    rw [coinPoly_length, e3]
  have hk1 : (l₁.map Prod.fst).Perm (others self ids) := by have := h3.keys; rwa [e1', e2'] at this
  have hk2 : (l₂.map Prod.fst).Perm (others self ids) := by have := h6.keys; rwa [e1', e2'] at this
  have hndo : (others self ids).Nodup := hs.nodup.filter _
  have hnd1 : (l₁.map Prod.fst).Nodup := hk1.nodup_iff.mpr hndo
  have hnd2 : (l₂.map Prod.fst).Nodup := hk2.nodup_iff.mpr hndo
  have ex : ∀ {l : List (ID × Option (Message G))}, (l.map Prod.fst).Perm (others self ids) → ∀ id ∈ others self ids,
      ∃ v, (id, v) ∈ l := by
    intro l hl id hid
    obtain ⟨⟨k, v⟩, h1, h2⟩ := List.mem_map.mp (hl.mem_iff.mpr hid)
    cases h2
    exact ⟨v, h1⟩
  let val (l : List (ID × Option (Message G))) (id : ID) : Option (Message G) := (l.find? (fun e => e.1 = id)).elim none Prod.snd
  have hval : ∀ {l : List (ID × Option (Message G))}, (l.map Prod.fst).Nodup → ∀ k v, (k, v) ∈ l → val l k = v := by
    intro l hl k v hkv
    show (l.find? _).elim none Prod.snd = v
    rw [find?_of_mem hl hkv]
    rfl
  have hcomms : ∀ k v, (k, v) ∈ l₁ → (comms2 l₁).get? k = some (commOf v) := by
    intro k v hkv
    unfold comms2
    rw [Keygen.get?_foldl_set commOf l₁ [] hnd1, find?_of_mem hnd1 hkv]
  have hsum : ∀ (M : Type) [AddCommMonoid M] (F : Option (Message G) → M) {l : List (ID × Option (Message G))},
      (l.map Prod.fst).Perm (others self ids) → (l.map fun e => F e.2).sum = ((others self ids).map fun id => F (val l id)).sum := by
    intro M _ F l hl
    have hnd : (l.map Prod.fst).Nodup := hl.nodup_iff.mpr hndo
    rw [← (hl.map fun id => F (val l id)).sum_eq, List.map_map]
    congr 1
    apply List.map_congr_left
    rintro ⟨k, v⟩ hkv
    simp only [Function.comp]
    rw [hval hnd k v hkv]
  have hlen : (sum2 f l₁).length = t.toNat + 1 := by
    unfold sum2
    rw [foldl_addOrKeep_length (fun e : ID × Option (Message G) => commOf e.2)]
    simp [Exponent.ofPoly, hflen]
  have heval : ∀ x : Scalar, Spec.evalAt (sum2 f l₁) x = Spec.evalAt f x • (base : G) +
      ((others self ids).map fun k => if (commOf (val l₁ k)).length = t.toNat + 1 then Spec.evalAt (commOf (val l₁ k)) x else 0).sum := by
    intro x
    unfold sum2
    rw [evalAt_foldl_addOrKeep (fun e : ID × Option (Message G) => commOf e.2), Exponent.ofPoly_evalAt]
    congr 1
    have : (Exponent.ofPoly f : Exponent G).length = t.toNat + 1 := by simp [Exponent.ofPoly, hflen]
    rw [this]
    rw [← hsum G (fun v => if (commOf v).length = t.toNat + 1 then Spec.evalAt (commOf v) x else 0) hk1]
    congr 1
    apply List.map_congr_left
    intro e _
    simp only [eq_comm]
  refine ⟨f, fun k => commOf (val l₁ k), fun k => shareOf (val l₂ k), hflen, h2, h5, ?_, ?_, ⟨ids, t, shares, gk⟩, ?_, rfl, rfl,
    ?_, ?_, ?_, sum2 f l₁, hlen, head_eq_evalAt h9, ?_⟩
  · intro id hid
    obtain ⟨v, hv⟩ := ex hk1 id hid
    obtain ⟨w, hw⟩ := ex hk2 id hid
    obtain ⟨g1, g2⟩ := got_of_ready hs h3 h4 hv
    obtain ⟨m, kg, c, h11, h12, h13, h14⟩ := h7 id w hw
    subst h11
    obtain ⟨m', h15, h16, h17, h18, h19⟩ := h6.later (by omega) id _ hw
    cases h15
    rw [e1', e2'] at h19
    have h17 : some (2 : MsgType) = some m.header.type := h17
    rw [hcomms id v hv] at h13
    cases h13
    have hsh : shareOf (some m) = kg.share := by simp [shareOf, h12]
    simp only [hval hnd1 id v hv, hval hnd2 id _ hw]
    refine ⟨g1, g2, ⟨m, kg, h18, h19, h16, (Option.some.inj h17).symm, h12, hsh.symm⟩, ?_⟩
    rw [hsh, h14, e1]
  · rw [h10]
    simp only [output3, e1]
    rw [hsum Scalar shareOf hk2]
  · rw [h10]
    simp only [output3, e2, e3]
  · show gk = _
    rw [head_eq_evalAt h9, heval]
  · intro id hid
    have h0 : (0 : ID) ∉ ids := fun h => h5 0 h rfl
    obtain ⟨m', hm1, hm2⟩ := evaluateMulti_eq (sum2 f l₁) ids h0 []
    rw [e2, hm1] at h8
    cases h8
    rw [hm2, if_pos hid, heval]
  · intro id hid
    have h0 : (0 : ID) ∉ ids := fun h => h5 0 h rfl
    obtain ⟨m', hm1, hm2⟩ := evaluateMulti_eq (sum2 f l₁) ids h0 []
    rw [e2, hm1] at h8
    cases h8
    rw [hm2, if_neg hid]
    rfl
  · intro id hid
    have h0 : (0 : ID) ∉ ids := fun h => h5 0 h rfl
    obtain ⟨m', hm1, hm2⟩ := evaluateMulti_eq (sum2 f l₁) ids h0 []
    rw [e2, hm1] at h8
    cases h8
    rw [hm2, if_pos hid]

/-! ### C38 -/

/-- If key generation succeeds then, for every other participant, the one broadcast accepted from it has commitments `C` and the
share accepted from it matches them: `[z]B = C(self)`.  The secret share is the sum of these shares and of the own value of the
polynomial behind the commitments this session broadcast. -/
theorem C38_shares_match (self : ID) (ids : IDSlice) (t : UInt16) (timeout now : Nat) (s₀ : State G (Round G))
    (h₀ : newKeygenState sha self ids t timeout now = .ok s₀) (hnd : ids.Nodup) {h : List (Op G × Ret G)} {s : State G (Round G)}
    (hh : Hist (impl sha) s₀ h s) (hd : s.done = true) (he : s.err = none) :
    ∃ (f : List Scalar) (π : Schnorr) (own : Scalar) (C : ID → List G) (z : ID → Scalar),
      f.length = t.toNat + 1 ∧ own = Spec.evalAt f self.val ∧
      (∃ ord coins, (Op.processAll ord coins, Ret.messages [Message.newKeyGen1 self π (f.map fun a => a • (base : G))]) ∈ h) ∧
      (∀ id ∈ ids, id ≠ self → Spec.GotCommitments self ids h id (C id) ∧
        (∀ c, Spec.GotCommitments self ids h id c → c = C id) ∧ Spec.GotShare self ids h id (z id) ∧
        z id • (base : G) = Spec.evalAt (C id) self.val) ∧
      s.round.output.secretKey = some ⟨self, own + ((ids.filter (· ≠ self)).map z).sum,
        (own + ((ids.filter (· ≠ self)).map z).sum) • base⟩ := by
  obtain ⟨r₀, hs, rfl⟩ := start_of_new h₀ hnd
  obtain ⟨f, C, z, h1, h2, h3, h4, h5, _⟩ := finished_spec hs ((running hs hh).2 hd he)
  obtain ⟨ord, coins, hf, hsent⟩ := h2
  refine ⟨f, _, Spec.evalAt f self.val, C, z, h1, rfl, ⟨ord, coins, by rwa [show r₀.selfID = self by rw [hs.eq.1]] at hsent⟩, ?_, h5⟩
  intro id hid hne
  obtain ⟨g1, _, g3, g4⟩ := h4 id (mem_others.mpr ⟨hid, hne⟩)
  refine ⟨g1, ?_, g3, g4⟩
  obtain ⟨heq, _⟩ := hs.eq
  have e1 : (impl sha).selfID r₀ = self := by rw [heq]; rfl
  have e2 : (impl sha).partyIDs r₀ = ids := by rw [heq]; rfl
  intro c hc
  obtain ⟨m, k, a1, a2, a3, a4, a5, a6⟩ := g1
  obtain ⟨m', k', b1, b2, b3, b4, b5, b6⟩ := hc
  have huniq := (first_round_unique (impl_stable sha) (r₀ := r₀) (t₀ := 0) (t₁ := 1) (ts := [2]) rfl (by decide) hh).2.2 m m' a1 b1
    (by rw [e1, e2]; exact a2) (by rw [e1, e2]; exact b2) a4 b4 (a3.trans b3.symm)
  subst huniq
  rw [a5] at b5
  cases b5
  rw [← a6, ← b6]

/-! ### C30 -/

theorem process_prefix1 {r r' : Round G} {l : List (ID × Option (Message G))} (hs : r.stage = .r1)
    (hfed : Spec.Fed (impl sha).processMessage r (l.map Prod.snd) r') :
    r'.stage = .r1 := by
  have : ∀ (r r' : Round G) (l : List (Option (Message G))), Spec.Fed (impl sha).processMessage r l r' → r.stage = .r1 → r'.stage = .r1 := by
    intro r r' l hf
    induction hf with
    | nil => exact id
    | cons h1 _ ih =>
      intro hr
      simp only [impl, hr] at h1
      obtain ⟨_, _, _, _, _, _, _, _, _, rfl⟩ := process1_ok.mp h1
      exact ih hr
  exact this _ _ _ hfed hs

theorem process_prefix2 {r r' : Round G} {l : List (ID × Option (Message G))} (hs : r.stage = .r2)
    (hfed : Spec.Fed (impl sha).processMessage r (l.map Prod.snd) r') :
    r'.stage = .r2 ∧ r'.commitments = r.commitments ∧ r'.selfID = r.selfID := by
  have : ∀ (r r' : Round G) (l : List (Option (Message G))), Spec.Fed (impl sha).processMessage r l r' → r.stage = .r2 →
      r'.stage = .r2 ∧ r'.commitments = r.commitments ∧ r'.selfID = r.selfID := by
    intro r r' l hf
    induction hf with
    | nil => exact fun h => ⟨h, rfl, rfl⟩
    | cons h1 _ ih =>
      intro hr
      simp only [impl, hr] at h1
      obtain ⟨_, _, _, _, _, _, _, _, rfl⟩ := process2_ok.mp h1
      exact ih hr
  exact this _ _ _ hfed hs

theorem running_lt_three {r₀ : Round G} {n : Nat} {h : List (Op G × Ret G)} {r : Round G} (hr : Running sha r₀ n h r) : n < 3 := by
  match n, hr with
  | 0, _ | 1, _ | 2, _ => omega

/-- When key generation aborts blaming somebody, that is another participant, from whom a message was accepted that fails the
check of the reported round: in round 1 the proof does not verify, in round 2 the share does not match the commitments accepted
from the same participant.  The reported round is the one that was being processed, in which the session ended. -/
theorem C30_keygen_blame (self : ID) (ids : IDSlice) (t : UInt16) (timeout now : Nat) (s₀ : State G (Round G))
    (h₀ : newKeygenState sha self ids t timeout now = .ok s₀) (hnd : ids.Nodup) {h : List (Op G × Ret G)} {s : State G (Round G)}
    (hh : Hist (impl sha) s₀ h s) (e : StateErr) (he : s.err = some e) (hne : e.partyID ≠ 0) :
    e.partyID ∈ ids ∧ e.partyID ≠ self ∧ e.roundNumber = s.roundNumber ∧
      ((e.roundNumber = 1 ∧ ∃ m k pub, (Op.handle m, Ret.handled none) ∈ h ∧ Spec.ForUs self ids m ∧
          m.header.fromID = e.partyID ∧ m.header.type = 1 ∧ m.keyGen1 = some k ∧ k.commitments[0]? = some pub ∧
          Schnorr.verify sha k.proof e.partyID pub (List.replicate 32 0) = .ok false) ∨
       (e.roundNumber = 2 ∧ ∃ c z, Spec.GotCommitments self ids h e.partyID c ∧ Spec.GotShare self ids h e.partyID z ∧
          z • (base : G) ≠ Spec.evalAt c self.val)) := by
  obtain ⟨r₀, hs, rfl⟩ := start_of_new h₀ hnd
  obtain ⟨heq, _, _, hc⟩ := hs.eq
  have e1 : (impl sha).selfID r₀ = self := by rw [heq]; rfl
  have e2 : (impl sha).partyIDs r₀ = ids := by rw [heq]; rfl
  have hstage : r₀.stage = .r0 := by rw [heq]
  obtain ⟨h₁, op, ret, h₂, s₁, r, hsplit, hh₁, hd₁, he₁, hr₁, hr₂, hreset, hcause⟩ := abort_cause (impl_stable sha) hh e he
  have hmono : ∀ {x}, x ∈ h₁ → x ∈ h := fun hx => hsplit ▸ List.mem_append_left _ hx
  have hrun := (running hs hh₁).1 hd₁
  cases hcause with
  | timeout _ h0 => exact absurd h0 hne
  | generate ord coins r₁ e' _ _ hg =>
    exfalso
    simp only [impl] at hg
    split at hg
    · exact noErr_generate0 _ _ _ _ hg
    · exact noErr_generate1 _ _ hg
    · exact noErr_generate2 _ _ hg
  | process ord coins l₁ l₂ k m r' e' hfull hl hfed hp hpe =>
    have hready := ready (impl_stable sha) hh₁ (by rw [e2]; exact hnd) (by rw [e1, e2]; exact IDSlice.contains_sound hc) hd₁ hfull ord
    have hkm : (k, m) ∈ ord.order _ s₁.received := by rw [hl]; exact List.mem_append_right _ List.mem_cons_self
    have hlt := running_lt_three hrun
    by_cases hn0 : s₁.roundNumber = 0
    · exfalso
      rw [hn0] at hrun
      have hrun : s₁.round = r₀ := hrun
      have : ∀ (r r' : Round G) (l : List (Option (Message G))), Spec.Fed (impl sha).processMessage r l r' → r.stage = .r0 → r'.stage = .r0 := by
        intro r r' l hf
        induction hf with
        | nil => exact id
        | cons h1 _ ih =>
          intro hr
          simp only [impl, hr] at h1
          cases h1
          exact ih hr
      have hst := this _ _ _ hfed (by rw [hrun]; exact hstage)
      simp only [impl, hst] at hp
      cases hp
    · obtain ⟨msg, rfl, hfrom, hty, hhand, hfor⟩ := hready.later hn0 k m hkm
      rw [e1, e2] at hfor
      have hty : [MsgType.none, MsgType.keyGen1, MsgType.keyGen2][s₁.roundNumber]? = some msg.header.type := hty
      rcases (by omega : s₁.roundNumber = 1 ∨ s₁.roundNumber = 2) with hn | hn
      · rw [hn] at hrun hty
        obtain ⟨f, _, _, _, hround⟩ := hrun
        have hst := process_prefix1 (by rw [hround]; rfl) hfed
        simp only [impl, hst] at hp
        obtain ⟨m', kg, c, hm', hk, hc', hS, rfl, rfl⟩ := process1_err.mp hp
        cases hm'
        have hpid : e.partyID = msg.header.fromID := hpe
        refine ⟨hpid ▸ hfor.2.1, hpid ▸ hfor.1, by rw [hr₁, hr₂], Or.inl ⟨by rw [hr₁, hn], msg, kg, c, hmono hhand, hfor, hpid.symm,
          (Option.some.inj hty).symm, hk, hc', ?_⟩⟩
        have := verify_eq sha kg.proof e.partyID c
        rw [show ctx = List.replicate 32 0 from rfl] at this
        rw [this]
        simp [hS]
      · rw [hn] at hrun hty
        obtain ⟨f, l', _, _, _, hready', hvalid, _, _, hround⟩ := hrun
        obtain ⟨hst, hcomm, hself⟩ := process_prefix2 (by rw [hround]; rfl) hfed
        simp only [impl, hst] at hp
        obtain ⟨m', kg, c, hm', hk, hc', _, hne', rfl, rfl⟩ := process2_err.mp hp
        cases hm'
        have hpid : e.partyID = msg.header.fromID := hpe
        rw [hcomm, hround] at hc'
        have hc' : (comms2 l').get? msg.header.fromID = some c := hc'
        have hnd' : (l'.map Prod.fst).Nodup := by
          refine hready'.keys.nodup_iff.mpr ?_
          rw [e1, e2]
          exact hnd.filter _
        unfold comms2 at hc'
        rw [Keygen.get?_foldl_set commOf l' [] hnd'] at hc'
        cases hfind : l'.find? (fun e => e.1 = msg.header.fromID) with
        | none => rw [hfind] at hc'; cases hc'
        | some x =>
          rw [hfind] at hc'
          obtain ⟨k', v'⟩ := x
          have hx1 := List.mem_of_find?_eq_some hfind
          have hx2 : k' = msg.header.fromID := by simpa using List.find?_some hfind
          cases hc'
          obtain ⟨m1, k1, b1, b2, b3, b4, b5, b6⟩ := (got_of_ready hs hready' hvalid hx1).1
          refine ⟨hpid ▸ hfor.2.1, hpid ▸ hfor.1, by rw [hr₁, hr₂], Or.inr ⟨by rw [hr₁, hn], commOf v', kg.share, ?_, ?_, ?_⟩⟩
          · exact ⟨m1, k1, hmono b1, b2, by rw [b3, hx2, hpid], b4, b5, b6⟩
          · exact ⟨msg, kg, hmono hhand, hfor, hpid.symm, (Option.some.inj hty).symm, hk, rfl⟩
          · rw [hself, hround] at hne'
            have : (round2 r₀ f l').selfID = self := e1
            rw [this] at hne'
            exact hne'

end Verif.Props
