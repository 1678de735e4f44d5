import Verif.Props.SignNet
import Verif.Props.SignBlame
import Verif.Lemmas.Forward

/-!
C128: the last signer to speak can keep the signature for itself.  Concrete cases are in `Verif/Cases/Unfair.lean`.
-/

namespace Verif.Props

open Verif State Outcome Polynomial

variable {G R : Type} [RGroup G] {sha : Sha512}

/-- A session up to its last round, when all messages of the first one have arrived. -/
theorem honest_reaches {impl : RoundImpl G R} {ids : IDSlice} {r₀ : ID → R} {coins : ID → Coins} {M : Nat → ID → ID → Message G}
    {out : ID → Nat → List (Message G)} {Good : ID → Nat → R → Prop} {t₀ t₁ t₂ : MsgType} (H : Honest impl ids r₀ coins M out Good [t₀, t₁, t₂])
    {i : ID} (hi : i ∈ ids) (timeout now : Nat) :
    ∃ s, Hist impl (newBaseState impl (r₀ i) timeout now)
        ([(.processAll .insertion (coins i), .messages (out i 0))] ++ (others i ids).map (fun k => (.handle (M 1 k i), .handled none)) ++
          [(.processAll .insertion (coins i), .messages (out i 1))]) s ∧
      s.done = false ∧ s.closed = false ∧ s.err = none ∧ s.roundNumber = 2 ∧ s.received = [] ∧ s.queue = [] ∧ s.acceptedTypes = [t₂] ∧
      Good i 2 s.round := by
  have hndo : (others i ids).Nodup := H.nodup.filter _
  have hl : (others i ids).length = (IDSlice.N ids - 1).toNat := others_length H.nodup hi
  let s₀ := newBaseState impl (r₀ i) timeout now
  -- round 0
  have hkeys : ((initReceived i ids ([] : GoMap (Option (Message G)))).map Prod.fst).Perm (others i ids) := by
    refine (List.perm_ext_iff_of_nodup (wf_initReceived (G := G) i ids [] GoMap.wf_nil) hndo).mpr fun k => ?_
    rw [mem_others, mem_initReceived]
    simp
  have hrec : s₀.received = initReceived i ids [] := by
    show initReceived _ _ _ = _
    rw [H.self i hi, H.parties i hi]
  obtain ⟨r₁, r₂, a1, a2, a3, _⟩ := H.step i hi 0 (r₀ i) (by omega) (H.good0 i hi) s₀.received (by rw [hrec]; exact hkeys)
    (by intro _ k v hkv; rw [hrec] at hkv; exact initReceived_none i ids [] (by simp) k v hkv) (fun h => absurd rfl h) .insertion (coins i) (fun _ => rfl)
  obtain ⟨r₃, a3, a4⟩ := a3 (by omega)
  have htys : s₀.acceptedTypes = [t₀, t₁, t₂] := H.types i hi
  let s₁ : State G R := { s₀ with received := [], queue := [], acceptedTypes := [t₁, t₂], roundNumber := 1, round := r₃ }
  have p0 : step impl s₀ (.processAll .insertion (coins i)) = some (s₁, .messages (out i 0)) := by
    have : processAll impl .insertion (coins i) s₀ = some (s₁, out i 0) := by
      rw [processAll_iff]
      refine .next t₀ [t₁, t₂] r₁ r₂ r₃ _ rfl ?_ a1 a2 htys a3
      show s₀.received.length = (IDSlice.N (impl.partyIDs (r₀ i)) - 1).toNat
      rw [hrec, H.parties i hi, ← hl, ← hkeys.length_eq, List.length_map]
    show Option.map _ (processAll impl .insertion (coins i) s₀) = _
    rw [this]; rfl
  -- deliveries
  have inv₁ := inv_hist H.stable (Hist.one p0)
  have e1 : impl.selfID s₁.round = i := by rw [inv₁.self, H.self i hi]
  have e2 : impl.partyIDs s₁.round = ids := by rw [inv₁.ids, H.parties i hi]
  have hM : ∀ k ∈ others i ids, (M 1 k i).header.fromID = k ∧ (M 1 k i).header.type = t₁ ∧ ((M 1 k i).header.toID = 0 ∨ (M 1 k i).header.toID = i) := by
    intro k hk
    obtain ⟨hk, hne⟩ := mem_others.mp hk
    obtain ⟨b1, b2⟩ := H.out_mem k hk i hi (Ne.symm hne) 0 (by omega)
    obtain ⟨b3, b4, _⟩ := H.out_spec k hk 0 (by omega) _ b1
    exact ⟨b3, (Option.some.inj b4).symm, b2⟩
  obtain ⟨tm, d1⟩ := deliver_all (impl := impl) (t := t₁) (ts := [t₂]) ((others i ids).map fun k => M 1 k i) (s := s₁) rfl rfl
    (by
      intro m hm
      obtain ⟨k, hk, rfl⟩ := List.mem_map.mp hm
      obtain ⟨b1, b2, b3⟩ := hM k hk
      rw [e1, e2]
      exact ⟨Keygen.relevant_of H.sorted (by rw [b1]; exact hk) b3, b2⟩)
    (by
      rw [List.map_map, List.map_congr_left (g := id) (fun k hk => by simp [(hM k hk).1]), List.map_id]
      exact hndo)
    (by intro m hm; simp [s₁])
  let l₁ : List (ID × Option (Message G)) := (others i ids).map fun k => (k, some (M 1 k i))
  have hmap : s₁.received ++ (((others i ids).map fun k => M 1 k i).map fun m => (m.header.fromID, some m)) = l₁ := by
    show [] ++ _ = _
    rw [List.nil_append, List.map_map]
    exact List.map_congr_left fun k hk => by simp [(hM k hk).1]
  rw [hmap, List.map_map] at d1
  let s₂ : State G R := { s₁ with timer := tm, received := l₁ }
  -- round 1
  obtain ⟨q₁, q₂, c1, c2, c3, _⟩ := H.step i hi 1 r₃ (by omega) a4 l₁
    (by rw [show l₁.map Prod.fst = others i ids by simp [l₁, Function.comp_def]])
    (fun h => absurd h (by omega))
    (by
      intro _ k v hkv
      obtain ⟨k', _, he⟩ := List.mem_map.mp hkv
      cases he; rfl) .insertion (coins i) (fun _ => rfl)
  obtain ⟨q₃, c3, c4⟩ := c3 (by omega)
  let s₃ : State G R := { s₂ with received := [], queue := [], acceptedTypes := [t₂], roundNumber := 2, round := q₃ }
  have p1 : step impl s₂ (.processAll .insertion (coins i)) = some (s₃, .messages (out i 1)) := by
    have : processAll impl .insertion (coins i) s₂ = some (s₃, out i 1) := by
      rw [processAll_iff]
      refine .next t₁ [t₂] q₁ q₂ q₃ _ rfl ?_ c1 c2 rfl c3
      show l₁.length = (IDSlice.N (impl.partyIDs s₁.round) - 1).toNat
      rw [e2, ← hl]; simp [l₁]
    show Option.map _ (processAll impl .insertion (coins i) s₂) = _
    rw [this]; rfl
  exact ⟨s₃, ((Hist.one p0).trans d1).trans (Hist.one p1), rfl, rfl, rfl, rfl, rfl, rfl, rfl, c4⟩

/-- The loop of the last round stops at the one share that is wrong. -/
theorem loop2_cheat {a : ID} {l : List (ID × Option (Message G))} {r : Sign.Round G} (hs : r.stage = .r2)
    (hl : ∀ k v, (k, v) ∈ l → ∃ m z p Ri, v = some m ∧ m.header.fromID = k ∧ m.sign2 = some z ∧ r.parties.get? k = some p ∧ p.Ri = some Ri ∧
      (z.Zi • (base : G) = Ri + r.C • p.pub ↔ k ≠ a)) (hnd : (l.map Prod.fst).Nodup) (ha : a ∈ l.map Prod.fst) :
    ∃ r', processLoop (Sign.impl sha) l r = .err (.new a .badSigShare, r') ∧ r'.output = r.output := by
  induction l generalizing r with
  | nil => cases ha
  | cons x l ih =>
    obtain ⟨k, v⟩ := x
    obtain ⟨m, z, p, Ri, rfl, rfl, h1, h2, h3, h4⟩ := hl k v List.mem_cons_self
    have himpl : (Sign.impl sha).processMessage r (some m) = Sign.process2 r (some m) := by simp only [Sign.impl]; rw [hs]
    unfold processLoop
    rw [himpl]
    by_cases hk : m.header.fromID = a
    · rw [Sign.process2_err.mpr ⟨m, z, p, Ri, rfl, h2, h1, h3, fun h => h4.mp h hk, rfl, rfl⟩]
      exact ⟨r, by rw [hk], rfl⟩
    · rw [Sign.process2_ok.mpr ⟨m, z, p, Ri, rfl, h2, h1, h3, h4.mpr hk, rfl⟩]
      rw [List.map_cons, List.nodup_cons] at hnd
      refine ih (r := { r with parties := r.parties.set m.header.fromID { p with Zi := z.Zi } }) hs ?_ hnd.2 ?_
      · intro k v hkv
        obtain ⟨m', z', p', Ri', b1, b2, b3, b4, b5⟩ := hl k v (List.mem_cons_of_mem _ hkv)
        refine ⟨m', z', p', Ri', b1, b2, b3, ?_, b5⟩
        simp only []
        rw [GoMap.get?_set_ne _ _ (by intro he; exact hnd.1 (he ▸ List.mem_map.mpr ⟨_, hkv, rfl⟩))]
        exact b4
      · rcases List.mem_cons.mp ha with h | h
        · exact absurd h.symm hk
        · exact h

/-- The calls of signer `j`, and what they return, in a session where everybody's messages of the first round arrive, then shares `given`. -/
def Spec.signRun (ids : IDSlice) (coins : ID → Coins) (j : ID) (own : Scalar) (given : ID → Scalar) : List (Op G × Ret G) :=
  let com := fun k : ID => (Message.newSign1 k (coins k 0 • base) (coins k 1 • base) : Message G)
  let others := ids.filter (· ≠ j)
  [(.processAll .insertion (coins j), .messages [com j])] ++ others.map (fun k => (.handle (com k), .handled none)) ++
    [(.processAll .insertion (coins j), .messages [.newSign2 j own])] ++
    (others.map (fun k => (.handle (.newSign2 k (given k)), .handled none)) ++ [(.processAll .insertion (coins j), .messages [])])

section

open Sign

variable {ids : IDSlice} {t : UInt16} {F : Scalar[X]} {message : Bytes} {secret : ID → SecretShare G} {pub : ID → Public G}
  {timeout now : ID → Nat} {init : ID → State G (Sign.Round G)}

/-- C128, refuted: signing does not end alike for those who follow the protocol.  Let `a` be the last one to speak.  There are shares `z`,
those that everyone computes, that add up to a valid signature, so that `a` has it as soon as the shares of the others arrived.  For any
set `V` of its choice: every other signer `j` who is given the share of `a` gets this signature; every one in `V`, who is given
another number, ends with an error, no signature and an empty round, having sent its own share already. -/
theorem C128_alike_refuted (hs : Spec.SignSetup sha ids t F message secret pub timeout now init) (coins : ID → Coins)
    (hcoins : ∀ i ∈ ids, coins i 0 ≠ 0 ∧ coins i 1 ≠ 0) {a : ID} (ha : a ∈ ids) :
    ∃ (z : ID → Scalar) (sig : Signature G), sig.S = (ids.map z).sum ∧
      sig.R = Spec.groupNonce sha ids message (fun k => coins k 0 • (base : G)) (fun k => coins k 1 • (base : G)) ∧
      PublicKey.verify sha (F.eval 0 • (base : G)) message sig = .ok true ∧
      ∀ (V : ID → Prop) (w : ID → Scalar), (∀ j, V j → w j ≠ z a) → (∀ j, ¬ V j → w j = z a) → ∀ j ∈ ids, j ≠ a →
        ∃ s, Hist (Sign.impl sha) (init j) (Spec.signRun ids coins j (z j) (fun k => if k = a then w j else z k)) s ∧ s.done = true ∧
          (V j → s.err = some ⟨a, 2, .badSigShare⟩ ∧ s.round.output.signature = none) ∧
          (¬ V j → s.err = none ∧ s.round.output.signature = some sig) := by
  obtain ⟨r₀, hr₀, H, hN⟩ := signNetInv hs coins hcoins
  have hinit : ∀ j ∈ ids, init j = newBaseState (Sign.impl sha) (r₀ j) (timeout j) (now j) := by
    intro j hj
    have hnil : ∀ {s s' : State G (Sign.Round G)} {h}, Hist (Sign.impl sha) s h s' → h = [] → s' = s := by
      intro s s' h hh he
      cases hh with
      | nil => rfl
      | _ => simp at he
    exact hnil ((hN _ (.refl _)).hist j hj) rfl
  refine ⟨honestZ (G := G) sha ids message F coins,
    ⟨Spec.groupNonce sha ids message (honestD coins) (honestE coins), (ids.map (honestZ (G := G) sha ids message F coins)).sum⟩, rfl, rfl,
    honest_valid hs.nodup message (lt_of_le_of_lt hs.degree hs.enough) coins, ?_⟩
  intro V w hw hw' j hj hja
  obtain ⟨s, h1, hdone, hclosed, herr, hrn, hrec, hq, hty, hgood⟩ := honest_reaches H hj (timeout j) (now j)
  rw [← hinit j hj] at h1
  have inv := inv_hist H.stable (hinit j hj ▸ h1)
  have e1 : (Sign.impl sha).selfID s.round = j := by rw [inv.self, H.self j hj]
  have e2 : (Sign.impl sha).partyIDs s.round = ids := by rw [inv.ids, H.parties j hj]
  have hndo : (others j ids).Nodup := H.nodup.filter _
  have hlen : (others j ids).length = (IDSlice.N ids - 1).toNat := others_length H.nodup hj
  let g : ID → Scalar := fun k => if k = a then w j else honestZ (G := G) sha ids message F coins k
  let M : ID → Message G := fun k => .newSign2 k (g k)
  obtain ⟨tm, d1⟩ := deliver_all (impl := Sign.impl sha) (t := 4) (ts := []) ((others j ids).map M) (s := s) hdone hty
    (by
      intro m hm
      obtain ⟨k, hk, rfl⟩ := List.mem_map.mp hm
      rw [e1, e2]
      exact ⟨Keygen.relevant_of H.sorted hk (Or.inl rfl), rfl⟩)
    (by
      rw [List.map_map, show ((fun m : Message G => m.header.fromID) ∘ M) = id from rfl, List.map_id]
      exact hndo)
    (by intro m hm; simp [hrec])
  let l : List (ID × Option (Message G)) := (others j ids).map fun k => (k, some (M k))
  have hmap : s.received ++ (((others j ids).map M).map fun m => (m.header.fromID, some m)) = l := by
    rw [hrec, List.nil_append, List.map_map]
    rfl
  have hlk : l.map Prod.fst = others j ids := by simp [l, Function.comp_def]
  have hmem : ∀ k v, (k, v) ∈ l → (k ∈ ids ∧ k ≠ j) ∧ v = some (M k) := by
    intro k v hkv
    obtain ⟨k', hk', he⟩ := List.mem_map.mp hkv
    cases he
    exact ⟨mem_others.mp hk', rfl⟩
  rw [hmap, List.map_map] at d1
  let s₂ : State G (Sign.Round G) := { s with timer := tm, received := l }
  have hfull : Full (Sign.impl sha) s₂ := by
    show l.length = (IDSlice.N ((Sign.impl sha).partyIDs s.round) - 1).toNat
    rw [e2, ← hlen]; simp [l]
  have hstep : ∀ {s' : State G (Sign.Round G)} {o}, processAll (Sign.impl sha) .insertion (coins j) s₂ = some (s', o) →
      step (Sign.impl sha) s₂ (.processAll .insertion (coins j)) = some (s', .messages o) := by
    intro s' o p
    show Option.map _ (processAll (Sign.impl sha) .insertion (coins j) s₂) = _
    rw [p]; rfl
  by_cases hV : V j
  · obtain ⟨D, E, parties, hag, hparts, hround⟩ := hgood
    obtain ⟨hstage, q1, q2, q3, q4, q5, hout, hnone, _⟩ := (hr₀ j hj).eq
    rw [hs.group j hj] at q4
    have hP : ∀ k ∈ ids, pubOf (pub j) ids k = ID.lagrangeVal k ids • F.eval k.val • (base : G) := by
      intro k hk
      rw [pubOf, hs.shares j hj k hk]; rfl
    obtain ⟨r', hloop, hr'⟩ := loop2_cheat (sha := sha) (a := a) (l := l) (r := s.round) (by rw [hround]; rfl)
      (by
        intro k v hkv
        obtain ⟨⟨hk, hkj⟩, rfl⟩ := hmem k v hkv
        refine ⟨M k, _, _, _, rfl, rfl, rfl, by rw [hround]; exact hparts.get k hk, rfl, ?_⟩
        have hc : honestZ (G := G) sha ids message F coins k • (base : G) = Spec.nonce sha (r₀ j).partyIDs (r₀ j).message D E k +
            Spec.chal sha (r₀ j).partyIDs (r₀ j).message (r₀ j).groupKey D E • pubOf (pub j) ids k := by
          rw [honestZ_check, q2, q3, q4, chal_congr hag, Sign.nonce_congr hag k hk, hP k hk]
        rw [hround]
        show g k • (base : G) = Spec.nonce sha (r₀ j).partyIDs (r₀ j).message D E k +
            Spec.chal sha (r₀ j).partyIDs (r₀ j).message (r₀ j).groupKey D E • pubOf (pub j) ids k ↔ _
        rw [← hc]
        by_cases hka : k = a
        · subst hka
          simp only [g, if_pos, ne_eq, not_true_eq_false, iff_false]
          exact fun h => hw j hV (smul_base_injective (G := G) h)
        · simp only [g, if_neg hka, ne_eq, hka, not_false_eq_true])
      (by rw [hlk]; exact hndo) (by rw [hlk]; exact mem_others.mpr ⟨ha, Ne.symm hja⟩)
    have p := (processAll_iff (impl := Sign.impl sha) (ord := .insertion) (coins := coins j) (s := s₂)).mpr (.processErr _ _ _ hdone hfull hloop rfl hclosed)
    have p' := hstep p
    refine ⟨_, h1.trans (d1.trans (Hist.one p')), rfl, fun _ => ⟨?_, ?_⟩, fun h => absurd hV h⟩
    · show some (s.err.getD _) = _
      rw [herr, hrn]; rfl
    · show r'.output.signature = none
      rw [hr', hround]
      show (r₀ j).output.signature = none
      rw [hnone]
  · have hg : ∀ k, g k = honestZ (G := G) sha ids message F coins k := by
      intro k
      by_cases hka : k = a
      · subst hka; simp only [g, if_pos]; exact hw' j hV
      · simp only [g, if_neg hka]
    obtain ⟨r₁, r₂, c1, c2, _, c3⟩ := H.step j hj 2 s.round (by omega) hgood l (by rw [hlk]) (fun h => absurd h (by omega))
      (by
        intro _ k v hkv
        obtain ⟨_, rfl⟩ := hmem k v hkv
        simp only [M, hg]
        rfl) .insertion (coins j) (fun h => absurd h (by omega))
    obtain ⟨c3, r₃, c4⟩ := c3 rfl
    rw [H.out_last j hj] at c2
    have p := (processAll_iff (impl := Sign.impl sha) (ord := .insertion) (coins := coins j) (s := s₂)).mpr (.last 4 [] _ _ _ _ hdone hfull c1 c2 hty c3 c4 hclosed)
    have p' := hstep p
    have hh := h1.trans (d1.trans (Hist.one p'))
    refine ⟨_, hh, rfl, fun h => absurd h hV, fun _ => ⟨herr, ?_⟩⟩
    rw [hinit j hj] at hh
    obtain ⟨D, E, z, h1, h2, h3, h4, _⟩ := sign_finished_spec (hr₀ j hj) ((Sign.running (hr₀ j hj) hh).2 rfl herr)
    rw [hs.owner j hj] at h1 h2 h3
    rw [hs.group j hj] at h2 h3
    have hhandled : ∀ m, (Op.handle m, Ret.handled none) ∈ Spec.signRun (G := G) ids coins j (honestZ (G := G) sha ids message F coins j) g →
        ∃ k, m = .newSign1 k (honestD coins k) (honestE coins k) ∨ m = .newSign2 k (g k) := by
      intro m hm
      simp only [Spec.signRun, List.mem_append, List.mem_singleton, List.mem_map, Prod.mk.injEq, reduceCtorEq, false_or, or_false, and_false] at hm
      rcases hm with ⟨k, _, h, _⟩ | ⟨k, _, h, _⟩
      · exact ⟨k, Or.inl (Op.handle.inj h).symm⟩
      · exact ⟨k, Or.inr (Op.handle.inj h).symm⟩
    have hag : ∀ k ∈ ids, D k = honestD coins k ∧ E k = honestE coins k := by
      intro k hk
      by_cases hki : k = j
      · subst hki
        obtain ⟨⟨ord, c, _, _, h5⟩, _⟩ := h1
        replace h5 : _ ∈ Spec.signRun (G := G) ids coins k (honestZ (G := G) sha ids message F coins k) g := h5
        simp only [Spec.signRun, List.mem_append, List.mem_singleton, List.mem_map, Prod.mk.injEq, reduceCtorEq, false_or, or_false, and_false, exists_false] at h5
        have h6 : ∀ {m m' : Message G}, Ret.messages [m] = Ret.messages [m'] → m.sign1 = m'.sign1 := by
          intro m m' h; cases h; rfl
        rcases h5 with (⟨_, h⟩ | ⟨_, h⟩) | ⟨_, h⟩
        · have := Option.some.inj (h6 h)
          exact ⟨congrArg Sign1.Di this, congrArg Sign1.Ei this⟩
        · cases h6 h
        · cases h
      · obtain ⟨m, kk, g1, _, g3, g4, g5, g6, g7, _⟩ := h1.2 k hk hki
        obtain ⟨k', rfl | rfl⟩ := hhandled m g1
        · cases g3
          rw [← g6, ← g7, ← Option.some.inj g5]
          exact ⟨rfl, rfl⟩
        · cases g4
    have hz : ∀ k ∈ ids, z k = honestZ (G := G) sha ids message F coins k := by
      intro k hk
      by_cases hki : k = j
      · subst hki
        apply smul_base_injective (G := G)
        rw [h3, honestZ_check, chal_congr hag, Sign.nonce_congr hag k hk, weight_eq, hs.value k hk]
        rfl
      · obtain ⟨⟨m, kk, g1, _, g3, g4, g5, g6⟩, _⟩ := h2 k hk hki
        obtain ⟨k', rfl | rfl⟩ := hhandled m g1
        · cases g4
        · cases g3
          rw [← g6, ← Option.some.inj g5]
          exact hg k'
    rw [h4, groupNonce_congr hag, List.map_congr_left hz]

end

end Verif.Props
