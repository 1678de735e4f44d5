import Verif.Props.Agree
import Verif.Props.SignAgree
import Verif.Props.Once
import Verif.Props.SignNet

/-!
C97: messages carry no identifier of the session they belong to (`pkg/messages/header.go:12-24`), so what was sent in one session is accepted in another.
-/

namespace Verif.Props

open Verif State

variable {G : Type} [RGroup G] {sha : Sha512} {R : Type} {impl : RoundImpl G R}

/-! ### A replayed message takes the place of the genuine one -/

/-- C97: a session takes the first message of the current type that names a party as its sender, and refuses all others of that sender in this round. -/
theorem C97_first_comes (s : State G R) (m : Message G) (hsorted : (impl.partyIDs s.round).Pairwise (· ≤ ·)) (hd : s.done = false)
    (hus : Spec.ForUs (impl.selfID s.round) (impl.partyIDs s.round) m) (hnone : s.received.get? m.header.fromID = none)
    (hty : s.acceptedTypes.head? = some m.header.type) :
    ∃ s', State.step impl s (.handle m) = some (s', .handled none) ∧ s'.received.get? m.header.fromID = some (some m) ∧
      ∀ m' : Message G, m'.header.fromID = m.header.fromID → (m'.header.toID = 0 ∨ m'.header.toID = impl.selfID s.round) →
        ∃ e, State.step impl s' (.handle m') = some (s', .handled (some e)) := by
  have hk : m.header.fromID ∉ s.received.keys := by
    intro hc
    obtain ⟨v, hv⟩ := GoMap.mem_keys_iff.mp hc
    rw [hnone] at hv
    cases hv
  rcases hh : handleMessage impl s m with ⟨s', e⟩
  cases handle_cases impl hh with
  | finished h => rw [hd] at h; cases h
  | noMore _ h => rw [h] at hty; cases hty
  | fromSelf _ h => exact absurd h hus.1
  | notForUs _ _ h4 h5 => exact absurd hus.2.2 (not_or.mpr ⟨h4, h5⟩)
  | notAParty _ _ h => rw [IDSlice.contains_complete hsorted hus.2.1] at h; cases h
  | already _ _ h => exact absurd h hk
  | badType _ _ h => exact absurd (List.mem_of_head? hty) h
  | queued _ _ _ _ h => exact absurd hty h
  | stored =>
    have hg : GoMap.get? (GoMap.set s.received m.header.fromID (some m)) m.header.fromID = some (some m) := GoMap.get?_set_same ..
    refine ⟨_, by rw [State.step, hh], hg, ?_⟩
    intro m' hf ht
    obtain ⟨e, he⟩ := C26_second_refused (impl := impl) { s with timer := s.timer.ackMessage, received := s.received.set m.header.fromID (some m) } m.header.fromID m m'
      (GoMap.mem_of_get? hg) hf hus.1 ht
    exact ⟨e, by rw [State.step, he]⟩

/-- C97, refuted: the commitments that a signer `b` has sent in some other session, for another message, with other signers, with another key, are accepted by
a session that waits for commitments of `b`, and then those that `b` sends in this session are refused. -/
theorem C97_sign_replay (a b : SecretShare G) (shares shares' : Public G) (ids ids' : IDSlice) (message message' : Bytes) (ta na tb nb : Nat)
    (sa sb : State G (Sign.Round G)) (hsa : Sign.newSignState sha ids a shares message ta na = .ok sa) (hsorted : ids.Pairwise (· < ·))
    (hsb : Sign.newSignState sha ids' b shares' message' tb nb = .ok sb) (hnd' : ids'.Nodup)
    {ha hb : List (Op G × Ret G)} {sa' sb' : State G (Sign.Round G)} (hha : Hist (Sign.impl sha) sa ha sa') (hhb : Hist (Sign.impl sha) sb hb sb')
    (hab : b.id ≠ a.id) (hb' : b.id ∈ ids) (hd : sa'.done = false) (hn : sa'.roundNumber = 1) (hnone : sa'.received.get? b.id = none)
    (old : Message G) (hold : old ∈ Spec.emitted hb) (ht : old.header.type = 3) :
    ∃ s, State.step (Sign.impl sha) sa' (.handle old) = some (s, .handled none) ∧ s.received.get? b.id = some (some old) ∧
      ∀ D E, ∃ e, State.step (Sign.impl sha) s (.handle (Message.newSign1 b.id D E)) = some (s, .handled (some e)) := by
  have hnd : ids.Nodup := hsorted.imp fun {a b} h e => by subst e; exact absurd h (by simp)
  obtain ⟨D₀, E₀, rfl⟩ : ∃ D E, old = Message.newSign1 b.id D E := by
    rcases C47_at_most_one_share b shares' ids' message' tb nb sb hsb hnd' hhb with h | ⟨D, E, h⟩ | ⟨D, E, z, h⟩ <;> rw [h] at hold
    · cases hold
    · exact ⟨D, E, List.mem_singleton.mp hold⟩
    · rcases List.mem_cons.mp hold with rfl | h'
      · exact ⟨D, E, rfl⟩
      · rw [List.mem_singleton.mp h'] at ht
        exact absurd ht (by simp only [Message.newSign2]; decide)
  obtain ⟨r₀, hs, rfl⟩ := sign_start_of_new hsa hnd
  have hi := inv_hist (Sign.impl_stable sha) hha
  obtain ⟨_, e1, e2, _⟩ := hs.eq
  have e1 : (Sign.impl sha).selfID sa'.round = a.id := hi.self.trans e1
  have e2 : (Sign.impl sha).partyIDs sa'.round = ids := hi.ids.trans e2
  obtain ⟨s, h1, h2, h3⟩ := C97_first_comes (impl := Sign.impl sha) sa' (Message.newSign1 b.id D₀ E₀) (by rw [e2]; exact hsorted.imp fun h => UInt16.le_of_lt h) hd
    (by rw [e1, e2]; exact ⟨hab, hb', Or.inl rfl⟩) hnone (by rw [hi.types, used, hd, hn]; rfl)
  exact ⟨s, h1, h2, fun D E => h3 _ rfl (Or.inl rfl)⟩

/-- C97: when exactly a signature share of `b`, made in some session, is accepted by `a` in another session. -/
theorem C97_share_accepted_iff (a b : SecretShare G) (shares shares' : Public G) (ids ids' : IDSlice) (message message' : Bytes) (ta na tb nb : Nat)
    (sa sb : State G (Sign.Round G)) (hsa : Sign.newSignState sha ids a shares message ta na = .ok sa) (hnd : ids.Nodup)
    (hsb : Sign.newSignState sha ids' b shares' message' tb nb = .ok sb) (hnd' : ids'.Nodup) (hX : shares'.shares.get? b.id = some (b.secret • base))
    {ha hb : List (Op G × Ret G)} {sa' sb' : State G (Sign.Round G)} (hha : Hist (Sign.impl sha) sa ha sa') (hhb : Hist (Sign.impl sha) sb hb sb')
    (hb' : b.id ∈ ids) (hd : sa'.done = false) (hn : sa'.roundNumber = 2) (m : Message G) (hm : m ∈ Spec.emitted hb) (z : Sign2) (hz : m.sign2 = some z)
    (D E D' E' : ID → G) (hc : Spec.Commitments a.id ids ha D E) (hc' : Spec.Commitments b.id ids' hb D' E')
    (msgs : List (Option (Message G))) (r : Sign.Round G) (hfed : Spec.Fed (Sign.impl sha).processMessage sa'.round msgs r) :
    let made := Spec.nonce sha ids' message' D' E' b.id + Spec.chal sha ids' message' shares'.groupKey D' E' • Spec.weightedShare shares' ids' b.id
    let asked := Spec.nonce sha ids message D E b.id + Spec.chal sha ids message shares.groupKey D E • Spec.weightedShare shares ids b.id
    (made = asked → ∃ r', (Sign.impl sha).processMessage r (some m) = .ok r') ∧
    (made ≠ asked → ∃ e, (Sign.impl sha).processMessage r (some m) = .err (e, r) ∧ e.partyID = b.id) := by
  intro made asked
  obtain ⟨hmeq, D₂, E₂, h1, h2⟩ := C45_sent_share_valid b shares' ids' message' tb nb sb hsb hnd' hX hhb m z hm hz
  obtain ⟨D₁, E₁, h3, h4⟩ := C45_share_accepted_iff a shares ids message ta na sa hsa hnd hha hd hn
  have hs1 := C26_sign_commitments a shares ids message ta na sa hsa hnd hha _ _ _ _ h3 hc
  have hs2 := C26_sign_commitments b shares' ids' message' tb nb sb hsb hnd' hhb _ _ _ _ h1 hc'
  have hfrom : m.header.fromID = b.id := by rw [hmeq]; rfl
  have hbm := (C42_accepted b shares' ids' message' tb nb sb hsb).1
  have h5 := h4 msgs r hfed m z (by rw [hfrom]; exact hb') hz
  rw [h2, hfrom, Sign.nonce_congr hs1 _ hb', Sign.chal_congr hs1, Sign.nonce_congr hs2 _ hbm, Sign.chal_congr hs2] at h5
  exact h5

namespace Demo

/-- The messages that a session was given. -/
def handledIn (h : List (Op Toy × Ret Toy)) : List (Message Toy) := h.filterMap fun x => match x with
  | (.handle m, _) => some m
  | _ => none

theorem mem_handledIn {h : List (Op Toy × Ret Toy)} {m : Message Toy} {r : Ret Toy} (hm : (Op.handle m, r) ∈ h) : m ∈ handledIn h :=
  List.mem_filterMap.mpr ⟨_, hm, rfl⟩

/-- What party 2 answers in the session of `C97_framed_by_replay`. -/
def replayZ2 : Scalar := -43682

end Demo

open Demo in
/-- C97, refuted: an honest signer is blamed although nobody cheats and everything that is delivered was sent by the party it names.  Parties 1, 2 and 3 sign;
party 1 is given the commitments 15, 16 that party 2 sent in an earlier session (`h₀`), which is all that the network does.  Party 1 refuses what party 2 now
sends, and ends by blaming party 2 or party 3, depending on the order of the map, for the share that belongs to its genuine commitments. -/
theorem C97_framed_by_replay (ord : MapOrder) (hord : ord = .insertion ∨ ord = .reversed) :
    ∃ s₁ s₂ s₃ h₀ h₁ h₂ h₃ t₀ t₁ t₂ t₃, Sign.newSignState sumSha ids (skey 1) key [1, 2, 3] 10 0 = .ok s₁ ∧
    Sign.newSignState sumSha ids (skey 2) key [1, 2, 3] 10 0 = .ok s₂ ∧ Sign.newSignState sumSha ids (skey 3) key [1, 2, 3] 10 0 = .ok s₃ ∧
    Hist (Sign.impl sumSha) s₂ h₀ t₀ ∧ Hist (Sign.impl sumSha) s₁ h₁ t₁ ∧ Hist (Sign.impl sumSha) s₂ h₂ t₂ ∧ Hist (Sign.impl sumSha) s₃ h₃ t₃ ∧
    (∀ m r, (Op.handle m, r) ∈ h₁ → m ∈ Spec.emitted h₀ ∨ m ∈ Spec.emitted h₂ ∨ m ∈ Spec.emitted h₃) ∧
    (∀ m r, (Op.handle m, r) ∈ h₂ → m ∈ Spec.emitted h₁ ∨ m ∈ Spec.emitted h₃) ∧
    (∀ m r, (Op.handle m, r) ∈ h₃ → m ∈ Spec.emitted h₁ ∨ m ∈ Spec.emitted h₂) ∧
    (Spec.emitted h₂).length = 2 ∧ (Spec.emitted h₃).length = 2 ∧ t₂.err = none ∧ t₃.err = none ∧
    t₁.done = true ∧ ∃ id, (id = 2 ∨ id = 3) ∧ t₁.err = some ⟨id, 2, .badSigShare⟩ := by
  obtain ⟨s₂', h₀, t₀, o1, o2, o3⟩ := sign3_of_run 2 [.processAll .insertion (coins [15, 16])]
    (fun h _ => decide (Spec.emitted h = [Message.newSign1 2 (Toy.of 15) (Toy.of 16)])) (by decide +kernel)
  obtain ⟨s₁, h₁, t₁, a1, a2, a3⟩ := sign3_of_run 1 [.processAll .insertion (coins [13, 14]), .handle (Message.newSign1 2 (Toy.of 15) (Toy.of 16)),
    .handle (Message.newSign1 2 (Toy.of 25) (Toy.of 26)), .handle (Message.newSign1 3 (Toy.of 17) (Toy.of 18)), .processAll .insertion (coins []),
    .handle (Message.newSign2 2 replayZ2), .handle (Message.newSign2 3 24836), .processAll ord (coins [])]
    (fun h s => decide (s.done = true ∧ (s.err = some ⟨2, 2, .badSigShare⟩ ∨ s.err = some ⟨3, 2, .badSigShare⟩) ∧
      Spec.emitted h = [Message.newSign1 1 (Toy.of 13) (Toy.of 14), Message.newSign2 1 12010] ∧ handledIn h = [Message.newSign1 2 (Toy.of 15) (Toy.of 16),
        Message.newSign1 2 (Toy.of 25) (Toy.of 26), Message.newSign1 3 (Toy.of 17) (Toy.of 18), Message.newSign2 2 replayZ2, Message.newSign2 3 24836]))
      (by rcases hord with rfl | rfl <;> decide +kernel)
  obtain ⟨s₂, h₂, t₂, b1, b2, b3⟩ := sign3_of_run 2 [.processAll .insertion (coins [25, 26]), .handle (Message.newSign1 1 (Toy.of 13) (Toy.of 14)),
    .handle (Message.newSign1 3 (Toy.of 17) (Toy.of 18)), .processAll .insertion (coins [])]
    (fun h s => decide (s.err = none ∧ Spec.emitted h = [Message.newSign1 2 (Toy.of 25) (Toy.of 26), Message.newSign2 2 replayZ2] ∧
      handledIn h = [Message.newSign1 1 (Toy.of 13) (Toy.of 14), Message.newSign1 3 (Toy.of 17) (Toy.of 18)])) (by decide +kernel)
  obtain ⟨s₃, h₃, t₃, c1, c2, c3⟩ := sign3_of_run 3 [.processAll .insertion (coins [17, 18]), .handle (Message.newSign1 1 (Toy.of 13) (Toy.of 14)),
    .handle (Message.newSign1 2 (Toy.of 25) (Toy.of 26)), .processAll .insertion (coins [])]
    (fun h s => decide (s.err = none ∧ Spec.emitted h = [Message.newSign1 3 (Toy.of 17) (Toy.of 18), Message.newSign2 3 24836] ∧
      handledIn h = [Message.newSign1 1 (Toy.of 13) (Toy.of 14), Message.newSign1 2 (Toy.of 25) (Toy.of 26)])) (by decide +kernel)
  simp only [decide_eq_true_eq] at o3 a3 b3 c3
  obtain rfl : s₂' = s₂ := by rw [o1] at b1; cases b1; rfl
  refine ⟨s₁, s₂', s₃, h₀, h₁, h₂, h₃, t₀, t₁, t₂, t₃, a1, b1, c1, o2, a2, b2, c2, ?_, ?_, ?_, by rw [b3.2.1]; rfl, by rw [c3.2.1]; rfl, b3.1, c3.1, a3.1, ?_⟩
  · intro m r hm
    have := mem_handledIn hm
    rw [a3.2.2.2] at this
    rw [o3, b3.2.1, c3.2.1]
    simp only [List.mem_cons, List.not_mem_nil, or_false] at this ⊢
    tauto
  · intro m r hm
    have := mem_handledIn hm
    rw [b3.2.2] at this
    rw [a3.2.2.1, c3.2.1]
    simp only [List.mem_cons, List.not_mem_nil, or_false] at this ⊢
    tauto
  · intro m r hm
    have := mem_handledIn hm
    rw [c3.2.2] at this
    rw [a3.2.2.1, b3.2.1]
    simp only [List.mem_cons, List.not_mem_nil, or_false] at this ⊢
    tauto
  · rcases a3.2.1 with h | h
    · exact ⟨2, Or.inl rfl, h⟩
    · exact ⟨3, Or.inr rfl, h⟩

/-! ### A key generation made of recordings -/

/-- C97, refuted: a party `i` that starts a key generation while everybody else is absent completes it, if it is given what the others have sent it in
earlier key generations, which need not even be the same one.  All messages it accepts are genuine.  It ends with a group key to which only its own
contribution is new, and which no other party knows. -/
theorem C97_keygen_replay (ids : IDSlice) (hsorted : ids.Pairwise (· < ·)) (h0 : (0 : ID) ∉ ids) (t : UInt16) (ht : t ≠ 65535) (i : ID)
    (told nold : ID → Nat) (sold sold' : ID → State G (Keygen.Round G)) (hold : ID → List (Op G × Ret G))
    (hnewold : ∀ k ∈ ids, k ≠ i → Keygen.newKeygenState sha k ids t (told k) (nold k) = .ok (sold k))
    (hhold : ∀ k ∈ ids, k ≠ i → Hist (Keygen.impl sha) (sold k) (hold k) (sold' k))
    (hdealt : ∀ k ∈ ids, k ≠ i → ∃ m ∈ Spec.emitted (hold k), m.header.type = 2)
    (timeout now : Nat) (s₀ : State G (Keygen.Round G)) (hnew : Keygen.newKeygenState sha i ids t timeout now = .ok s₀) :
    ∃ X : ID → G, (∀ k ∈ ids, k ≠ i → ∃ π c, Message.newKeyGen1 k π (X k :: c) ∈ Spec.emitted (hold k)) ∧ ∀ coins : Coins,
      ∃ h s, Hist (Keygen.impl sha) s₀ h s ∧
        (∀ m r, (Op.handle m, r) ∈ h → r = .handled none ∧ ∃ k ∈ ids, k ≠ i ∧ m ∈ Spec.emitted (hold k)) ∧
        (∀ ord c r, (Op.processAll ord c, r) ∈ h → c = coins) ∧
        s.done = true ∧ s.err = none ∧ ∃ pub, s.round.output.pub = some pub ∧ pub.groupKey = coins 0 • base + ((ids.filter (· ≠ i)).map X).sum := by
  have hnd : ids.Nodup := hsorted.imp fun {a b} h e => by subst e; exact absurd h (by simp)
  have hle : ids.Pairwise (· ≤ ·) := hsorted.imp fun h => UInt16.le_of_lt h
  have key : ∀ k, ∃ (f : Poly) (κ : Scalar), k ∈ ids → k ≠ i → f.length = t.toNat + 1 ∧
      Spec.emitted (hold k) = Message.newKeyGen1 k ⟨0, κ⟩ (Exponent.ofPoly f) :: Keygen.dealt k f ids := by
    intro k
    by_cases hk : k ∈ ids ∧ k ≠ i
    · obtain ⟨r₀, hs, hr⟩ := start_of_new (hnewold k hk.1 hk.2) hnd
      have hh := hhold k hk.1 hk.2
      rw [hr] at hh
      obtain ⟨n, h1, _⟩ := keygenSent hs hh
      obtain ⟨m, hm, hty⟩ := hdealt k hk.1 hk.2
      match n, h1 with
      | 0, h1 =>
        rw [show Spec.emitted (hold k) = [] from h1] at hm
        cases hm
      | 1, ⟨f, κ, _, _, _, h1⟩ =>
        rw [h1, List.mem_singleton] at hm
        subst hm
        exact absurd hty (by simp only [Message.newKeyGen1]; decide)
      | 2, ⟨f, κ, _, h2, _, _, h3⟩ => exact ⟨f, κ, fun _ _ => ⟨h2, h3⟩⟩
    · exact ⟨[], 0, fun h1 h2 => absurd ⟨h1, h2⟩ hk⟩
  choose f κ hf using key
  have hlen : ∀ k ∈ ids, k ≠ i → (Exponent.ofPoly (f k) : Exponent G).length = t.toNat + 1 := fun k hk hki => by
    simp [Exponent.ofPoly, (hf k hk hki).1]
  have hhead : ∀ k ∈ ids, k ≠ i → ∃ a l, f k = a :: l := fun k hk hki => by
    have := (hf k hk hki).1
    match h : f k with
    | [] => rw [h] at this; simp at this
    | a :: l => exact ⟨a, l, rfl⟩
  refine ⟨fun k => (f k).headD 0 • base, ?_, ?_⟩
  · intro k hk hki
    obtain ⟨a, l, hal⟩ := hhead k hk hki
    refine ⟨⟨0, κ k⟩, Exponent.ofPoly l, ?_⟩
    rw [(hf k hk hki).2]
    simp only [hal, List.headD_cons]
    exact List.mem_cons_self
  intro coins
  have hnew' := hnew
  obtain ⟨r₀, hs, rfl⟩ := start_of_new hnew hnd
  have hself := IDSlice.contains_sound hs.eq.2.2.2
  obtain ⟨s, hh, hd, he⟩ := Keygen.completes (sha := sha) hs hle h0 ht timeout now (fun k => Message.newKeyGen1 k ⟨0, κ k⟩ (Exponent.ofPoly (f k)))
    (fun k => Message.newKeyGen2 k i (Spec.evalAt (f k) i.val)) (fun k => Exponent.ofPoly (f k)) (fun k => Spec.evalAt (f k) i.val)
    (by
      intro k hk
      refine ⟨rfl, ⟨0, κ k⟩, rfl, rfl, ?_⟩
      intro h
      have := hlen k (mem_others.mp hk).1 (mem_others.mp hk).2
      rw [h] at this
      simp at this)
    (by
      intro k _
      exact ⟨rfl, rfl, (Exponent.ofPoly_evalAt _ _).symm⟩)
    MapOrder.insertion MapOrder.insertion MapOrder.insertion coins coins coins
  refine ⟨_, s, hh, ?_, ?_, hd, he, ?_⟩
  · intro m r hm
    simp only [List.mem_append, List.mem_map, List.mem_singleton, Prod.mk.injEq, reduceCtorEq, false_and, false_or, or_false,
      Op.handle.injEq] at hm
    rcases hm with ⟨k, hk, h1, h2⟩ | ⟨k, hk, h1, h2⟩ <;> refine ⟨h2.symm, k, (mem_others.mp hk).1, (mem_others.mp hk).2, ?_⟩ <;>
      rw [(hf k (mem_others.mp hk).1 (mem_others.mp hk).2).2, ← h1]
    · exact List.mem_cons_self
    · refine List.mem_cons_of_mem _ (List.mem_map.mpr ⟨i, ?_, rfl⟩)
      rw [List.mem_filter]
      exact ⟨hself, by simpa using (mem_others.mp hk).2.symm⟩
  · intro ord c r hm
    simp only [List.mem_append, List.mem_map, List.mem_singleton, Prod.mk.injEq, reduceCtorEq, false_and, and_false, exists_false, false_or, or_false,
      Op.processAll.injEq] at hm
    rcases hm with (⟨⟨_, h⟩, _⟩ | ⟨⟨_, h⟩, _⟩) | ⟨⟨_, h⟩, _⟩ <;> exact h
  · obtain ⟨K, pub, _, _, a3, a4, a5, _, _, a8, _⟩ := pub_of_commitments i ids t timeout now _ hnew' hnd hh hd he
    refine ⟨pub, a5, ?_⟩
    have hKi : K i = Exponent.ofPoly (Keygen.coinPoly t coins) := by
      refine (a3 (Message.newKeyGen1 i ⟨0, coins (t.toNat + 1)⟩ (Exponent.ofPoly (Keygen.coinPoly t coins))) ⟨⟨0, coins (t.toNat + 1)⟩, Exponent.ofPoly (Keygen.coinPoly t coins)⟩ ?_ rfl).symm
      refine mem_emitted (op := Op.processAll MapOrder.insertion coins) (out := [Message.newKeyGen1 i ⟨0, coins (t.toNat + 1)⟩ (Exponent.ofPoly (Keygen.coinPoly t coins))]) ?_ (by simp)
      simp only [List.append_assoc]
      exact List.mem_append_left _ (List.mem_singleton.mpr rfl)
    have hK : ∀ k ∈ ids, k ≠ i → K k = Exponent.ofPoly (f k) := by
      intro k hk hki
      obtain ⟨m, kg, g1, g2, g3, g4, g5, g6⟩ := a4 k hk hki
      simp only [List.mem_append, List.mem_map, List.mem_singleton, Prod.mk.injEq, reduceCtorEq, false_and, false_or, or_false,
        Op.handle.injEq] at g1
      rcases g1 with ⟨k', hk', h1, _⟩ | ⟨k', hk', h1, _⟩
      · have : k' = k := by rw [← g3, ← h1]; rfl
        subst this
        rw [← g6]
        rw [← h1] at g5
        simp only [Message.newKeyGen1, Option.some.injEq] at g5
        rw [← g5]
      · exfalso
        rw [← h1] at g4
        exact absurd g4 (by simp only [Message.newKeyGen2]; decide)
    rw [a8, ((perm_self hnd hself).map _).sum_eq, List.map_cons, List.sum_cons]
    congr 1
    · rw [hKi, if_pos (by simp [Exponent.ofPoly, Keygen.coinPoly_length]), Exponent.ofPoly_evalAt]
      congr 1
      unfold Keygen.coinPoly
      simp [evalAt_cons]
    · congr 1
      apply List.map_congr_left
      intro k hk
      obtain ⟨hk1, hk2⟩ := mem_others.mp hk
      obtain ⟨a, l, hal⟩ := hhead k hk1 hk2
      rw [hK k hk1 hk2, if_pos (hlen k hk1 hk2), Exponent.ofPoly_evalAt, hal]
      simp [evalAt_cons]

end Verif.Props
