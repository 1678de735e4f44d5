import Verif.Model.Channel
import Verif.Lemmas.Stage

/-!
Parties connected by channels: what is under way between them, and how it relates to a network that may deliver anything sent.
-/

namespace Verif.Chan

open State Spec

variable {G R : Type} [RGroup G]

/-- Everything that has been put into the channel of a party and not yet been taken out by its handler, oldest first. -/
def pipe (nd : Node G R) : List (Message G) := nd.incoming ++ nd.held.toList ++ nd.bytes.filterMap decode

/-- What a list of pending sends has for `j`. -/
def boxTo (l : List (ID × Bytes)) (j : ID) : List (Message G) := (l.filter fun p => decide (p.1 = j)).filterMap fun p => decode p.2

/-- What `HandleMessage` was called with. -/
def given (h : List (Op G × Ret G)) : List (Message G) := h.filterMap fun x => match x.1 with
  | .handle m => some m
  | _ => none

/-- Messages from `i`. -/
def fromParty (i : ID) (m : Message G) : Bool := decide (m.header.fromID = i)

omit [RGroup G] in
theorem given_append (h h' : List (Op G × Ret G)) : given (h ++ h') = given h ++ given h' := List.filterMap_append

theorem boxTo_append (l l' : List (ID × Bytes)) (j : ID) : boxTo (G := G) (l ++ l') j = boxTo l j ++ boxTo l' j := by
  simp [boxTo]

theorem boxTo_cons_self (j : ID) (b : Bytes) (l : List (ID × Bytes)) {m : Message G} (h : decode b = some m) :
    boxTo ((j, b) :: l) j = m :: boxTo l j := by
  simp [boxTo, h]

theorem boxTo_cons_ne {j j' : ID} (h : j' ≠ j) (b : Bytes) (l : List (ID × Bytes)) : boxTo (G := G) ((j', b) :: l) j = boxTo l j := by
  simp [boxTo, h]

/-- What all honest messages have in common beyond `Lockstep`: they go to everybody or to another party. -/
structure Addressed (ids : IDSlice) (out : ID → Nat → List (Message G)) : Prop where
  dest : ∀ i ∈ ids, ∀ n, n < 2 → ∀ m ∈ out i n, m.header.toID = 0 ∨ m.header.toID ∈ others i ids
  zero : (0 : ID) ∉ ids
  first : ∀ i ∈ ids, ∃ m, out i 0 = [m] ∧ m.header.toID = 0

theorem channels_order {ids : List ID} (ord : MapOrder) : ((ord.order _ (channels ids)).map Prod.fst).Perm ids := by
  have := (ord.perm _ (channels ids)).map Prod.fst
  rw [show (channels ids).map Prod.fst = ids by simp [channels, Function.comp_def]] at this
  exact this

section

variable {ids : IDSlice} {i : ID}

theorem send_mem {ord : MapOrder} {m : Message G} {b : Bytes} (hb : Message.marshalBinary m = .ok b)
    (hd : m.header.toID = 0 ∨ m.header.toID ∈ others i ids) {p : ID × Bytes} (hp : p ∈ send ids i ord m) :
    p.1 ∈ others i ids ∧ p.2 = b := by
  unfold send at hp
  rw [hb] at hp
  simp only [] at hp
  by_cases h0 : m.header.isBroadcast = true
  · rw [if_pos h0] at hp
    obtain ⟨k, hk, rfl⟩ := List.mem_map.mp hp
    obtain ⟨h1, h2⟩ := List.mem_filter.mp hk
    exact ⟨mem_others.mpr ⟨(channels_order ord).mem_iff.mp h1, of_decide_eq_true h2⟩, rfl⟩
  · rw [if_neg h0] at hp
    have h0' : m.header.toID ≠ 0 := fun h => h0 (by simp [Header.isBroadcast, h])
    have hd := hd.resolve_left h0'
    rw [if_pos (mem_others.mp hd).2, List.mem_singleton] at hp
    subst hp
    exact ⟨hd, rfl⟩

theorem boxTo_send (hnd : ids.Nodup) (h0 : (0 : ID) ∉ ids) {j : ID} (hj : j ∈ others i ids) {ord : MapOrder} {m : Message G} {b : Bytes} (hb : Message.marshalBinary m = .ok b)
    (hm : Message.unmarshalBinary Message.fresh b = .ok m) :
    boxTo (send ids i ord m) j = if m.header.toID = 0 ∨ m.header.toID = j then [m] else [] := by
  have hdec : decode b = some m := by simp [decode, hm]
  obtain ⟨hj1, hj2⟩ := mem_others.mp hj
  unfold send
  rw [hb]
  simp only []
  by_cases hz : m.header.toID = 0
  · rw [if_pos (by simp [Header.isBroadcast, hz]), if_pos (Or.inl hz), boxTo, List.filter_map, List.filter_filter]
    have : ((ord.order _ (channels ids)).map Prod.fst).filter (fun a => ((fun p : ID × Bytes => decide (p.1 = j)) ∘ fun id => (id, b)) a && decide (a ≠ i)) = [j] := by
      rw [List.filter_congr (q := fun a => decide (a = j))]
      · rw [List.filter_eq, List.count_eq_one_of_mem ((channels_order ord).nodup_iff.mpr hnd) ((channels_order ord).mem_iff.mpr hj1)]; rfl
      · intro a _
        by_cases h : a = j
        · subst h; simp [hj2]
        · simp [h]
    rw [this]
    simp [hdec]
  · rw [if_neg (by simp [Header.isBroadcast, hz])]
    by_cases hj' : m.header.toID = j
    · rw [if_pos (by rw [hj']; exact hj2), if_pos (Or.inr hj')]
      simp [boxTo, hj', hdec]
    · by_cases hi' : m.header.toID = i
      · simp [boxTo, hz, hj', hi', Ne.symm hj2, show ¬ i = 0 from fun h => hz (hi'.trans h)]
      · simp [boxTo, hz, hj', hi']

theorem sends_mem {ords : Nat → MapOrder} {ms : List (Message G)}
    (hc : ∀ m ∈ ms, ∃ b, Message.marshalBinary m = .ok b ∧ Message.unmarshalBinary Message.fresh b = .ok m)
    (hd : ∀ m ∈ ms, m.header.toID = 0 ∨ m.header.toID ∈ others i ids) {p : ID × Bytes} (hp : p ∈ sends ids i ords ms) :
    p.1 ∈ others i ids ∧ ∃ m ∈ ms, decode p.2 = some m := by
  induction ms generalizing ords with
  | nil => cases hp
  | cons m ms ih =>
    rcases List.mem_append.mp hp with hp | hp
    · obtain ⟨b, h1, h2⟩ := hc m List.mem_cons_self
      obtain ⟨h3, h4⟩ := send_mem h1 (hd m List.mem_cons_self) hp
      exact ⟨h3, m, List.mem_cons_self, by rw [h4]; simp [decode, h2]⟩
    · obtain ⟨h1, m', h2, h3⟩ := ih (fun m' hm' => hc m' (List.mem_cons_of_mem _ hm')) (fun m' hm' => hd m' (List.mem_cons_of_mem _ hm')) hp
      exact ⟨h1, m', List.mem_cons_of_mem _ h2, h3⟩

theorem boxTo_sends (hnd : ids.Nodup) (h0 : (0 : ID) ∉ ids) {j : ID} (hj : j ∈ others i ids) {ords : Nat → MapOrder} {ms : List (Message G)}
    (hc : ∀ m ∈ ms, ∃ b, Message.marshalBinary m = .ok b ∧ Message.unmarshalBinary Message.fresh b = .ok m) :
    boxTo (sends ids i ords ms) j = ms.filter fun m => decide (m.header.toID = 0 ∨ m.header.toID = j) := by
  induction ms generalizing ords with
  | nil => rfl
  | cons m ms ih =>
    obtain ⟨b, h1, h2⟩ := hc m List.mem_cons_self
    rw [sends, boxTo_append, boxTo_send hnd h0 hj h1 h2, ih fun m' hm' => hc m' (List.mem_cons_of_mem _ hm'), List.filter_cons]
    by_cases h : m.header.toID = 0 ∨ m.header.toID = j
    · rw [if_pos h, if_pos (decide_eq_true h)]; rfl
    · rw [if_neg h, if_neg (by simpa using h)]; rfl

end

/-- What holds of the process together with a network that did the same. -/
structure Run (impl : RoundImpl G R) (ids : IDSlice) (coins : ID → Coins) (M : Nat → ID → ID → Message G) (init : ID → State G R)
    (S : Sys G R) (N : Net G R) : Prop where
  path : Path impl ids coins (Net.start init) N
  state : ∀ i ∈ ids, (S i).state = N.state i
  fresh : ∀ i ∈ ids, (S i).started = false → (S i).outbox = [] ∧ N.hist i = [] ∧ N.state i = init i
  begun : ∀ i ∈ ids, (S i).started = true → (N.state i).roundNumber ≠ 0
  outs : ∀ i ∈ ids, ∀ p ∈ (S i).outbox, p.1 ∈ others i ids ∧ ∃ m : Message G, decode p.2 = some m ∧ m.header.fromID = i
  coded : ∀ i ∈ ids, ∀ b ∈ (S i).bytes, ∃ m : Message G, decode b = some m
  senders : ∀ j ∈ ids, ∀ m ∈ given (N.hist j) ++ pipe (S j), m.header.fromID ∈ others j ids
  flow : ∀ i ∈ ids, ∀ j ∈ ids, i ≠ j →
    (given (N.hist j) ++ pipe (S j)).filter (fromParty i) ++ boxTo (S i).outbox j = [M 1 i j, M 2 i j].take (prog (N.state i))

section

variable {impl : RoundImpl G R} {ids : IDSlice} {r₀ : ID → R} {coins : ID → Coins} {M : Nat → ID → ID → Message G}
  {out : ID → Nat → List (Message G)} {Good : ID → Nat → R → Prop} {timeout now : ID → Nat} {N : Net G R} {tys : List MsgType}
  {init : ID → State G R} {S S' : Sys G R}

/-- Everything that is assumed of the protocol. -/
structure Protocol (impl : RoundImpl G R) (ids : IDSlice) (r₀ : ID → R) (coins : ID → Coins) (M : Nat → ID → ID → Message G)
    (out : ID → Nat → List (Message G)) (Good : ID → Nat → R → Prop) (tys : List MsgType) (timeout now : ID → Nat) (init : ID → State G R) : Prop where
  honest : Honest impl ids r₀ coins M out Good tys
  lockstep : Lockstep ids M out
  addressed : Addressed ids out
  init : ∀ i ∈ ids, init i = newBaseState impl (r₀ i) (timeout i) (now i)

theorem Protocol.netInv (P : Protocol impl ids r₀ coins M out Good tys timeout now init) (hp : Path impl ids coins (Net.start init) N) :
    NetInv impl ids r₀ out Good timeout now N := NetInv.path P.honest (NetInv.start P.honest P.init) hp

theorem run_start (P : Protocol impl ids r₀ coins M out Good tys timeout now init) : Run impl ids coins M init (start init) (Net.start init) where
  path := .refl _
  state i hi := rfl
  fresh i hi _ := ⟨rfl, rfl, rfl⟩
  begun i hi h := nomatch h
  outs i hi p hp := nomatch hp
  coded i hi b hb := nomatch hb
  senders j hj m hm := nomatch hm
  flow i hi j hj hne := by
    have : prog (init i) = 0 := by rw [P.init i hi]; rfl
    show [] = [M 1 i j, M 2 i j].take (prog (init i))
    rw [this]; rfl

theorem boxTo_out (P : Protocol impl ids r₀ coins M out Good tys timeout now init) {i j : ID} (hi : i ∈ ids) (hj : j ∈ ids) (hne : i ≠ j) {n : Nat} (hn : n < 2)
    (ords : Nat → MapOrder) : boxTo (sends ids i ords (out i n)) j = [M (n + 1) i j] := by
  rw [boxTo_sends P.honest.nodup P.addressed.zero (mem_others.mpr ⟨hj, Ne.symm hne⟩) (P.lockstep.codec i hi n hn)]
  exact P.lockstep.once j hj i hi hne n hn

theorem outs_out (P : Protocol impl ids r₀ coins M out Good tys timeout now init) {i : ID} (hi : i ∈ ids) {n : Nat} (hn : n < 2)
    (ords : Nat → MapOrder) {p : ID × Bytes} (hp : p ∈ sends ids i ords (out i n)) :
    p.1 ∈ others i ids ∧ ∃ m : Message G, decode p.2 = some m ∧ m.header.fromID = i := by
  obtain ⟨h1, m, h2, h3⟩ := sends_mem (P.lockstep.codec i hi n hn) (P.addressed.dest i hi n hn) hp
  exact ⟨h1, m, h3, (P.honest.out_spec i hi n hn m h2).1⟩

/-- Sending the messages of one more round. -/
theorem take_out (P : Protocol impl ids r₀ coins M out Good tys timeout now init) {i j : ID} (hi : i ∈ ids) (hj : j ∈ ids) (hne : i ≠ j) (n : Nat) (hn : n < 3)
    (ords : Nat → MapOrder) : [M 1 i j, M 2 i j].take n ++ boxTo (sends ids i ords (out i n)) j = [M 1 i j, M 2 i j].take (n + 1) := by
  match n, hn with
  | 0, _ => rw [boxTo_out P hi hj hne (by omega)]; rfl
  | 1, _ => rw [boxTo_out P hi hj hne (by omega)]; rfl
  | 2, _ => rw [P.honest.out_last i hi]; rfl

theorem outs_out' (P : Protocol impl ids r₀ coins M out Good tys timeout now init) {i : ID} (hi : i ∈ ids) {n : Nat} (hn : n < 3)
    (ords : Nat → MapOrder) {p : ID × Bytes} (hp : p ∈ sends ids i ords (out i n)) :
    p.1 ∈ others i ids ∧ ∃ m : Message G, decode p.2 = some m ∧ m.header.fromID = i := by
  by_cases h2 : n < 2
  · exact outs_out P hi h2 ords hp
  · rw [show n = 2 by omega, P.honest.out_last i hi] at hp
    cases hp

/-- A message in the pipe was sent. -/
theorem Run.sent (P : Protocol impl ids r₀ coins M out Good tys timeout now init) (r : Run impl ids coins M init S N) {j : ID} (hj : j ∈ ids) {m : Message G}
    (hm : m ∈ pipe (S j)) : m ∈ N.sent ∧ ∃ n, 1 ≤ n ∧ n ≤ 2 ∧ n ≤ prog (N.state m.header.fromID) ∧ m = M n m.header.fromID j := by
  have h1 := r.senders j hj m (List.mem_append_right _ hm)
  obtain ⟨hi, hne⟩ := mem_others.mp h1
  have h2 := r.flow _ hi j hj hne
  have h3 : m ∈ [M 1 m.header.fromID j, M 2 m.header.fromID j].take (prog (N.state m.header.fromID)) := by
    rw [← h2]
    exact List.mem_append_left _ (List.mem_filter.mpr ⟨List.mem_append_right _ hm, by simp [fromParty]⟩)
  have hinv := P.netInv r.path
  obtain ⟨n, hn, hn2, hmn⟩ : ∃ n, n < 2 ∧ n < prog (N.state m.header.fromID) ∧ m = M (n + 1) m.header.fromID j := by
    generalize m.header.fromID = i at *
    match hp : prog (N.state i), h3 with
    | 0, h3 => cases h3
    | 1, h3 => exact ⟨0, by omega, by omega, by simpa using h3⟩
    | p + 2, h3 =>
      simp only [List.take_succ_cons, List.take_zero, List.take_nil, List.mem_cons, List.not_mem_nil, or_false] at h3
      rcases h3 with h3 | h3
      · exact ⟨0, by omega, by omega, h3⟩
      · exact ⟨1, by omega, by omega, h3⟩
  refine ⟨?_, n + 1, by omega, by omega, by omega, hmn⟩
  rw [hmn]
  exact hinv.sentAll _ hi n hn2 _ (P.honest.out_mem _ hi j hj (Ne.symm hne) n hn).1

theorem pipe_take {nd : Node G R} {b : Bytes} {rest : List Bytes} {m : Message G} (h1 : nd.held = none) (h2 : nd.bytes = b :: rest) (h3 : decode b = some m) :
    pipe { nd with bytes := rest, held := decode b } = pipe nd := by
  simp [pipe, h1, h2, h3]

theorem pipe_put {nd : Node G R} {m : Message G} (h : nd.held = some m) :
    pipe { nd with held := none, incoming := nd.incoming ++ [m] } = pipe nd := by
  simp [pipe, h]

/-- A step that changes neither sessions nor outboxes nor pipes. -/
theorem Run.shuffle (r : Run impl ids coins M init S N) {i : ID} {nd : Node G R} (h1 : nd.state = (S i).state) (h2 : nd.started = (S i).started)
    (h3 : nd.outbox = (S i).outbox) (h4 : pipe nd = pipe (S i)) (h5 : ∀ b ∈ nd.bytes, b ∈ (S i).bytes) :
    Run impl ids coins M init (Function.update S i nd) N := by
  have e1 : ∀ k, (Function.update S i nd k).state = (S k).state := fun k => update_mem (P := fun x : Node G R => x.state = (S k).state) (fun h => by rw [h1, h]) (fun _ => rfl)
  have e2 : ∀ k, (Function.update S i nd k).started = (S k).started := fun k => update_mem (P := fun x : Node G R => x.started = (S k).started) (fun h => by rw [h2, h]) (fun _ => rfl)
  have e3 : ∀ k, (Function.update S i nd k).outbox = (S k).outbox := fun k => update_mem (P := fun x : Node G R => x.outbox = (S k).outbox) (fun h => by rw [h3, h]) (fun _ => rfl)
  have e4 : ∀ k, pipe (Function.update S i nd k) = pipe (S k) := fun k => update_mem (P := fun x => pipe x = pipe (S k)) (fun h => by rw [h4, h]) (fun _ => rfl)
  have e5 : ∀ k, ∀ b ∈ (Function.update S i nd k).bytes, b ∈ (S k).bytes := fun k =>
    update_mem (P := fun x : Node G R => ∀ b ∈ x.bytes, b ∈ (S k).bytes) (fun h => by rw [h]; exact h5) (fun _ b hb => hb)
  exact {
    path := r.path
    state := fun k hk => (e1 k).trans (r.state k hk)
    fresh := fun k hk h => by rw [e3]; exact r.fresh k hk ((e2 k).symm.trans h)
    begun := fun k hk h => r.begun k hk ((e2 k).symm.trans h)
    outs := fun k hk => by rw [e3]; exact r.outs k hk
    coded := fun k hk b hb => r.coded k hk b (e5 k b hb)
    senders := fun k hk => by rw [e4]; exact r.senders k hk
    flow := fun k hk j hj hne => by rw [e4, e3]; exact r.flow k hk j hj hne }

theorem Run.send (r : Run impl ids coins M init S N) {i j : ID} {b : Bytes} {rest : List (ID × Bytes)} (hi : i ∈ ids)
    (ho : (S i).outbox = (j, b) :: rest) :
    Run impl ids coins M init (let S' := Function.update S i { S i with outbox := rest }
        Function.update S' j { S' j with bytes := (S' j).bytes ++ [b] }) N := by
  obtain ⟨hj, m, hm, hfrom⟩ := r.outs i hi (j, b) (by rw [ho]; exact List.mem_cons_self)
  obtain ⟨hj, hne⟩ := mem_others.mp hj
  simp only [] at hm hj hne
  have hS' : Function.update S i { S i with outbox := rest } j = S j := Function.update_of_ne hne _ _
  simp only [hS']
  set S₁ := Function.update (Function.update S i { S i with outbox := rest }) j { S j with bytes := (S j).bytes ++ [b] } with hS₁
  have e0 : S₁ j = { S j with bytes := (S j).bytes ++ [b] } := by simp [S₁]
  have e0' : S₁ i = { S i with outbox := rest } := by simp [S₁, Function.update_of_ne (Ne.symm hne)]
  have e0'' : ∀ k, k ≠ i → k ≠ j → S₁ k = S k := fun k h1 h2 => by simp [S₁, Function.update_of_ne h1, Function.update_of_ne h2]
  have e1 : ∀ k, (S₁ k).state = (S k).state := by
    intro k
    by_cases h1 : k = i
    · subst h1; rw [e0']
    · by_cases h2 : k = j
      · subst h2; rw [e0]
      · rw [e0'' k h1 h2]
  have e2 : ∀ k, (S₁ k).started = (S k).started := by
    intro k
    by_cases h1 : k = i
    · subst h1; rw [e0']
    · by_cases h2 : k = j
      · subst h2; rw [e0]
      · rw [e0'' k h1 h2]
  have e3 : ∀ k, k ≠ i → (S₁ k).outbox = (S k).outbox := by
    intro k h1
    by_cases h2 : k = j
    · subst h2; rw [e0]
    · rw [e0'' k h1 h2]
  have e4 : ∀ k, k ≠ j → pipe (S₁ k) = pipe (S k) := by
    intro k h2
    by_cases h1 : k = i
    · subst h1; rw [e0']; rfl
    · rw [e0'' k h1 h2]
  have e5 : pipe (S₁ j) = pipe (S j) ++ [m] := by rw [e0]; simp [pipe, hm]
  refine ⟨r.path, fun k hk => (e1 k).trans (r.state k hk), ?_, fun k hk h => r.begun k hk ((e2 k).symm.trans h), ?_, ?_, ?_, ?_⟩
  · intro k hk h
    rw [e2] at h
    have h1 := r.fresh k hk h
    by_cases hki : k = i
    · subst hki
      rw [ho] at h1
      exact absurd h1.1 (by simp)
    · rw [e3 k hki]; exact h1
  · intro k hk p hp
    by_cases hki : k = i
    · subst hki
      rw [e0'] at hp
      exact r.outs k hk p (by rw [ho]; exact List.mem_cons_of_mem _ hp)
    · rw [e3 k hki] at hp
      exact r.outs k hk p hp
  · intro k hk c hc
    by_cases hkj : k = j
    · subst hkj
      rw [e0] at hc
      rcases List.mem_append.mp hc with hc | hc
      · exact r.coded k hk c hc
      · rw [List.mem_singleton] at hc
        subst hc
        exact ⟨m, hm⟩
    · have : (S₁ k).bytes = (S k).bytes := by
        by_cases h1 : k = i
        · subst h1; rw [e0']
        · rw [e0'' k h1 hkj]
      rw [this] at hc
      exact r.coded k hk c hc
  · intro k hk m' hm'
    by_cases hkj : k = j
    · subst hkj
      rw [e5, ← List.append_assoc] at hm'
      rcases List.mem_append.mp hm' with hm' | hm'
      · exact r.senders k hk m' hm'
      · rw [List.mem_singleton] at hm'
        subst hm'
        rw [hfrom]
        exact mem_others.mpr ⟨hi, Ne.symm hne⟩
    · rw [e4 k hkj] at hm'
      exact r.senders k hk m' hm'
  · intro k hk l hl hkl
    have h := r.flow k hk l hl hkl
    by_cases hlj : l = j
    · subst hlj
      rw [e5, ← List.append_assoc, List.filter_append]
      by_cases hki : k = i
      · subst hki
        rw [e0', ← h, ho, boxTo_cons_self l b rest hm, show [m].filter (fromParty k) = [m] by simp [fromParty, hfrom], List.append_assoc]
        rfl
      · rw [e3 k hki, ← h, show [m].filter (fromParty k) = [] by simp [fromParty, hfrom, Ne.symm hki], List.append_nil]
    · rw [e4 l hlj]
      by_cases hki : k = i
      · subst hki
        rw [e0', ← h, ho, boxTo_cons_ne (Ne.symm hlj)]
      · rw [e3 k hki, h]

/-- What `ProcessAll` does to the process. -/
theorem Run.process (P : Protocol impl ids r₀ coins M out Good tys timeout now init) {i : ID} (hi : i ∈ ids) (hp : Path impl ids coins (Net.start init) N)
    (hflow : ∀ k ∈ ids, ∀ j ∈ ids, k ≠ j → (given (N.hist j) ++ pipe (S j)).filter (fromParty k) ++ boxTo (S k).outbox j = [M 1 k j, M 2 k j].take (prog (N.state k)))
    (hstate : ∀ k ∈ ids, (S k).state = N.state k)
    (hfresh : ∀ k ∈ ids, k ≠ i → (S k).started = false → (S k).outbox = [] ∧ N.hist k = [] ∧ N.state k = init k)
    (hbegun : ∀ k ∈ ids, k ≠ i → (S k).started = true → (N.state k).roundNumber ≠ 0)
    (hnow : (N.state i).roundNumber ≠ 0 ∨ Full impl (N.state i) ∧ (N.state i).done = false)
    (houts : ∀ k ∈ ids, ∀ p ∈ (S k).outbox, p.1 ∈ others k ids ∧ ∃ m : Message G, decode p.2 = some m ∧ m.header.fromID = k)
    (hcoded : ∀ k ∈ ids, ∀ b ∈ (S k).bytes, ∃ m : Message G, decode b = some m)
    (hsenders : ∀ j ∈ ids, ∀ m ∈ given (N.hist j) ++ pipe (S j), m.header.fromID ∈ others j ids)
    (ho : (S i).outbox = []) (ords : Nat → MapOrder) {ord : MapOrder} {c : Coins} (hc : (N.state i).roundNumber = 0 → c = coins i) {s : State G R}
    {o : List (Message G)} (h : processAll impl ord c (N.state i) = some (s, o)) :
    Run impl ids coins M init (Function.update S i { S i with started := true, state := s, outbox := sends ids i ords o })
      (N.after i (.processAll ord c) (.messages o) s) := by
  have hN := P.netInv hp
  have hstep : State.step impl (N.state i) (.processAll ord c) = some (s, .messages o) := by simp [State.step, h]
  have hg : ∀ k, given ((N.after i (.processAll ord c) (.messages o) s).hist k) = given (N.hist k) := by
    intro k
    refine update_mem (f := N.hist) (P := fun x => given x = given (N.hist k)) (fun hk => ?_) (fun _ => rfl)
    subst hk
    rw [given_append]
    exact List.append_nil _
  have hpipe : ∀ k, pipe (Function.update S i { S i with started := true, state := s, outbox := sends ids i ords o } k) = pipe (S k) :=
    fun k => update_mem (P := fun x => pipe x = pipe (S k)) (fun hk => by subst hk; rfl) (fun _ => rfl)
  obtain ⟨s', o', h', _, h2⟩ := hN.process P.honest hi ord c hc
  rw [h] at h'
  obtain ⟨rfl, rfl⟩ := Prod.mk.inj (Option.some.inj h')
  have hbox : (∀ p ∈ sends ids i ords o, p.1 ∈ others i ids ∧ ∃ m : Message G, decode p.2 = some m ∧ m.header.fromID = i) ∧
      ∀ j ∈ ids, i ≠ j → [M 1 i j, M 2 i j].take (prog (N.state i)) ++ boxTo (sends ids i ords o) j = [M 1 i j, M 2 i j].take (prog s) := by
    rcases h2 with ⟨_, rfl, rfl⟩ | ⟨hd, rfl, h3, _⟩
    · exact ⟨fun p hp => absurd hp List.not_mem_nil, fun j hj hne => List.append_nil _⟩
    · have hlt := (hN.good i hi hd).1
      refine ⟨fun p hp => outs_out' P hi hlt ords hp, fun j hj hne => ?_⟩
      rw [h3, show prog (N.state i) = (N.state i).roundNumber by simp [prog, hd]]
      exact take_out P hi hj hne _ hlt ords
  refine ⟨hp.tail (op := .processAll ord c) hi hc hstep, ?_, ?_, ?_, ?_, ?_, ?_, ?_⟩
  · intro k hk
    by_cases hki : k = i
    · subst hki; simp [Net.after]
    · simp only [Net.after, Function.update_of_ne hki]; exact hstate k hk
  · intro k hk hs
    by_cases hki : k = i
    · subst hki; simp at hs
    · simp only [Net.after, Function.update_of_ne hki] at hs ⊢; exact hfresh k hk hki hs
  · intro k hk hs
    by_cases hki : k = i
    · subst hki
      simp only [Net.after, Function.update_self]
      rcases hnow with hnow | ⟨hf, hd⟩
      · rcases h2 with ⟨_, rfl, rfl⟩ | ⟨hd, _, h3, h4⟩
        · exact hnow
        · by_cases hd' : s.done = true
          · cases (processAll_iff impl).mp h with
            | idle => exact hnow
            | processErr => exact hnow
            | generateErr => exact hnow
            | last => exact hnow
            | next => simp
          · have := h4 (by simpa using hd'); omega
      · rcases h2 with ⟨h5 | h5, _⟩ | ⟨_, _, h3, h4⟩
        · rw [hd] at h5; cases h5
        · exact absurd hf h5
        · by_cases hd' : s.done = true
          · have h6 : prog s = 3 := by simp [prog, hd']
            have h7 : (N.state k).roundNumber = 2 := by omega
            cases (processAll_iff impl).mp h with
            | idle h5 => exact (h5.elim (fun h => by rw [hd] at h; cases h) (fun h => h hf)).elim
            | processErr => simp [h7]
            | generateErr => simp [h7]
            | last => simp [h7]
            | next => simp
          · have := h4 (by simpa using hd'); omega
    · simp only [Net.after, Function.update_of_ne hki] at hs ⊢; exact hbegun k hk hki hs
  · intro k hk
    by_cases hki : k = i
    · subst hki; simp only [Function.update_self]; exact hbox.1
    · simp only [Function.update_of_ne hki]; exact houts k hk
  · intro k hk
    by_cases hki : k = i
    · subst hki; simp only [Function.update_self]; exact hcoded k hk
    · simp only [Function.update_of_ne hki]; exact hcoded k hk
  · intro k hk
    rw [hg, hpipe]; exact hsenders k hk
  · intro k hk j hj hne
    have hfl := hflow k hk j hj hne
    rw [hg, hpipe]
    by_cases hki : k = i
    · subst hki
      simp only [Net.after, Function.update_self]
      rw [ho] at hfl
      rw [← hbox.2 j hj hne, ← hfl, List.append_assoc]
      rfl
    · simp only [Net.after, Function.update_of_ne hki]
      exact hfl

/-- The history of every party only grows. -/
def Grows (N N' : Net G R) : Prop := ∀ i, ∃ h, N'.hist i = N.hist i ++ h

omit [RGroup G] in
theorem Grows.refl (N : Net G R) : Grows N N := fun _ => ⟨[], (List.append_nil _).symm⟩

omit [RGroup G] in
theorem Grows.trans {N N' N'' : Net G R} (h1 : Grows N N') (h2 : Grows N' N'') : Grows N N'' := by
  intro i
  obtain ⟨a, ha⟩ := h1 i
  obtain ⟨b, hb⟩ := h2 i
  exact ⟨a ++ b, by rw [hb, ha, List.append_assoc]⟩

omit [RGroup G] in
theorem grows_after (N : Net G R) (i : ID) (op : Op G) (ret : Ret G) (s : State G R) : Grows N (N.after i op ret s) := by
  intro k
  refine update_mem (f := N.hist) (P := fun x => ∃ h, x = N.hist k ++ h) (fun hk => ?_) (fun _ => ⟨[], (List.append_nil _).symm⟩)
  subst hk
  exact ⟨_, rfl⟩

theorem Run.recv (P : Protocol impl ids r₀ coins M out Good tys timeout now init) (r : Run impl ids coins M init S N) {i : ID} {m : Message G} {rest : List (Message G)}
    {ord : MapOrder} {ords : Nat → MapOrder} {c : Coins} {s : State G R} {o : List (Message G)} (hi : i ∈ ids) (hs : (S i).started = true)
    (ho : (S i).outbox = []) (hin : (S i).incoming = m :: rest) (h : processAll impl ord c (handleMessage impl (S i).state m).1 = some (s, o)) :
    Run impl ids coins M init (Function.update S i { S i with incoming := rest, state := s, outbox := sends ids i ords o })
      ((N.after i (.handle m) (.handled (handleMessage impl (N.state i) m).2) (handleMessage impl (N.state i) m).1).after i (.processAll ord c) (.messages o) s) := by
  have hsent := (r.sent P hi (m := m) (by simp [pipe, hin])).1
  set N₁ := N.after i (.handle m) (.handled (handleMessage impl (N.state i) m).2) (handleMessage impl (N.state i) m).1 with hN₁
  set S₁ : Sys G R := Function.update S i { S i with incoming := rest, state := (handleMessage impl (N.state i) m).1 } with hS₁
  have hpath : Path impl ids coins (Net.start init) N₁ := r.path.tail (op := .handle m) hi hsent rfl
  have hst : ∀ k, k ≠ i → N₁.state k = N.state k := fun k hk => by simp [N₁, Net.after, Function.update_of_ne hk]
  have hsti : N₁.state i = (handleMessage impl (N.state i) m).1 := by simp [N₁, Net.after]
  have hSi : S₁ i = { S i with incoming := rest, state := (handleMessage impl (N.state i) m).1 } := by simp [S₁]
  have hSk : ∀ k, k ≠ i → S₁ k = S k := fun k hk => by simp [S₁, Function.update_of_ne hk]
  have hrn : (N₁.state i).roundNumber = (N.state i).roundNumber ∧ (N₁.state i).done = (N.state i).done := by
    rw [hsti]
    have := handle_cases impl (Prod.mk.eta (p := handleMessage impl (N.state i) m)).symm
    generalize (handleMessage impl (N.state i) m).1 = t at *
    generalize (handleMessage impl (N.state i) m).2 = e at *
    cases this <;> exact ⟨rfl, rfl⟩
  have hprog : ∀ k, prog (N₁.state k) = prog (N.state k) := by
    intro k
    by_cases hk : k = i
    · subst hk; simp [prog, hrn]
    · rw [hst k hk]
  have harr : ∀ k, given (N₁.hist k) ++ pipe (S₁ k) = given (N.hist k) ++ pipe (S k) := by
    intro k
    by_cases hk : k = i
    · subst hk
      rw [hSi]
      simp only [N₁, Net.after, Function.update_self, given_append, pipe, hin]
      simp [given]
    · rw [hSk k hk]
      simp [N₁, Net.after, Function.update_of_ne hk]
  have hbox : ∀ k, (S₁ k).outbox = (S k).outbox := by
    intro k
    by_cases hk : k = i
    · subst hk; rw [hSi]
    · rw [hSk k hk]
  have hbegun := r.begun i hi hs
  have := Run.process (N := N₁) (S := S₁) (s := s) (o := o) (ord := ord) (c := c) P hi hpath
    (fun k hk j hj hne => by rw [harr, hbox, hprog]; exact r.flow k hk j hj hne)
    (fun k hk => by
      by_cases hki : k = i
      · subst hki; rw [hSi, hsti]
      · rw [hSk k hki, hst k hki]; exact r.state k hk)
    (fun k hk hki h => by
      rw [hSk k hki] at h ⊢
      have : N₁.hist k = N.hist k := by simp [N₁, Net.after, Function.update_of_ne hki]
      rw [hst k hki, this]; exact r.fresh k hk h)
    (fun k hk hki h => by rw [hSk k hki] at h; rw [hst k hki]; exact r.begun k hk h)
    (Or.inl (by rw [hrn.1]; exact hbegun))
    (fun k hk => by rw [hbox]; exact r.outs k hk)
    (fun k hk => by
      by_cases hki : k = i
      · subst hki; rw [hSi]; exact r.coded k hk
      · rw [hSk k hki]; exact r.coded k hk)
    (fun k hk => by rw [harr]; exact r.senders k hk)
    (by rw [hbox]; exact ho) ords (fun h0 => absurd (hrn.1.symm.trans h0) hbegun)
    (by rw [hsti, ← r.state i hi]; exact h)
  have e : Function.update S₁ i { S₁ i with started := true, state := s, outbox := sends ids i ords o } =
      Function.update S i { S i with incoming := rest, state := s, outbox := sends ids i ords o } := by
    rw [hSi, hS₁, Function.update_idem]
    congr 1
    simp [hs]
  rw [e] at this
  exact this

/-- Every step of the process is a few steps, or none, of the network. -/
theorem Run.step (P : Protocol impl ids r₀ coins M out Good tys timeout now init) (r : Run impl ids coins M init S N) (h : Step impl ids coins S S') :
    ∃ N', Run impl ids coins M init S' N' ∧ Grows N N' := by
  cases h with
  | @start i ord ords s o hi hs hp =>
    obtain ⟨h1, h2, h3⟩ := r.fresh i hi hs
    rw [r.state i hi] at hp
    have hN := P.netInv r.path
    have h0 : (N.state i).roundNumber = 0 ∧ (N.state i).done = false := by rw [h3, P.init i hi]; exact ⟨rfl, rfl⟩
    have hf : Full impl (N.state i) := by
      refine full_of_keys (inv_hist P.honest.stable (hN.hist i hi)) ?_ ?_ ?_
      · rw [P.honest.parties i hi]; exact P.honest.nodup
      · rw [P.honest.parties i hi, P.honest.self i hi]; exact hi
      · intro k hk
        rw [((inv_hist P.honest.stable (hN.hist i hi)).round0 h0.1 h0.2).1, P.honest.self i hi, P.honest.parties i hi, mem_initReceived]
        rw [P.honest.self i hi, P.honest.parties i hi] at hk
        have := mem_others.mp hk
        exact Or.inr ⟨this.1, this.2⟩
    exact ⟨_, Run.process P hi r.path r.flow r.state (fun k hk _ => r.fresh k hk) (fun k hk _ => r.begun k hk) (Or.inr ⟨hf, h0.2⟩) r.outs r.coded r.senders h1 ords
      (fun _ => rfl) hp, grows_after _ _ _ _ _⟩
  | send hi ho hj hb => exact ⟨N, r.send hi ho, Grows.refl N⟩
  | take hi hh hb =>
    obtain ⟨m, hm⟩ := r.coded _ hi _ (by rw [hb]; exact List.mem_cons_self)
    exact ⟨N, r.shuffle rfl rfl rfl (pipe_take hh hb hm) (fun c hc => by rw [hb]; exact List.mem_cons_of_mem _ hc), Grows.refl N⟩
  | put hi hh hl => exact ⟨N, r.shuffle rfl rfl rfl (pipe_put hh) (fun c hc => hc), Grows.refl N⟩
  | recv hi hs he ho hin hp => exact ⟨_, r.recv P hi hs ho hin hp, (grows_after _ _ _ _ _).trans (grows_after _ _ _ _ _)⟩
  | exit hi hs he ho hc => exact ⟨N, r.shuffle rfl rfl rfl rfl (fun c hc => hc), Grows.refl N⟩

theorem Run.steps (P : Protocol impl ids r₀ coins M out Good tys timeout now init) (r : Run impl ids coins M init S N) (h : Steps impl ids coins S S') :
    ∃ N', Run impl ids coins M init S' N' ∧ Grows N N' := by
  induction h with
  | refl => exact ⟨N, r, Grows.refl N⟩
  | tail _ h ih =>
    obtain ⟨N', r', g⟩ := ih
    obtain ⟨N'', r'', g'⟩ := r'.step P h
    exact ⟨N'', r'', g.trans g'⟩

end

end Verif.Chan
