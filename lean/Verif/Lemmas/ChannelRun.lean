import Verif.Lemmas.Channel

/-!
Parties connected by channels: nothing blocks for ever, everything ends, and a message that was refused is lost.
-/

namespace Verif.Chan

open State Spec

variable {G R : Type} [RGroup G]

section

variable {impl : RoundImpl G R} {ids : IDSlice} {r₀ : ID → R} {coins : ID → Coins} {M : Nat → ID → ID → Message G}
  {out : ID → Nat → List (Message G)} {Good : ID → Nat → R → Prop} {timeout now : ID → Nat} {N : Net G R} {tys : List MsgType}
  {init : ID → State G R} {S S' : Sys G R}

/-- A party that got past a round has accepted the messages of that round. -/
theorem took (P : Protocol impl ids r₀ coins M out Good tys timeout now init) (hp : Path impl ids coins (Net.start init) N) {i : ID} (hi : i ∈ ids)
    {n : Nat} (h1 : 1 ≤ n) (hn : n < prog (N.state i)) {k : ID} (hk : k ∈ others i ids) : Handled (N.hist i) (M n k i) := by
  generalize hN₀ : Net.start init = N₀ at hp
  induction hp with
  | refl =>
    subst hN₀
    have : prog (init i) = 0 := by rw [P.init i hi]; rfl
    rw [show (Net.start init).state i = init i from rfl, this] at hn
    omega
  | @tail N' j op ret s hp hj ha hs ih =>
    subst hN₀
    by_cases hij : i = j
    swap
    · simp only [Net.after, Function.update_of_ne hij] at hn ⊢
      exact ih hn
    subst hij
    simp only [Net.after, Function.update_self] at hn ⊢
    by_cases hlt : n < prog (N'.state i)
    · exact (ih hlt).mono
    have hN := P.netInv hp
    rcases step_cases hs with ⟨m, e, rfl, rfl, h2⟩ | ⟨ord, c, o, rfl, rfl, h2⟩ | ⟨dt, rfl, rfl, rfl⟩ |
      ⟨rfl, rfl, rfl | ⟨t, _, _, rfl⟩⟩ | ⟨rfl, rfl, ⟨_, rfl⟩ | ⟨_, _, rfl⟩ | ⟨r, hf, hd, _⟩⟩
    · exact absurd hn (by cases handle_cases _ h2 <;> exact hlt)
    · obtain ⟨t, o', h3, h4, h5⟩ := hN.process P.honest hi ord c ha
      rw [(processAll_iff impl).mpr h2] at h3
      obtain ⟨rfl, rfl⟩ := Prod.mk.inj (Option.some.inj h3)
      rcases h5 with ⟨_, rfl, rfl⟩ | ⟨hd, rfl, h5, h6⟩
      · exact absurd hn hlt
      have hpr : prog (N'.state i) = (N'.state i).roundNumber := by simp [prog, hd]
      have hnr : n = (N'.state i).roundNumber := by omega
      have hf : Full impl (N'.state i) := by
        by_contra hf
        have := (processAll_iff impl).mpr (.idle (ord := ord) (coins := c) (Or.inr hf))
        rw [(processAll_iff impl).mpr h2] at this
        have h7 : s = N'.state i := (Prod.mk.inj (Option.some.inj this)).1
        rw [h7, hpr] at h5
        omega
      obtain ⟨g1, _, g3⟩ := hN.stored P.honest hi hd hf ord
      have hready := ready P.honest.stable (hN.hist i hi) (by rw [P.honest.parties i hi]; exact P.honest.nodup)
        (by rw [P.honest.self i hi, P.honest.parties i hi]; exact hi) hd hf ord
      obtain ⟨⟨k', v⟩, hv, rfl⟩ := List.mem_map.mp (g1.mem_iff.mpr hk)
      have e1 := g3 (by omega) k' v hv
      obtain ⟨m, e2, _, _, e3, _⟩ := hready.later (by omega) k' v hv
      rw [e1] at e2
      rw [hnr, Option.some.inj e2]
      exact e3.mono
    · exact absurd hn hlt
    · exact absurd hn hlt
    · exact absurd hn hlt
    · exact absurd hn hlt
    · exact absurd hn hlt
    · rcases ha with ha | ha
      · exact absurd ha hf
      · rw [hd] at ha; cases ha

theorem M_ne (P : Protocol impl ids r₀ coins M out Good tys timeout now init) {i j : ID} (hi : i ∈ ids) (hj : j ∈ ids) (hne : i ≠ j) : M 1 i j ≠ M 2 i j := by
  intro h
  have h1 := (P.honest.out_spec i hi 0 (by omega) _ (P.honest.out_mem i hi j hj (Ne.symm hne) 0 (by omega)).1).2.1
  have h2 := (P.honest.out_spec i hi 1 (by omega) _ (P.honest.out_mem i hi j hj (Ne.symm hne) 1 (by omega)).1).2.1
  simp only [Nat.zero_add, Nat.reduceAdd] at h1 h2
  rw [← h] at h2
  exact absurd (index_inj P.honest.tys_nodup h1 h2) (by omega)

theorem M_from (P : Protocol impl ids r₀ coins M out Good tys timeout now init) {i j : ID} (hi : i ∈ ids) (hj : j ∈ ids) (hne : i ≠ j) {n : Nat} (hn : n < 2) :
    (M (n + 1) i j).header.fromID = i ∧ tys[n + 1]? = some (M (n + 1) i j).header.type ∧ ((M (n + 1) i j).header.toID = 0 ∨ (M (n + 1) i j).header.toID = j) := by
  have h1 := P.honest.out_mem i hi j hj (Ne.symm hne) n hn
  have h2 := P.honest.out_spec i hi n hn _ h1.1
  exact ⟨h2.1, h2.2.1, h1.2⟩

omit [RGroup G] in
theorem nodup_of_parties {l : List (Message G)} (h : ∀ i, (l.filter (fromParty i)).Nodup) : l.Nodup := by
  induction l with
  | nil => exact List.nodup_nil
  | cons m l ih =>
    rw [List.nodup_cons]
    constructor
    · intro hm
      have := h m.header.fromID
      rw [List.filter_cons_of_pos (by simp [fromParty]), List.nodup_cons] at this
      exact this.1 (List.mem_filter.mpr ⟨hm, by simp [fromParty]⟩)
    · refine ih fun i => ?_
      have := h i
      rw [List.filter_cons] at this
      split at this
      · exact (List.nodup_cons.mp this).2
      · exact this

/-- Nothing arrives twice. -/
theorem Run.nodup (P : Protocol impl ids r₀ coins M out Good tys timeout now init) (r : Run impl ids coins M init S N) {j : ID} (hj : j ∈ ids) :
    (given (N.hist j) ++ pipe (S j)).Nodup := by
  refine nodup_of_parties fun i => ?_
  by_cases hi : i ∈ ids ∧ i ≠ j
  · have h := r.flow i hi.1 j hj hi.2
    have : ([M 1 i j, M 2 i j].take (prog (N.state i))).Nodup := by
      refine List.Sublist.nodup (List.take_sublist _ _) ?_
      simp [M_ne P hi.1 hj hi.2]
    rw [← h] at this
    exact (List.nodup_append.mp this).1
  · rw [List.filter_eq_nil_iff.mpr]
    · exact List.nodup_nil
    · intro m hm hf
      have hf : m.header.fromID = i := of_decide_eq_true hf
      rw [← hf] at hi
      exact hi (mem_others.mp (r.senders j hj m hm))

omit [RGroup G] in
theorem given_once {h : List (Op G × Ret G)} (hn : (given h).Nodup) {m : Message G} {r r' : Ret G} (h1 : (Op.handle m, r) ∈ h) (h2 : (Op.handle m, r') ∈ h) : r = r' := by
  have hmem : ∀ {l : List (Op G × Ret G)} {r}, (Op.handle m, r) ∈ l → m ∈ given l := fun h => List.mem_filterMap.mpr ⟨_, h, rfl⟩
  induction h with
  | nil => cases h1
  | cons x h ih =>
    have e : given (x :: h) = given [x] ++ given h := given_append [x] h
    rw [e] at hn
    rcases List.mem_cons.mp h1 with rfl | h3
    · rcases List.mem_cons.mp h2 with h4 | h4
      · exact (Prod.mk.inj h4).2.symm
      · exact absurd (hmem h4) (fun hh => (List.nodup_append.mp hn).2.2 m (List.mem_singleton.mpr rfl) m hh rfl)
    · rcases List.mem_cons.mp h2 with rfl | h4
      · exact absurd (hmem h3) (fun hh => (List.nodup_append.mp hn).2.2 m (List.mem_singleton.mpr rfl) m hh rfl)
      · exact ih (List.nodup_append.mp hn).2.1 h3 h4

/-- A party that refused a message of the last round never finishes. -/
theorem Run.stuck (P : Protocol impl ids r₀ coins M out Good tys timeout now init) (r : Run impl ids coins M init S N) {a b : ID} (ha : a ∈ ids) (hb : b ∈ others a ids)
    {e : HandleErr} (h : (Op.handle (M 2 b a), Ret.handled (some e)) ∈ N.hist a) : (S a).state.done = false := by
  rw [r.state a ha]
  by_contra hd
  rw [Bool.not_eq_false] at hd
  have h1 := took P r.path ha (n := 2) (by omega) (by simp [prog, hd]) hb
  have := given_once (List.nodup_append.mp (r.nodup P ha)).1 h h1
  cases this

/-- How much can be under way to a party. -/
theorem Run.arrived_length (P : Protocol impl ids r₀ coins M out Good tys timeout now init) (r : Run impl ids coins M init S N) {j : ID} (hj : j ∈ ids) :
    (given (N.hist j) ++ pipe (S j)).length ≤ 2 * (ids.length - 1) := by
  have hsub : (given (N.hist j) ++ pipe (S j)) ⊆ (others j ids).flatMap fun i => [M 1 i j, M 2 i j] := by
    intro m hm
    have h1 := r.senders j hj m hm
    obtain ⟨h2, h3⟩ := mem_others.mp h1
    refine List.mem_flatMap.mpr ⟨_, h1, ?_⟩
    refine List.mem_of_mem_take (i := prog (N.state m.header.fromID)) ?_
    rw [← r.flow _ h2 j hj h3]
    exact List.mem_append_left _ (List.mem_filter.mpr ⟨hm, by simp [fromParty]⟩)
  have h := (List.subperm_of_subset (r.nodup P hj) hsub).length_le
  have e : (others j ids).length = ids.length - 1 := by
    have := (Keygen.filter_self_length P.honest.nodup hj)
    have h2 := Props.N_pred_eq (List.ne_nil_of_mem hj) (Props.nodup_ids_length P.honest.nodup)
    rw [this, h2]
  rw [List.length_flatMap] at h
  simp only [List.length_cons, List.length_nil, List.map_const', List.sum_replicate, e] at h
  simpa [Nat.mul_comm] using h

theorem Run.pipe_length (P : Protocol impl ids r₀ coins M out Good tys timeout now init) (r : Run impl ids coins M init S N) {j : ID} (hj : j ∈ ids) :
    (S j).incoming.length + (S j).held.toList.length + (S j).bytes.length ≤ 2 * (ids.length - 1) := by
  have h1 := r.arrived_length P hj
  have h2 : ((S j).bytes.filterMap (decode (G := G))).length = (S j).bytes.length := by
    rw [List.length_filterMap_eq_countP, List.countP_eq_length]
    intro b hb
    obtain ⟨m, hm⟩ := r.coded j hj b hb
    rw [hm]; rfl
  rw [List.length_append, pipe, List.length_append, List.length_append, h2] at h1
  omega

theorem Steps.trans {S₁ S₂ S₃ : Sys G R} (h1 : Steps impl ids coins S₁ S₂) (h2 : Steps impl ids coins S₂ S₃) : Steps impl ids coins S₁ S₃ := by
  induction h2 with
  | refl => exact h1
  | tail _ h ih => exact ih.tail h

theorem Steps.one (h : Step impl ids coins S S') : Steps impl ids coins S S' := (Steps.refl S).tail h

/-- The same but for what is where in the pipes. -/
structure Same (S S' : Sys G R) : Prop where
  state : ∀ k, (S' k).state = (S k).state
  started : ∀ k, (S' k).started = (S k).started
  exited : ∀ k, (S' k).exited = (S k).exited
  outbox : ∀ k, (S' k).outbox = (S k).outbox
  pipe : ∀ k, pipe (S' k) = pipe (S k)

theorem Same.refl (S : Sys G R) : Same S S := ⟨fun _ => rfl, fun _ => rfl, fun _ => rfl, fun _ => rfl, fun _ => rfl⟩

theorem Same.trans {S₁ S₂ S₃ : Sys G R} (h1 : Same S₁ S₂) (h2 : Same S₂ S₃) : Same S₁ S₃ :=
  ⟨fun k => (h2.state k).trans (h1.state k), fun k => (h2.started k).trans (h1.started k), fun k => (h2.exited k).trans (h1.exited k),
    fun k => (h2.outbox k).trans (h1.outbox k), fun k => (h2.pipe k).trans (h1.pipe k)⟩

theorem same_update {i : ID} {nd : Node G R} (h1 : nd.state = (S i).state) (h2 : nd.started = (S i).started) (h3 : nd.exited = (S i).exited)
    (h4 : nd.outbox = (S i).outbox) (h5 : Chan.pipe nd = Chan.pipe (S i)) : Same S (Function.update S i nd) :=
  ⟨fun k => update_mem (P := fun x : Node G R => x.state = (S k).state) (fun h => by rw [h1, h]) (fun _ => rfl),
    fun k => update_mem (P := fun x : Node G R => x.started = (S k).started) (fun h => by rw [h2, h]) (fun _ => rfl),
    fun k => update_mem (P := fun x : Node G R => x.exited = (S k).exited) (fun h => by rw [h3, h]) (fun _ => rfl),
    fun k => update_mem (P := fun x : Node G R => x.outbox = (S k).outbox) (fun h => by rw [h4, h]) (fun _ => rfl),
    fun k => update_mem (P := fun x : Node G R => Chan.pipe x = Chan.pipe (S k)) (fun h => by rw [h5, h]) (fun _ => rfl)⟩

/-- `handleByteChan` can hand on what it holds, if `incoming` has room. -/
theorem Run.unload (r : Run impl ids coins M init S N) {j : ID} (hj : j ∈ ids)
    (hroom : (S j).incoming.length < ids.length) : ∃ S', Steps impl ids coins S S' ∧ Run impl ids coins M init S' N ∧ Same S S' ∧ (S' j).held = none ∧
      (S' j).bytes = (S j).bytes ∧ (S' j).incoming = (S j).incoming ++ (S j).held.toList := by
  cases hh : (S j).held with
  | none => exact ⟨S, .refl S, r, Same.refl S, hh, rfl, by simp⟩
  | some m =>
    exact ⟨_, Steps.one (.put hj hh hroom), r.shuffle rfl rfl rfl (pipe_put hh) (fun c hc => hc), same_update rfl rfl rfl rfl (pipe_put hh),
      by simp, by simp, by simp⟩

/-- `handleByteChan` can take bytes, if it holds nothing. -/
theorem Run.takeOne (r : Run impl ids coins M init S N) {j : ID} (hj : j ∈ ids) (hh : (S j).held = none) {b : Bytes} {rest : List Bytes}
    (hb : (S j).bytes = b :: rest) : ∃ S' m, Steps impl ids coins S S' ∧ Run impl ids coins M init S' N ∧ Same S S' ∧ decode b = some m ∧ (S' j).held = some m ∧
      (S' j).bytes = rest ∧ (S' j).incoming = (S j).incoming := by
  obtain ⟨m, hm⟩ := r.coded _ hj _ (by rw [hb]; exact List.mem_cons_self)
  exact ⟨_, m, Steps.one (.take hj hh hb), r.shuffle rfl rfl rfl (pipe_take hh hb hm) (fun c hc => by rw [hb]; exact List.mem_cons_of_mem _ hc),
    same_update rfl rfl rfl rfl (pipe_take hh hb hm), hm, by simp [hm], by simp, by simp⟩

/-- There is always room in the channel of bytes, possibly after `handleByteChan` has done some work. -/
theorem Run.room (P : Protocol impl ids r₀ coins M out Good tys timeout now init) (r : Run impl ids coins M init S N) {j : ID} (hj : j ∈ ids) :
    ∃ S', Steps impl ids coins S S' ∧ Run impl ids coins M init S' N ∧ Same S S' ∧ (S' j).bytes.length < ids.length := by
  generalize hn : (S j).bytes.length = n
  induction n using Nat.strong_induction_on generalizing S with
  | _ n ih =>
    by_cases hlt : (S j).bytes.length < ids.length
    · exact ⟨S, .refl S, r, Same.refl S, hlt⟩
    have hlen := r.pipe_length P hj
    have hpos : 0 < ids.length := List.length_pos_of_mem hj
    obtain ⟨S₁, p1, r1, s1, h1, h2, h3⟩ := r.unload hj (by omega)
    cases hb : (S j).bytes with
    | nil => rw [hb] at hlt; exact absurd hpos hlt
    | cons b rest =>
      obtain ⟨S₂, m, p2, r2, s2, _, h4, h5, h6⟩ := r1.takeOne hj h1 (h2.trans hb)
      have hl : (S₂ j).bytes.length < n := by rw [h5, ← hn, hb]; simp
      obtain ⟨S₃, p3, r3, s3, h7⟩ := ih _ hl r2 rfl
      exact ⟨S₃, (p1.trans p2).trans p3, r3, (s1.trans s2).trans s3, h7⟩

/-- What is oldest in the pipe gets to where the handler can take it. -/
theorem Run.ready (r : Run impl ids coins M init S N) {j : ID} (hj : j ∈ ids) {m : Message G} {rest : List (Message G)} (hp : pipe (S j) = m :: rest) :
    ∃ S' l, Steps impl ids coins S S' ∧ Run impl ids coins M init S' N ∧ Same S S' ∧ (S' j).incoming = m :: l := by
  have hpos : 0 < ids.length := List.length_pos_of_mem hj
  cases hin : (S j).incoming with
  | cons m' l =>
    rw [pipe, hin] at hp
    have : m' = m := (List.cons.inj hp).1
    subst this
    exact ⟨S, l, .refl S, r, Same.refl S, hin⟩
  | nil =>
    obtain ⟨S₁, p1, r1, s1, h1, h2, h3⟩ := r.unload hj (by rw [hin]; exact hpos)
    rw [hin, List.nil_append] at h3
    have hp1 := (s1.pipe j).trans hp
    cases hh : (S j).held with
    | some m' =>
      rw [pipe, h3, hh] at hp1
      have : m' = m := (List.cons.inj hp1).1
      subst this
      exact ⟨S₁, [], p1, r1, s1, by rw [h3, hh]; rfl⟩
    | none =>
      rw [hh] at h3
      cases hb : (S j).bytes with
      | nil => rw [pipe, h3, h1, h2, hb] at hp1; cases hp1
      | cons b bs =>
        obtain ⟨S₂, m', p2, r2, s2, h0, h4, h5, h6⟩ := r1.takeOne hj h1 (h2.trans hb)
        rw [pipe, h3, h1, h2, hb] at hp1
        simp only [Option.toList, List.nil_append, List.filterMap_cons, h0] at hp1
        have : m' = m := (List.cons.inj hp1).1
        subst this
        obtain ⟨S₃, p3, r3, s3, h7, h8, h9⟩ := r2.unload hj (by rw [h6, h3]; exact hpos)
        exact ⟨S₃, [], (p1.trans p2).trans p3, r3, (s1.trans s2).trans s3, by rw [h9, h6, h3, h4]; rfl⟩

/-- A pending send gets done. -/
theorem Run.sendOne (P : Protocol impl ids r₀ coins M out Good tys timeout now init) (r : Run impl ids coins M init S N) {i j : ID} (hi : i ∈ ids) {b : Bytes}
    {rest : List (ID × Bytes)} (ho : (S i).outbox = (j, b) :: rest) :
    ∃ S' m, Steps impl ids coins S S' ∧ Run impl ids coins M init S' N ∧ decode b = some m ∧ (∀ k, (S' k).state = (S k).state ∧ (S' k).started = (S k).started ∧
      (S' k).exited = (S k).exited) ∧ (S' i).outbox = rest ∧ (∀ k, k ≠ i → (S' k).outbox = (S k).outbox) ∧ pipe (S' j) = pipe (S j) ++ [m] ∧
      ∀ k, k ≠ j → pipe (S' k) = pipe (S k) := by
  obtain ⟨hj, m, hm, _⟩ := r.outs i hi (j, b) (by rw [ho]; exact List.mem_cons_self)
  obtain ⟨hj, hne⟩ := mem_others.mp hj
  simp only [] at hm hj hne
  obtain ⟨S₁, p1, r1, s1, h1⟩ := r.room P hj
  have ho1 := (s1.outbox i).trans ho
  have hS' : Function.update S₁ i { S₁ i with outbox := rest } j = S₁ j := Function.update_of_ne hne _ _
  refine ⟨_, m, p1.tail (.send hi ho1 hj h1), r1.send hi ho1, hm, ?_, ?_, ?_, ?_, ?_⟩
  · intro k
    by_cases hkj : k = j
    · subst hkj
      simp only [Function.update_self, hS']
      exact ⟨s1.state k, s1.started k, s1.exited k⟩
    · simp only [Function.update_of_ne hkj]
      by_cases hki : k = i
      · subst hki
        simp only [Function.update_self]
        exact ⟨s1.state k, s1.started k, s1.exited k⟩
      · simp only [Function.update_of_ne hki]
        exact ⟨s1.state k, s1.started k, s1.exited k⟩
  · simp [Function.update_of_ne (Ne.symm hne)]
  · intro k hki
    by_cases hkj : k = j
    · subst hkj
      simp only [Function.update_self, hS']
      exact s1.outbox k
    · simp only [Function.update_of_ne hkj, Function.update_of_ne hki]
      exact s1.outbox k
  · simp only [Function.update_self, hS']
    rw [← s1.pipe j]
    simp [pipe, hm]
  · intro k hkj
    simp only [Function.update_of_ne hkj]
    by_cases hki : k = i
    · subst hki
      simp only [Function.update_self]
      exact s1.pipe k
    · simp only [Function.update_of_ne hki]
      exact s1.pipe k

/-- All pending sends of a party get done. -/
theorem Run.flush (P : Protocol impl ids r₀ coins M out Good tys timeout now init) (r : Run impl ids coins M init S N) {i : ID} (hi : i ∈ ids) :
    ∃ S', Steps impl ids coins S S' ∧ Run impl ids coins M init S' N ∧ (∀ k, (S' k).state = (S k).state ∧ (S' k).started = (S k).started ∧
      (S' k).exited = (S k).exited) ∧ (S' i).outbox = [] ∧ (∀ k, k ≠ i → (S' k).outbox = (S k).outbox) ∧
      ∀ k, pipe (S' k) = pipe (S k) ++ boxTo (S i).outbox k := by
  generalize ho : (S i).outbox = l
  induction l generalizing S with
  | nil => exact ⟨S, .refl S, r, fun k => ⟨rfl, rfl, rfl⟩, ho, fun _ _ => rfl, fun k => by simp [boxTo]⟩
  | cons p l ih =>
    obtain ⟨j, b⟩ := p
    obtain ⟨S₁, m, p1, r1, h1, h2, h3, h4, h5, h6⟩ := r.sendOne P hi ho
    obtain ⟨S₂, p2, r2, g1, g2, g3, g4⟩ := ih r1 h3
    refine ⟨S₂, p1.trans p2, r2, fun k => ?_, g2, fun k hk => (g3 k hk).trans (h4 k hk), fun k => ?_⟩
    · obtain ⟨a1, a2, a3⟩ := g1 k
      obtain ⟨b1, b2, b3⟩ := h2 k
      exact ⟨a1.trans b1, a2.trans b2, a3.trans b3⟩
    · rw [g4 k]
      by_cases hk : k = j
      · subst hk
        rw [h5, boxTo_cons_self k b l h1, List.append_assoc]
        rfl
      · rw [h6 k hk, boxTo_cons_ne (Ne.symm hk)]

/-- A handler that is not sending takes the next message. -/
theorem Run.recvOne (P : Protocol impl ids r₀ coins M out Good tys timeout now init) (r : Run impl ids coins M init S N) {j : ID} (hj : j ∈ ids) {m : Message G}
    {rest : List (Message G)} (hs : (S j).started = true) (he : (S j).exited = false) (ho : (S j).outbox = []) (hp : pipe (S j) = m :: rest)
    (ord : MapOrder) (ords : Nat → MapOrder) (c : Coins) :
    ∃ S' N' s o, Steps impl ids coins S S' ∧ Run impl ids coins M init S' N' ∧
      N' = (N.after j (.handle m) (.handled (handleMessage impl (N.state j) m).2) (handleMessage impl (N.state j) m).1).after j (.processAll ord c) (.messages o) s ∧
      processAll impl ord c (handleMessage impl (N.state j) m).1 = some (s, o) ∧ (S' j).outbox = sends ids j ords o ∧ pipe (S' j) = rest ∧
      (∀ k, (S' k).started = (S k).started ∧ (S' k).exited = (S k).exited) ∧
      ∀ k, k ≠ j → (S' k).state = (S k).state ∧ (S' k).outbox = (S k).outbox ∧ pipe (S' k) = pipe (S k) := by
  obtain ⟨S₁, l, p1, r1, s1, h1⟩ := r.ready hj hp
  set N₁ := N.after j (.handle m) (.handled (handleMessage impl (N.state j) m).2) (handleMessage impl (N.state j) m).1 with hN₁
  have hsent := (r.sent P hj (m := m) (by rw [hp]; exact List.mem_cons_self)).1
  have hpath : Path impl ids coins (Net.start init) N₁ := r.path.tail (op := .handle m) hj hsent rfl
  have hsti : N₁.state j = (handleMessage impl (N.state j) m).1 := by simp [N₁, Net.after]
  have hrn : (N₁.state j).roundNumber = (N.state j).roundNumber := by
    rw [hsti]
    have := handle_cases impl (Prod.mk.eta (p := handleMessage impl (N.state j) m)).symm
    generalize (handleMessage impl (N.state j) m).1 = t at *
    generalize (handleMessage impl (N.state j) m).2 = e at *
    cases this <;> rfl
  obtain ⟨s, o, h2, _, _⟩ := (P.netInv hpath).process P.honest hj ord c (fun h0 => absurd (hrn.symm.trans h0) (r.begun j hj hs))
  rw [hsti] at h2
  have hs1 := (s1.started j).trans hs
  have ho1 := (s1.outbox j).trans ho
  have h2' : processAll impl ord c (handleMessage impl (S₁ j).state m).1 = some (s, o) := by
    rw [s1.state j, r.state j hj]; exact h2
  have hpipe : pipe { S₁ j with incoming := l, state := s, outbox := sends ids j ords o } = rest := by
    have := (s1.pipe j).trans hp
    rw [pipe, h1] at this
    exact (List.cons.inj this).2
  refine ⟨_, _, s, o, p1.tail (.recv (ords := ords) hj hs1 ((s1.exited j).trans he) ho1 h1 h2'), r1.recv P hj hs1 ho1 h1 h2', rfl, h2, ?_, ?_, ?_, ?_⟩
  · simp
  · simp only [Function.update_self]; exact hpipe
  · intro k
    by_cases hk : k = j
    · subst hk; simp only [Function.update_self]; exact ⟨s1.started k, s1.exited k⟩
    · simp only [Function.update_of_ne hk]; exact ⟨s1.started k, s1.exited k⟩
  · intro k hk
    simp only [Function.update_of_ne hk]
    exact ⟨s1.state k, s1.outbox k, s1.pipe k⟩

end

end Verif.Chan
