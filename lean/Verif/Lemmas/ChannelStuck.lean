import Verif.Lemmas.ChannelRun

/-!
Parties connected by channels: three or more parties can get stuck.
-/

namespace Verif.Chan

open State Spec

variable {G R : Type} [RGroup G]

/-- The order of iteration that has `b` first. -/
def firstOrder (b : ID) : MapOrder :=
  ⟨fun _ m => m.filter (fun p => decide (p.1 = b)) ++ m.filter (fun p => !decide (p.1 = b)), fun _ m => List.filter_append_perm _ m⟩

theorem firstOrder_channels {ids : List ID} (hnd : ids.Nodup) {b : ID} (hb : b ∈ ids) :
    ((firstOrder b).order _ (channels ids)).map Prod.fst = b :: ids.filter fun id => !decide (id = b) := by
  have h1 : (channels ids).filter (fun p => decide (p.1 = b)) = [(b, ())] := by
    rw [channels, List.filter_map]
    have : ids.filter ((fun p : ID × Unit => decide (p.1 = b)) ∘ fun id => (id, ())) = [b] := by
      show ids.filter (fun id => decide (id = b)) = [b]
      rw [List.filter_eq, List.count_eq_one_of_mem hnd hb]; rfl
    rw [this]; rfl
  show ((channels ids).filter (fun p => decide (p.1 = b)) ++ (channels ids).filter (fun p => !decide (p.1 = b))).map Prod.fst = _
  rw [h1, List.map_append, channels, List.filter_map, List.map_map]
  show b :: List.map (fun id => id) _ = _
  rw [List.map_id']
  rfl

section

variable {impl : RoundImpl G R} {ids : IDSlice} {r₀ : ID → R} {coins : ID → Coins} {M : Nat → ID → ID → Message G}
  {out : ID → Nat → List (Message G)} {Good : ID → Nat → R → Prop} {timeout now : ID → Nat} {N : Net G R} {tys : List MsgType}
  {init : ID → State G R} {S S' : Sys G R}

theorem full_iff (P : Protocol impl ids r₀ coins M out Good tys timeout now init) (hp : Path impl ids coins (Net.start init) N) {i : ID} (hi : i ∈ ids)
    {s : State G R} (hs : impl.partyIDs s.round = impl.partyIDs (N.state i).round) : Full impl s ↔ s.received.length = ids.length - 1 := by
  unfold Full
  rw [hs, (inv_hist P.honest.stable ((P.netInv hp).hist i hi)).ids, P.honest.parties i hi,
    Props.N_pred_eq (List.ne_nil_of_mem hi) (Props.nodup_ids_length P.honest.nodup)]

/-- The first call of `ProcessAll`. -/
theorem first_process (P : Protocol impl ids r₀ coins M out Good tys timeout now init) (hp : Path impl ids coins (Net.start init) N) {i : ID} (hi : i ∈ ids)
    (hs : N.state i = init i) (ord : MapOrder) : ∃ s, processAll impl ord (coins i) (N.state i) = some (s, out i 0) ∧ Between 1 s := by
  have hN := P.netInv hp
  have hinv := inv_hist P.honest.stable (hN.hist i hi)
  have h0 : (N.state i).roundNumber = 0 ∧ (N.state i).done = false := by rw [hs, P.init i hi]; exact ⟨rfl, rfl⟩
  have hf : Full impl (N.state i) := by
    refine full_of_keys hinv ?_ ?_ ?_
    · rw [P.honest.parties i hi]; exact P.honest.nodup
    · rw [P.honest.parties i hi, P.honest.self i hi]; exact hi
    · intro k hk
      rw [(hinv.round0 h0.1 h0.2).1, P.honest.self i hi, P.honest.parties i hi, mem_initReceived]
      rw [P.honest.self i hi, P.honest.parties i hi] at hk
      have := mem_others.mp hk
      exact Or.inr ⟨this.1, this.2⟩
  obtain ⟨s, o, h1, _, h2⟩ := hN.process P.honest hi ord (coins i) (fun _ => rfl)
  rcases h2 with ⟨h2 | h2, _⟩ | ⟨_, rfl, h3, h4⟩
  · rw [h0.2] at h2; cases h2
  · exact absurd hf h2
  rw [h0.1] at h1 h3 h4
  refine ⟨s, h1, ?_⟩
  have hd : s.done = false := by
    by_contra hd
    rw [Bool.not_eq_false] at hd
    simp [prog, hd] at h3
  have hq := (hinv.round0 h0.1 h0.2).2
  generalize out i 0 = o at h1
  cases (processAll_iff impl).mp h1 with
  | idle h => rcases h with h | h
              · rw [h0.2] at h; cases h
              · exact absurd hf h
  | processErr | generateErr | last => cases hd
  | next ty types =>
    refine ⟨hd, (h4 hd).1, ?_, fun _ => ?_⟩
    · show movedQueue types (N.state i).queue = []
      rw [hq]; unfold movedQueue; split <;> rfl
    · show movedReceived types (N.state i).queue = []
      rw [hq]; unfold movedReceived; split <;> rfl

/-- What `ProcessAll` does when everything is there and nothing is queued. -/
theorem process_between (P : Protocol impl ids r₀ coins M out Good tys timeout now init) (hp : Path impl ids coins (Net.start init) N) {i : ID} (hi : i ∈ ids)
    (hd : (N.state i).done = false) (hq : (N.state i).queue = []) (hf : Full impl (N.state i)) {ord : MapOrder} {c : Coins}
    (hc : (N.state i).roundNumber = 0 → c = coins i) {s : State G R} {o : List (Message G)} (h : processAll impl ord c (N.state i) = some (s, o)) :
    o = out i (N.state i).roundNumber ∧ prog s = (N.state i).roundNumber + 1 ∧ (s.done = false → Between ((N.state i).roundNumber + 1) s) := by
  obtain ⟨s', o', h1, _, h2⟩ := (P.netInv hp).process P.honest hi ord c hc
  rw [h] at h1
  obtain ⟨rfl, rfl⟩ := Prod.mk.inj (Option.some.inj h1)
  rcases h2 with ⟨h2 | h2, _⟩ | ⟨_, ho, h3, h4⟩
  · rw [hd] at h2; cases h2
  · exact absurd hf h2
  refine ⟨ho, h3, fun hd' => ?_⟩
  have hpc := (processAll_iff impl).mp h
  clear h h1 ho
  cases hpc with
  | idle h => rcases h with h | h
              · rw [hd] at h; cases h
              · exact absurd hf h
  | processErr | generateErr | last => cases hd'
  | next ty types =>
    refine ⟨hd', (h4 hd').1, ?_, fun _ => ?_⟩
    · show movedQueue types (N.state i).queue = []
      rw [hq]; unfold movedQueue; split <;> rfl
    · show movedReceived types (N.state i).queue = []
      rw [hq]; unfold movedReceived; split <;> rfl

/-- A party that has started, has sent its first message to `b` but to nobody else, and has received nothing. -/
structure Launched (ids : List ID) (M : Nat → ID → ID → Message G) (b k : ID) (S : Sys G R) (N : Net G R) : Prop where
  started : (S k).started = true
  running : (S k).exited = false
  between : Between 1 (N.state k)
  nothing : given (N.hist k) = []
  toB : k ≠ b → boxTo (G := G) (S k).outbox b = []
  toOthers : k ≠ b → ∀ j ∈ ids, j ≠ k → j ≠ b → boxTo (S k).outbox j = [M 1 k j]

/-- A party to which nothing happened. -/
structure Keeps (k : ID) (S S' : Sys G R) (N N' : Net G R) : Prop where
  started : (S' k).started = (S k).started
  exited : (S' k).exited = (S k).exited
  outbox : (S' k).outbox = (S k).outbox
  hist : N'.hist k = N.hist k
  state : N'.state k = N.state k

omit [RGroup G] in
theorem Keeps.trans {k : ID} {S₁ S₂ S₃ : Sys G R} {N₁ N₂ N₃ : Net G R} (h1 : Keeps k S₁ S₂ N₁ N₂) (h2 : Keeps k S₂ S₃ N₂ N₃) : Keeps k S₁ S₃ N₁ N₃ :=
  ⟨h2.1.trans h1.1, h2.2.trans h1.2, h2.3.trans h1.3, h2.4.trans h1.4, h2.5.trans h1.5⟩

theorem Launched.keeps {b k : ID} {N' : Net G R} (h : Launched ids M b k S N) (hk : Keeps k S S' N N') : Launched ids M b k S' N' :=
  ⟨hk.started.trans h.started, hk.exited.trans h.running, by rw [hk.state]; exact h.between, by rw [hk.hist]; exact h.nothing,
    fun hne => by rw [hk.outbox]; exact h.toB hne, fun hne j hj h1 h2 => by rw [hk.outbox]; exact h.toOthers hne j hj h1 h2⟩

theorem Run.launch (P : Protocol impl ids r₀ coins M out Good tys timeout now init) (r : Run impl ids coins M init S N) {b k : ID} (hb : b ∈ ids) (hk : k ∈ ids)
    (hs : (S k).started = false) (he : (S k).exited = false) :
    ∃ S' N', Steps impl ids coins S S' ∧ Run impl ids coins M init S' N' ∧ Launched ids M b k S' N' ∧ (∀ k', k' ≠ k → Keeps k' S S' N N') ∧
      ∀ j, j ≠ b → pipe (S' j) = pipe (S j) := by
  obtain ⟨h1, h2, h3⟩ := r.fresh k hk hs
  obtain ⟨s, hp, hbt⟩ := first_process P r.path hk h3 .insertion
  have hp' := hp
  rw [← r.state k hk] at hp'
  have hstep := Step.start (impl := impl) (coins := coins) (ords := fun _ => firstOrder b) hk hs hp'
  set S₁ := Function.update S k { S k with started := true, state := s, outbox := sends ids k (fun _ => firstOrder b) (out k 0) } with hS₁
  set N₁ := N.after k (.processAll .insertion (coins k)) (.messages (out k 0)) s with hN₁
  have hn1 : N₁.state k = s := by simp [N₁, Net.after]
  have hh1 : given (N₁.hist k) = [] := by simp [N₁, Net.after, h2, given]
  have r1 : Run impl ids coins M init S₁ N₁ := by
    have hf : Full impl (N.state k) ∧ (N.state k).done = false := by
      have h0 : (N.state k).done = false := by rw [h3, P.init k hk]; rfl
      refine ⟨?_, h0⟩
      by_contra hf
      have := (processAll_iff impl).mpr (.idle (ord := .insertion) (coins := coins k) (s := N.state k) (Or.inr hf))
      rw [hp] at this
      have e : s = N.state k := (Prod.mk.inj (Option.some.inj this)).1
      have := hbt.round
      rw [e, h3, P.init k hk] at this
      cases this
    exact Run.process P hk r.path r.flow r.state (fun k hk _ => r.fresh k hk) (fun k hk _ => r.begun k hk) (Or.inr hf) r.outs r.coded r.senders h1 _ (fun _ => rfl) hp
  have e1 : (S₁ k) = { S k with started := true, state := s, outbox := sends ids k (fun _ => firstOrder b) (out k 0) } := by simp [S₁]
  have keeps : ∀ k', k' ≠ k → Keeps k' S S₁ N N₁ := fun k' hk' => by
    constructor <;> simp [S₁, N₁, Net.after, Function.update_of_ne hk']
  have hpipe : ∀ j, pipe (S₁ j) = pipe (S j) := fun j => update_mem (P := fun x => pipe x = pipe (S j)) (fun h => by subst h; rfl) (fun _ => rfl)
  have hbox : ∀ j ∈ ids, j ≠ k → boxTo (S₁ k).outbox j = [M 1 k j] := fun j hj hne => by rw [e1]; exact boxTo_out P hk hj (Ne.symm hne) (by omega) _
  by_cases hkb : k = b
  · subst hkb
    exact ⟨S₁, N₁, Steps.one hstep, r1, ⟨by rw [e1], by rw [e1]; exact he, by rw [hn1]; exact hbt, hh1, fun h => absurd rfl h, fun h => absurd rfl h⟩, keeps,
      fun j _ => hpipe j⟩
  · obtain ⟨msg, hm1, hm2⟩ := P.addressed.first k hk
    obtain ⟨bt, hc1, hc2⟩ := P.lockstep.codec k hk 0 (by omega) msg (by rw [hm1]; exact List.mem_cons_self)
    have ho : ∃ rest, (S₁ k).outbox = (b, bt) :: rest := by
      rw [e1, hm1]
      simp only [sends, Chan.send, hc1, show msg.header.isBroadcast = true by simp [Header.isBroadcast, hm2], if_true, firstOrder_channels P.honest.nodup hb]
      rw [List.filter_cons_of_pos (by simp [Ne.symm hkb])]
      exact ⟨_, rfl⟩
    obtain ⟨rest, ho⟩ := ho
    obtain ⟨S₂, m, p2, r2, g1, g2, g3, g4, g5, g6⟩ := r1.sendOne P hk ho
    refine ⟨S₂, N₁, (Steps.one hstep).trans p2, r2, ⟨?_, ?_, ?_, hh1, fun _ => ?_, fun _ j hj hjk hjb => ?_⟩, fun k' hk' => ?_, fun j hj => (g6 j hj).trans (hpipe j)⟩
    · rw [(g2 k).2.1, e1]
    · rw [(g2 k).2.2, e1]; exact he
    · rw [hn1]; exact hbt
    · rw [g3]
      have := hbox b hb (Ne.symm hkb)
      rw [ho, boxTo_cons_self b bt rest g1] at this
      exact (List.cons.inj this).2
    · rw [g3]
      have := hbox j hj hjk
      rwa [ho, boxTo_cons_ne (Ne.symm hjb)] at this
    · have h := keeps k' hk'
      exact ⟨(g2 k').2.1.trans h.1, (g2 k').2.2.trans h.2, (g4 k' hk').trans h.3, h.4, h.5⟩

theorem Run.launchAll (P : Protocol impl ids r₀ coins M out Good tys timeout now init) (r : Run impl ids coins M init S N) {b : ID} (hb : b ∈ ids) (l : List ID)
    (hl : ∀ k ∈ l, k ∈ ids) (hnd : l.Nodup) (hs : ∀ k ∈ l, (S k).started = false ∧ (S k).exited = false) :
    ∃ S' N', Steps impl ids coins S S' ∧ Run impl ids coins M init S' N' ∧ (∀ k ∈ l, Launched ids M b k S' N') ∧ (∀ k', k' ∉ l → Keeps k' S S' N N') ∧
      ∀ j, j ≠ b → pipe (S' j) = pipe (S j) := by
  induction l generalizing S N with
  | nil => exact ⟨S, N, .refl S, r, fun k hk => absurd hk List.not_mem_nil, fun _ _ => ⟨rfl, rfl, rfl, rfl, rfl⟩, fun _ _ => rfl⟩
  | cons k l ih =>
    obtain ⟨h1, h2⟩ := hs k List.mem_cons_self
    obtain ⟨S₁, N₁, p1, r1, g1, g2, g3⟩ := r.launch P hb (hl k List.mem_cons_self) h1 h2
    rw [List.nodup_cons] at hnd
    obtain ⟨S₂, N₂, p2, r2, f1, f2, f3⟩ := ih r1 (fun k' hk' => hl k' (List.mem_cons_of_mem _ hk')) hnd.2 (fun k' hk' => by
      have := g2 k' (fun h => hnd.1 (h ▸ hk'))
      rw [this.1, this.2]
      exact hs k' (List.mem_cons_of_mem _ hk'))
    refine ⟨S₂, N₂, p1.trans p2, r2, ?_, ?_, fun j hj => (f3 j hj).trans (g3 j hj)⟩
    · intro k' hk'
      rcases List.mem_cons.mp hk' with rfl | hk'
      · exact g1.keeps (f2 _ hnd.1)
      · exact f1 k' hk'
    · intro k' hk'
      rw [List.mem_cons, not_or] at hk'
      exact (g2 k' hk'.1).trans (f2 k' hk'.2)

/-- A message of the current round is stored. -/
theorem store_current (P : Protocol impl ids r₀ coins M out Good tys timeout now init) (hp : Path impl ids coins (Net.start init) N) {i k : ID} (hi : i ∈ ids)
    (hk : k ∈ ids) (hne : k ≠ i) {n : Nat} (hn : n < 2) (hd : (N.state i).done = false) (hrn : (N.state i).roundNumber = n + 1) (hkeys : k ∉ (N.state i).received.keys) :
    handleMessage impl (N.state i) (M (n + 1) k i) = ({ N.state i with timer := (N.state i).timer.ackMessage, received := (N.state i).received ++ [(k, some (M (n + 1) k i))] }, none) := by
  have hinv := inv_hist P.honest.stable ((P.netInv hp).hist i hi)
  obtain ⟨h1, h2, h3⟩ := M_from P hk hi hne hn
  have hhead : (N.state i).acceptedTypes.head? = some (M (n + 1) k i).header.type := by
    rw [hinv.types, P.honest.types i hi, show (N.state i).used = n + 1 by simp [used, hd, hrn], List.head?_drop]
    exact h2
  cases hacc : (N.state i).acceptedTypes with
  | nil => rw [hacc] at hhead; cases hhead
  | cons t ts =>
    rw [hacc] at hhead
    have hrel : Relevant (impl.selfID (N.state i).round) (impl.partyIDs (N.state i).round) (M (n + 1) k i) := by
      rw [hinv.self, hinv.ids, P.honest.self i hi, P.honest.parties i hi]
      exact ⟨by rw [h1]; exact hne, h3, IDSlice.contains_complete P.honest.sorted (by rw [h1]; exact hk)⟩
    have := handle_stores hd hacc hrel (by rw [h1]; exact hkeys) (Option.some.inj hhead).symm
    rw [this, h1, GoMap.set_of_not_mem _ hkeys]

/-- A party that gets the messages of its round from all others goes on to the next round. -/
theorem Run.gather (P : Protocol impl ids r₀ coins M out Good tys timeout now init) (r : Run impl ids coins M init S N) {b : ID} (hb : b ∈ ids)
    (hs : (S b).started = true) (he : (S b).exited = false) (ho : (S b).outbox = []) (hd : (N.state b).done = false) {n : Nat} (hn : n < 2)
    (hrn : (N.state b).roundNumber = n + 1) (hq : (N.state b).queue = [])
    {ms : List (Message G)} (hp : pipe (S b) = ms) (hms : ms ≠ []) (hM : ∀ m ∈ ms, m = M (n + 1) m.header.fromID b) (hnd : (ms.map fun m => m.header.fromID).Nodup)
    (hnew : ∀ m ∈ ms, m.header.fromID ∉ (N.state b).received.keys) (hlen : (N.state b).received.length + ms.length = ids.length - 1) :
    ∃ S' N', Steps impl ids coins S S' ∧ Run impl ids coins M init S' N' ∧ prog (N'.state b) = n + 2 ∧
      ((N'.state b).done = false → Between (n + 2) (N'.state b)) ∧ (S' b).started = true ∧ (S' b).exited = false ∧ pipe (S' b) = [] ∧
      (S' b).outbox = sends ids b (fun _ => .insertion) (out b (n + 1)) ∧
      ∀ k, k ≠ b → Keeps k S S' N N' ∧ pipe (S' k) = pipe (S k) := by
  induction ms generalizing S N with
  | nil => exact absurd rfl hms
  | cons m ms ih =>
    have hk := r.senders b hb m (List.mem_append_right _ (by rw [hp]; exact List.mem_cons_self))
    obtain ⟨hk1, hk2⟩ := mem_others.mp hk
    obtain ⟨S₁, N₁, s, o, p1, r1, hN₁, hpr, ho1, hp1, hk3, hk4⟩ := r.recvOne P hb hs he ho hp .insertion (fun _ => .insertion) (coins b)
    have hst := store_current P r.path hb hk1 hk2 hn hd hrn (hnew m List.mem_cons_self)
    rw [← show m = M (n + 1) m.header.fromID b from hM m List.mem_cons_self] at hst
    rw [hst] at hpr hN₁
    simp only [] at hpr
    have keeps : ∀ k, k ≠ b → Keeps k S S₁ N N₁ ∧ pipe (S₁ k) = pipe (S k) := fun k hkb =>
      ⟨⟨(hk3 k).1, (hk3 k).2, (hk4 k hkb).2.1, by simp [hN₁, Net.after, Function.update_of_ne hkb], by simp [hN₁, Net.after, Function.update_of_ne hkb]⟩, (hk4 k hkb).2.2⟩
    have hs1 : N₁.state b = s := by simp [hN₁, Net.after]
    rw [List.length_cons] at hlen
    set s₁ : State G R := { N.state b with timer := (N.state b).timer.ackMessage, received := (N.state b).received ++ [(m.header.fromID, some m)] } with hs₁
    have hfull : Full impl s₁ ↔ ms = [] := by
      rw [full_iff P r.path hb (s := s₁) rfl]
      simp only [s₁, List.length_append, List.length_cons, List.length_nil]
      constructor
      · intro h
        exact List.length_eq_zero_iff.mp (by omega)
      · rintro rfl
        simp only [List.length_nil] at hlen
        omega
    by_cases hnil : ms = []
    · set N₂ := N.after b (.handle m) (.handled none) s₁ with hN₂
      have hsent := (r.sent P hb (m := m) (by rw [hp]; exact List.mem_cons_self)).1
      have hpath : Path impl ids coins (Net.start init) N₂ := r.path.tail (op := .handle m) hb hsent (by simp only [State.step, hst])
      have h2 : N₂.state b = s₁ := by simp [N₂, Net.after]
      have g := process_between P hpath hb (by rw [h2]; exact hd) (by rw [h2]; exact hq) (by rw [h2]; exact hfull.mpr hnil) (ord := .insertion) (c := coins b)
        (fun _ => rfl) (by rw [h2]; exact hpr)
      rw [h2, show s₁.roundNumber = n + 1 from hrn] at g
      exact ⟨S₁, N₁, p1, r1, by rw [hs1]; exact g.2.1, by rw [hs1]; exact g.2.2, (hk3 b).1.trans hs, (hk3 b).2.trans he, by rw [hp1, hnil], by rw [ho1, g.1], keeps⟩
    · have hidle := (processAll_iff impl).mpr (.idle (ord := .insertion) (coins := coins b) (s := s₁) (Or.inr (fun h => hnil (hfull.mp h))))
      rw [hpr] at hidle
      obtain ⟨rfl, rfl⟩ := Prod.mk.inj (Option.some.inj hidle)
      rw [List.map_cons, List.nodup_cons] at hnd
      obtain ⟨S₂, N₂, p2, r2, f1, f3, f4, f5, f6, f7, f2⟩ := ih r1 ((hk3 b).1.trans hs) ((hk3 b).2.trans he) ho1 (by rw [hs1]; exact hd) (by rw [hs1]; exact hrn) (by rw [hs1]; exact hq) hp1 hnil
        (fun m' hm' => hM m' (List.mem_cons_of_mem _ hm')) hnd.2 (fun m' hm' => by
          rw [hs1]
          simp only [s₁, GoMap.keys, List.map_append, List.map_cons, List.map_nil, List.mem_append, List.mem_singleton, not_or]
          exact ⟨hnew m' (List.mem_cons_of_mem _ hm'), fun h => hnd.1 (List.mem_map.mpr ⟨m', hm', h⟩)⟩)
        (by rw [hs1]; simp only [s₁, List.length_append, List.length_cons, List.length_nil]; omega)
      exact ⟨S₂, N₂, p1.trans p2, r2, f1, f3, f4, f5, f6, f7, fun k hkb => ⟨(keeps k hkb).1.trans (f2 k hkb).1, (f2 k hkb).2.trans (keeps k hkb).2⟩⟩

omit [RGroup G] in
theorem between_prog {n : Nat} {s : State G R} (h : Between n s) : prog s = n := by simp [State.prog, h.running, h.round]

/-- With at least three parties, any of them can lose a message that any other sends it in the last round. -/
theorem can_lose (P : Protocol impl ids r₀ coins M out Good tys timeout now init) (hn : 3 ≤ ids.length) {a b : ID} (ha : a ∈ ids) (hb : b ∈ ids) (hab : a ≠ b) :
    ∃ S N e, Steps impl ids coins (start init) S ∧ Run impl ids coins M init S N ∧ (Op.handle (M 2 b a), Ret.handled (some e)) ∈ N.hist a := by
  -- everybody starts, and sends to `b`
  obtain ⟨S₁, N₁, p1, r1, L1, _, q1⟩ := (run_start P).launchAll P hb ids (fun _ h => h) P.honest.nodup (fun _ _ => ⟨rfl, rfl⟩)
  have hself : ∀ {S : Sys G R} {N : Net G R}, Run impl ids coins M init S N → ∀ k ∈ ids, boxTo (G := G) (S k).outbox k = [] := by
    intro S N r k hk
    rw [boxTo, List.filter_eq_nil_iff.mpr]
    · rfl
    · intro p hp h
      exact (mem_others.mp (r.outs k hk p hp).1).2 (of_decide_eq_true h)
  -- `a` and `b` send everything
  obtain ⟨S₂, p2, r2, g2, o2, k2, q2⟩ := r1.flush P ha
  obtain ⟨S₃, p3, r3, g3, o3, k3, q3⟩ := r2.flush P hb
  have hpb : pipe (S₃ b) = pipe (S₁ b) := by
    rw [q3, hself r2 b hb, q2, (L1 a ha).toB hab, List.append_nil, List.append_nil]
  -- `b` gets the first messages
  have hfb : ∀ k ∈ ids, k ≠ b → (pipe (S₁ b)).filter (fromParty k) = [M 1 k b] := by
    intro k hk hkb
    have h := r1.flow k hk b hb hkb
    rw [(L1 b hb).nothing, List.nil_append, (L1 k hk).toB hkb, List.append_nil, between_prog (L1 k hk).between] at h
    exact h
  have hMb : ∀ m ∈ pipe (S₁ b), m = M 1 m.header.fromID b ∧ m.header.fromID ∈ others b ids := by
    intro m hm
    have h1 := r1.senders b hb m (List.mem_append_right _ hm)
    obtain ⟨h2, h3⟩ := mem_others.mp h1
    refine ⟨List.mem_singleton.mp ?_, h1⟩
    rw [← hfb _ h2 h3]
    exact List.mem_filter.mpr ⟨hm, by simp [fromParty]⟩
  have hndb : ((pipe (S₁ b)).map fun m => m.header.fromID).Nodup := by
    refine List.Nodup.map_on ?_ (List.nodup_append.mp (r1.nodup P hb)).2.1
    intro m hm m' hm' h
    rw [(hMb m hm).1, (hMb m' hm').1, h]
  have hperm : ((pipe (S₁ b)).map fun m => m.header.fromID).Perm (others b ids) := by
    refine (List.perm_ext_iff_of_nodup hndb (P.honest.nodup.filter _)).mpr fun k => ⟨?_, fun hk => ?_⟩
    · intro hk
      obtain ⟨m, hm, rfl⟩ := List.mem_map.mp hk
      exact (hMb m hm).2
    · obtain ⟨h1, h2⟩ := mem_others.mp hk
      have : M 1 k b ∈ (pipe (S₁ b)).filter (fromParty k) := by rw [hfb k h1 h2]; exact List.mem_cons_self
      obtain ⟨h3, h4⟩ := List.mem_filter.mp this
      exact List.mem_map.mpr ⟨_, h3, of_decide_eq_true h4⟩
  have hlen : (pipe (S₁ b)).length = ids.length - 1 := by
    have h1 := hperm.length_eq
    rw [List.length_map, show (others b ids).length = _ from Keygen.filter_self_length P.honest.nodup hb,
      Props.N_pred_eq (List.ne_nil_of_mem hb) (Props.nodup_ids_length P.honest.nodup)] at h1
    exact h1
  have bb := (L1 b hb).between
  obtain ⟨S₄, N₄, p4, r4, g4, _, _, _, _, _, k4⟩ := r3.gather P hb ((g3 b).2.1.trans ((g2 b).2.1.trans (L1 b hb).started)) ((g3 b).2.2.trans ((g2 b).2.2.trans (L1 b hb).running)) o3
    bb.running (n := 0) (by omega) bb.round bb.queue hpb (by intro h; rw [h] at hlen; simp only [List.length_nil] at hlen; omega) (fun m hm => (hMb m hm).1) hndb
    (fun m hm => by rw [bb.received (by omega)]; simp) (by rw [bb.received (by omega), hlen]; simp)
  -- and sends its second
  obtain ⟨S₅, p5, r5, g5, o5, k5, q5⟩ := r4.flush P hb
  -- what has got to `a`
  have kk : ∀ k, k ≠ b → k ≠ a → (S₅ k).outbox = (S₁ k).outbox := fun k h1 h2 =>
    (k5 k h1).trans ((k4 k h1).1.outbox.trans ((k3 k h1).trans (k2 k h2)))
  have hNa : N₄.state a = N₁.state a ∧ N₄.hist a = N₁.hist a := ⟨(k4 a hab).1.state, (k4 a hab).1.hist⟩
  have hpa : pipe (S₅ a) = [M 1 b a, M 2 b a] := by
    have hall : ∀ m ∈ pipe (S₅ a), m.header.fromID = b := by
      intro m hm
      by_contra hne
      have h1 := r5.senders a ha m (List.mem_append_right _ hm)
      obtain ⟨h2, h3⟩ := mem_others.mp h1
      have h := r5.flow _ h2 a ha h3
      rw [kk _ hne h3, (L1 _ h2).toOthers hne a ha (Ne.symm h3) hab, (k4 _ hne).1.state, between_prog (L1 _ h2).between] at h
      have h4 : m ∈ (given (N₄.hist a) ++ pipe (S₅ a)).filter (fromParty m.header.fromID) :=
        List.mem_filter.mpr ⟨List.mem_append_right _ hm, by simp [fromParty]⟩
      have h5 := congrArg List.length h
      have h6 := List.length_pos_of_mem h4
      simp only [List.length_append, List.length_cons, List.length_nil, List.take_succ_cons, List.take_zero] at h5 h6
      omega
    have h := r5.flow b hb a ha (Ne.symm hab)
    rw [o5, hNa.2, (L1 a ha).nothing, List.nil_append, g4, List.filter_eq_self.mpr (fun m hm => by simp [fromParty, hall m hm])] at h
    simpa [boxTo] using h
  have hstart : (S₅ a).started = true := ((g5 a).2.1.trans ((k4 a hab).1.started.trans ((g3 a).2.1.trans (g2 a).2.1))).trans (L1 a ha).started
  have hex : (S₅ a).exited = false := ((g5 a).2.2.trans ((k4 a hab).1.exited.trans ((g3 a).2.2.trans (g2 a).2.2))).trans (L1 a ha).running
  have hout : (S₅ a).outbox = [] := (k5 a hab).trans ((k4 a hab).1.outbox.trans ((k3 a hab).trans o2))
  -- `a` takes the first, which is one of at least two
  have ba := (L1 a ha).between
  rw [← hNa.1] at ba
  obtain ⟨S₆, N₆, s, o, p6, r6, hN₆, hpr, o6, hp6, k6, _⟩ := r5.recvOne P ha hstart hex hout hpa .insertion (fun _ => .insertion) (coins a)
  have hst := store_current P r5.path ha hb (Ne.symm hab) (n := 0) (by omega) ba.running ba.round (by rw [ba.received (by omega)]; simp)
  rw [Nat.zero_add] at hst
  rw [hst] at hpr hN₆
  simp only [] at hpr
  set s₁ : State G R := { N₄.state a with timer := (N₄.state a).timer.ackMessage, received := (N₄.state a).received ++ [(b, some (M 1 b a))] } with hs₁
  have hnf : ¬ Full impl s₁ := by
    rw [full_iff P r5.path ha (s := s₁) rfl]
    simp only [s₁, ba.received (by omega), List.nil_append, List.length_cons, List.length_nil]
    omega
  have hidle := (processAll_iff impl).mpr (.idle (ord := .insertion) (coins := coins a) (s := s₁) (Or.inr hnf))
  rw [hpr] at hidle
  obtain ⟨rfl, rfl⟩ := Prod.mk.inj (Option.some.inj hidle)
  have hs6 : N₆.state a = s₁ := by simp [hN₆, Net.after]
  -- `a` refuses the second
  obtain ⟨S₇, N₇, s', o', p7, r7, hN₇, _, _, _, _, _⟩ := r6.recvOne P ha ((k6 a).1.trans hstart) ((k6 a).2.trans hex) o6 hp6 .insertion (fun _ => .insertion) (coins a)
  obtain ⟨f1, f2, f3⟩ := M_from P hb ha (Ne.symm hab) (n := 1) (by omega)
  have hinv := inv_hist P.honest.stable ((P.netInv r6.path).hist a ha)
  have hrefuse : ∃ e, (handleMessage impl (N₆.state a) (M 2 b a)).2 = some e := by
    have hacc : ∃ t ts, (N₆.state a).acceptedTypes = t :: ts := by
      cases hl : (N₆.state a).acceptedTypes with
      | cons t ts => exact ⟨t, ts, rfl⟩
      | nil =>
        have := hinv.types
        rw [hl, P.honest.types a ha, hs6, show s₁.used = 1 by simp [s₁, used, ba.running, ba.round]] at this
        have := congrArg List.length this
        rw [List.length_nil, List.length_drop, P.honest.tys_length] at this
        omega
    obtain ⟨t, ts, hacc⟩ := hacc
    have hd6 : (N₆.state a).done = false := by rw [hs6]; exact ba.running
    have hself6 : impl.selfID (N₆.state a).round = a := by rw [hinv.self, P.honest.self a ha]
    have hids6 : impl.partyIDs (N₆.state a).round = ids := by rw [hinv.ids, P.honest.parties a ha]
    have hhas : (N₆.state a).received.has b = true := by
      rw [GoMap.has_iff, hs6]
      simp [s₁, GoMap.keys]
    refine ⟨wrapError impl (N₆.state a) .alreadyReceived b, ?_⟩
    unfold handleMessage
    simp only [hd6, Bool.false_eq_true, if_false, hacc, hself6, hids6]
    rw [show (M 2 b a).header.fromID = b from f1, if_neg (Ne.symm hab), if_neg, if_neg, if_pos hhas]
    · rw [IDSlice.contains_complete P.honest.sorted hb]; simp
    · rintro ⟨h1, h2⟩
      rcases f3 with f3 | f3
      · simp [Header.isBroadcast, show (M 2 b a).header.toID = 0 from f3] at h1
      · exact h2 f3
  obtain ⟨e, hrefuse⟩ := hrefuse
  rw [hrefuse] at hN₇
  refine ⟨S₇, N₇, e, (((((p1.trans p2).trans p3).trans p4).trans p5).trans p6).trans p7, r7, ?_⟩
  rw [hN₇]
  simp [Net.after]

/-- With at least three parties there is an execution after which a party never finishes, whatever happens then. -/
theorem can_stick (P : Protocol impl ids r₀ coins M out Good tys timeout now init) (hn : 3 ≤ ids.length) {a b : ID} (ha : a ∈ ids) (hb : b ∈ ids) (hab : a ≠ b) :
    ∃ S, Steps impl ids coins (start init) S ∧ ∀ S', Steps impl ids coins S S' → (S' a).state.done = false := by
  obtain ⟨S, N, e, p, r, h⟩ := can_lose P hn ha hb hab
  refine ⟨S, p, fun S' p' => ?_⟩
  obtain ⟨N', r', g⟩ := r.steps P p'
  obtain ⟨h', hh⟩ := g a
  exact r'.stuck P ha (mem_others.mpr ⟨hb, Ne.symm hab⟩) (e := e) (by rw [hh]; exact List.mem_append_left _ h)

end

end Verif.Chan
