import Verif.Lemmas.ChannelStuck
import Verif.Props.KeygenNet

/-!
Parties connected by channels: every execution ends, what the end looks like, and that two parties always finish.
-/

namespace Verif.Chan

open State Spec

variable {G R : Type} [RGroup G]

section

variable {impl : RoundImpl G R} {ids : IDSlice} {r₀ : ID → R} {coins : ID → Coins} {M : Nat → ID → ID → Message G}
  {out : ID → Nat → List (Message G)} {Good : ID → Nat → R → Prop} {timeout now : ID → Nat} {N : Net G R} {tys : List MsgType}
  {init : ID → State G R} {S S' : Sys G R}

theorem others_length (P : Protocol impl ids r₀ coins M out Good tys timeout now init) {j : ID} (hj : j ∈ ids) : (others j ids).length = ids.length - 1 := by
  rw [show (others j ids).length = _ from Keygen.filter_self_length P.honest.nodup hj,
    Props.N_pred_eq (List.ne_nil_of_mem hj) (Props.nodup_ids_length P.honest.nodup)]

theorem box_length (P : Protocol impl ids r₀ coins M out Good tys timeout now init) {i : ID} (hi : i ∈ ids) {l : List (ID × Bytes)}
    (h1 : ∀ p ∈ l, p.1 ∈ others i ids ∧ ∃ m : Message G, decode p.2 = some m ∧ m.header.fromID = i) (h2 : ∀ j ∈ others i ids, (boxTo (G := G) l j).length ≤ 1) :
    l.length ≤ ids.length - 1 := by
  have hnd : (l.map Prod.fst).Nodup := by
    rw [List.nodup_iff_count_le_one]
    intro j
    rw [List.count_eq_countP, List.countP_map, List.countP_eq_length_filter]
    have e : l.filter ((fun x => x == j) ∘ Prod.fst) = l.filter fun p => decide (p.1 = j) := List.filter_congr fun p _ => by
      by_cases h : p.1 = j <;> simp [h]
    rw [e]
    by_cases hj : j ∈ others i ids
    · have h3 := h2 j hj
      rw [boxTo, List.length_filterMap_eq_countP, List.countP_eq_length.mpr] at h3
      · exact h3
      · intro p hp
        obtain ⟨m, hm, _⟩ := (h1 p (List.mem_filter.mp hp).1).2
        rw [hm]; rfl
    · rw [List.filter_eq_nil_iff.mpr]
      · simp
      · intro p hp h
        exact hj (of_decide_eq_true h ▸ (h1 p hp).1)
  have := (List.subperm_of_subset hnd (l₂ := others i ids) (by
    intro j hj
    obtain ⟨p, hp, rfl⟩ := List.mem_map.mp hj
    exact (h1 p hp).1)).length_le
  rw [List.length_map, others_length P hi] at this
  exact this

theorem sends_length (P : Protocol impl ids r₀ coins M out Good tys timeout now init) {i : ID} (hi : i ∈ ids) {n : Nat} (hn : n < 3) (ords : Nat → MapOrder) :
    (sends ids i ords (out i n)).length ≤ ids.length - 1 := by
  by_cases h2 : n < 2
  · refine box_length P hi (fun p hp => outs_out P hi h2 ords hp) (fun j hj => ?_)
    obtain ⟨g1, g2⟩ := mem_others.mp hj
    rw [boxTo_out P hi g1 (Ne.symm g2) h2]
    simp
  · rw [show n = 2 by omega, P.honest.out_last i hi]
    simp [sends]

/-- A bound on how many steps are yet to come, for one party. -/
def work (n : Nat) (nd : Node G R) : Nat :=
  4 * nd.outbox.length + 3 * nd.bytes.length + 2 * nd.held.toList.length + nd.incoming.length + (if nd.started then 0 else 1) + (if nd.exited then 0 else 1) +
    4 * n * (3 - prog nd.state)

/-- For all parties. -/
def works (ids : IDSlice) (S : Sys G R) : Nat := (ids.map fun i => work ids.length (S i)).sum

omit [RGroup G] in
theorem works_update (hnd : ids.Nodup) {i : ID} (hi : i ∈ ids) (nd : Node G R) :
    works ids (Function.update S i nd) + work ids.length (S i) = works ids S + work ids.length nd := by
  have h1 := Props.sum_others hnd hi (fun k => work ids.length (S k))
  have h2 := Props.sum_others hnd hi (fun k => work ids.length (Function.update S i nd k))
  rw [Function.update_self] at h2
  have e : ((others i ids).map fun k => work ids.length (Function.update S i nd k)) = (others i ids).map fun k => work ids.length (S k) :=
    List.map_congr_left fun k hk => by rw [Function.update_of_ne (mem_others.mp hk).2]
  rw [e] at h2
  unfold works
  omega

/-- `ProcessAll` uses up work. -/
theorem process_work (P : Protocol impl ids r₀ coins M out Good tys timeout now init) (hp : Path impl ids coins (Net.start init) N) {i : ID} (hi : i ∈ ids)
    {ord : MapOrder} {c : Coins} (hc : (N.state i).roundNumber = 0 → c = coins i) {s : State G R} {o : List (Message G)} (h : processAll impl ord c (N.state i) = some (s, o))
    (ords : Nat → MapOrder) :
    4 * (sends ids i ords o).length + 4 * ids.length * (3 - prog s) ≤ 4 * ids.length * (3 - prog (N.state i)) := by
  have hN := P.netInv hp
  obtain ⟨s', o', h', _, h2⟩ := hN.process P.honest hi ord c hc
  rw [h] at h'
  obtain ⟨rfl, rfl⟩ := Prod.mk.inj (Option.some.inj h')
  rcases h2 with ⟨_, rfl, rfl⟩ | ⟨hd, rfl, h3, _⟩
  · simp [sends]
  · have hlt := (hN.good i hi hd).1
    have hl := sends_length P hi hlt ords
    have hpos : 0 < ids.length := List.length_pos_of_mem hi
    have e : prog (N.state i) = (N.state i).roundNumber := by simp [prog, hd]
    rw [h3, e]
    obtain ⟨k, hk⟩ : ∃ k, 3 - (N.state i).roundNumber = k + 1 := ⟨2 - (N.state i).roundNumber, by omega⟩
    rw [hk, show 3 - ((N.state i).roundNumber + 1) = k by omega, Nat.mul_succ]
    omega

omit [RGroup G] in
theorem works_lt (hnd : ids.Nodup) {i : ID} (hi : i ∈ ids) {nd : Node G R} (h : work ids.length nd < work ids.length (S i)) :
    works ids (Function.update S i nd) < works ids S := by
  have := works_update (S := S) hnd hi nd
  omega

omit [RGroup G] in
theorem works_lt_two (hnd : ids.Nodup) {i j : ID} (hi : i ∈ ids) (hj : j ∈ ids) {nd nd' : Node G R} (h : work ids.length nd + 4 = work ids.length (S i))
    (h' : work ids.length nd' = work ids.length (Function.update S i nd j) + 3) :
    works ids (Function.update (Function.update S i nd) j nd') < works ids S := by
  have h1 := works_update (S := S) hnd hi nd
  have h2 := works_update (S := Function.update S i nd) hnd hj nd'
  omega

theorem Run.step_work (P : Protocol impl ids r₀ coins M out Good tys timeout now init) (r : Run impl ids coins M init S N) (h : Step impl ids coins S S') :
    works ids S' < works ids S := by
  have hnd := P.honest.nodup
  cases h with
  | @start i ord ords s o hi hs hp =>
    rw [r.state i hi] at hp
    have h2 := process_work P r.path hi (fun _ => rfl) hp ords
    refine works_lt hnd hi ?_
    simp only [work, hs, (r.fresh i hi hs).1, List.length_nil, if_true, Bool.false_eq_true, if_false, r.state i hi]
    omega
  | @send i j b rest hi ho hj hb =>
    refine works_lt_two hnd hi hj ?_ ?_
    · simp only [work, ho, List.length_cons]
      omega
    · simp only [work, List.length_append, List.length_cons, List.length_nil]
      omega
  | @take i b rest hi hh hb =>
    obtain ⟨m, hm⟩ := r.coded _ hi _ (by rw [hb]; exact List.mem_cons_self)
    refine works_lt hnd hi ?_
    simp only [work, hh, hb, hm, List.length_cons, Option.toList, List.length_nil]
    omega
  | @put i m hi hh hl =>
    refine works_lt hnd hi ?_
    simp only [work, hh, List.length_cons, Option.toList, List.length_nil, List.length_append]
    omega
  | @recv i m rest ord ords c s o hi hs he ho hin hp =>
    have hsent := (r.sent P hi (m := m) (by simp [pipe, hin])).1
    set N₁ := N.after i (.handle m) (.handled (handleMessage impl (N.state i) m).2) (handleMessage impl (N.state i) m).1 with hN₁
    have hpath : Path impl ids coins (Net.start init) N₁ := r.path.tail (op := .handle m) hi hsent rfl
    have hsti : N₁.state i = (handleMessage impl (N.state i) m).1 := by simp [N₁, Net.after]
    have hrn : (N₁.state i).roundNumber = (N.state i).roundNumber ∧ prog (N₁.state i) = prog (N.state i) := by
      rw [hsti]
      have := handle_cases impl (Prod.mk.eta (p := handleMessage impl (N.state i) m)).symm
      generalize (handleMessage impl (N.state i) m).1 = t at *
      generalize (handleMessage impl (N.state i) m).2 = e at *
      cases this <;> exact ⟨rfl, rfl⟩
    rw [r.state i hi, ← hsti] at hp
    have h2 := process_work P hpath hi (fun h0 => absurd (hrn.1.symm.trans h0) (r.begun i hi hs)) hp ords
    rw [hrn.2] at h2
    refine works_lt hnd hi ?_
    simp only [work, ho, hin, List.length_cons, List.length_nil, r.state i hi]
    omega
  | @exit i hi hs he ho hc =>
    refine works_lt hnd hi ?_
    simp only [work, he, if_true, Bool.false_eq_true, if_false]
    omega

theorem works_start (P : Protocol impl ids r₀ coins M out Good tys timeout now init) : works ids (start init) = ids.length * (12 * ids.length + 2) := by
  have : (ids.map fun i => work ids.length (start init i)) = ids.map fun _ => 12 * ids.length + 2 := by
    refine List.map_congr_left fun i hi => ?_
    have : prog (init i) = 0 := by rw [P.init i hi]; rfl
    simp only [work, start, this, List.length_nil, Option.toList, Bool.false_eq_true, if_false]
    omega
  rw [works, this]
  simp

/-- No execution makes more steps than this. -/
theorem ends (P : Protocol impl ids r₀ coins M out Good tys timeout now init) (f : Nat → Sys G R) (h0 : f 0 = start init) (k : Nat)
    (h : ∀ l < k, Step impl ids coins (f l) (f (l + 1))) : k ≤ ids.length * (12 * ids.length + 2) := by
  have hk : ∀ l ≤ k, (∃ N, Run impl ids coins M init (f l) N) ∧ works ids (f l) + l ≤ works ids (start init) := by
    intro l
    induction l with
    | zero => exact fun _ => ⟨⟨_, by rw [h0]; exact run_start P⟩, by rw [h0]; omega⟩
    | succ l ih =>
      intro hl
      obtain ⟨⟨N, r⟩, h1⟩ := ih (by omega)
      have hs := h l (by omega)
      obtain ⟨N', r', _⟩ := r.step P hs
      have := r.step_work P hs
      exact ⟨⟨N', r'⟩, by omega⟩
  have := (hk k (le_refl k)).2
  rw [works_start P] at this
  omega

/-- A party that is done has got everything. -/
theorem Run.done_empty (P : Protocol impl ids r₀ coins M out Good tys timeout now init) (r : Run impl ids coins M init S N) {j : ID} (hj : j ∈ ids)
    (hd : (N.state j).done = true) : pipe (S j) = [] ∧ ∀ k ∈ others j ids, boxTo (G := G) (S k).outbox j = [] := by
  have hg : ∀ k ∈ others j ids, ∀ n, n < 2 → M (n + 1) k j ∈ given (N.hist j) := fun k hk n hn =>
    List.mem_filterMap.mpr ⟨_, took P r.path hj (n := n + 1) (by omega) (by simp only [prog, hd, if_true]; omega) hk, rfl⟩
  have hkey : ∀ k ∈ others j ids, (pipe (S j)).filter (fromParty k) = [] ∧ boxTo (G := G) (S k).outbox j = [] := by
    intro k hk
    obtain ⟨h1, h2⟩ := mem_others.mp hk
    have hf := r.flow k h1 j hj h2
    have hn : ((given (N.hist j)).filter (fromParty k)).Nodup := ((List.nodup_append.mp (r.nodup P hj)).1).filter _
    have h3 : [M 1 k j, M 2 k j].length ≤ ((given (N.hist j)).filter (fromParty k)).length := by
      refine (List.subperm_of_subset (by simp [M_ne P h1 hj h2]) ?_).length_le
      intro m hm
      rcases List.mem_cons.mp hm with rfl | hm
      · exact List.mem_filter.mpr ⟨hg k hk 0 (by omega), decide_eq_true (M_from P h1 hj h2 (n := 0) (by omega)).1⟩
      · rw [List.mem_singleton] at hm
        subst hm
        exact List.mem_filter.mpr ⟨hg k hk 1 (by omega), decide_eq_true (M_from P h1 hj h2 (n := 1) (by omega)).1⟩
    have h4 := congrArg List.length hf
    rw [List.filter_append, List.length_append, List.length_append, List.length_take] at h4
    simp only [List.length_cons, List.length_nil] at h3 h4
    exact ⟨List.length_eq_zero_iff.mp (by omega), List.length_eq_zero_iff.mp (by omega)⟩
  refine ⟨?_, fun k hk => (hkey k hk).2⟩
  rw [List.eq_nil_iff_forall_not_mem]
  intro m hm
  have h1 := r.senders j hj m (List.mem_append_right _ hm)
  have : m ∈ (pipe (S j)).filter (fromParty m.header.fromID) := List.mem_filter.mpr ⟨hm, by simp [fromParty]⟩
  rw [(hkey _ h1).1] at this
  cases this

theorem pipe_nil {nd : Node G R} (hc : ∀ b ∈ nd.bytes, ∃ m : Message G, decode b = some m) (h : pipe nd = []) : nd.incoming = [] ∧ nd.held = none ∧ nd.bytes = [] := by
  rw [pipe, List.append_eq_nil_iff, List.append_eq_nil_iff] at h
  obtain ⟨⟨h1, h2⟩, h3⟩ := h
  refine ⟨h1, ?_, ?_⟩
  · cases hh : nd.held with
    | none => rfl
    | some m => rw [hh] at h2; cases h2
  · cases hb : nd.bytes with
    | nil => rfl
    | cons b bs =>
      obtain ⟨m, hm⟩ := hc b (by rw [hb]; exact List.mem_cons_self)
      rw [hb, List.filterMap_cons, hm] at h3
      cases h3

/-- A handler returns only after its session has ended. -/
theorem exited_done (P : Protocol impl ids r₀ coins M out Good tys timeout now init) (hp : Steps impl ids coins (start init) S) {i : ID} (hi : i ∈ ids)
    (he : (S i).exited = true) : (S i).started = true ∧ (S i).state.done = true := by
  generalize hS₀ : start init = S₀ at hp
  induction hp with
  | refl => subst hS₀; cases he
  | @tail S' S'' hp h ih =>
    subst hS₀
    obtain ⟨N, r, _⟩ := (run_start P).steps P hp
    cases h with
    | @start k ord ords s o hk hs hpr =>
      by_cases hik : i = k
      · subst hik
        rw [Function.update_self] at he
        have := (ih he).1
        rw [hs] at this
        cases this
      · rw [Function.update_of_ne hik] at he ⊢
        exact ih he
    | @send k j b rest hk ho hj hb =>
      simp only [] at he ⊢
      by_cases hij : i = j
      · subst hij
        rw [Function.update_self] at he ⊢
        by_cases hik : i = k
        · subst hik
          rw [Function.update_self] at he ⊢
          exact ih he
        · simp only [Function.update_of_ne hik] at he ⊢
          exact ih he
      · rw [Function.update_of_ne hij] at he ⊢
        by_cases hik : i = k
        · subst hik
          rw [Function.update_self] at he ⊢
          exact ih he
        · rw [Function.update_of_ne hik] at he ⊢
          exact ih he
    | @take k b rest hk hh hb =>
      by_cases hik : i = k
      · subst hik
        rw [Function.update_self] at he ⊢
        exact ih he
      · rw [Function.update_of_ne hik] at he ⊢
        exact ih he
    | @put k m hk hh hl =>
      by_cases hik : i = k
      · subst hik
        rw [Function.update_self] at he ⊢
        exact ih he
      · rw [Function.update_of_ne hik] at he ⊢
        exact ih he
    | @recv k m rest ord ords c s o hk hs he' ho hin hpr =>
      by_cases hik : i = k
      · subst hik
        rw [Function.update_self] at he
        rw [show (S' i).exited = true from he] at he'
        cases he'
      · rw [Function.update_of_ne hik] at he ⊢
        exact ih he
    | @exit k hk hs he' ho hc =>
      by_cases hik : i = k
      · subst hik
        rw [Function.update_self]
        refine ⟨hs, ?_⟩
        have := (inv_hist P.honest.stable ((P.netInv r.path).hist i hi)).closed
        rw [← r.state i hi, hc] at this
        exact this.symm
      · rw [Function.update_of_ne hik] at he ⊢
        exact ih he

/-- What things are like when nothing can happen any more. -/
theorem final (P : Protocol impl ids r₀ coins M out Good tys timeout now init) (hp : Steps impl ids coins (start init) S) (h : ∀ S', ¬ Step impl ids coins S S')
    {i : ID} (hi : i ∈ ids) : (S i).started = true ∧ (S i).outbox = [] ∧ (S i).bytes = [] ∧ (S i).held = none ∧ (S i).incoming = [] ∧
      (S i).exited = (S i).state.done := by
  obtain ⟨N, r, _⟩ := (run_start P).steps P hp
  have hN := P.netInv r.path
  have hpos : 0 < ids.length := List.length_pos_of_mem hi
  have hst : ∀ k ∈ ids, (S k).started = true := by
    intro k hk
    by_contra hs
    rw [Bool.not_eq_true] at hs
    obtain ⟨_, _, h3⟩ := r.fresh k hk hs
    obtain ⟨s, hp, _⟩ := first_process P r.path hk h3 .insertion
    rw [← r.state k hk] at hp
    exact h _ (Step.start (ords := fun _ => .insertion) hk hs hp)
  have hout : (S i).outbox = [] := by
    by_contra ho
    obtain ⟨⟨j, b⟩, rest, ho⟩ := List.exists_cons_of_ne_nil ho
    have hj : j ∈ ids := (mem_others.mp (r.outs i hi (j, b) (by rw [ho]; exact List.mem_cons_self)).1).1
    have h1 : ids.length ≤ (S j).bytes.length := by
      by_contra h1
      exact h _ (Step.send hi ho hj (by omega))
    have h2 : ids.length ≤ (S j).incoming.length := by
      by_contra h2
      cases hh : (S j).held with
      | some m => exact h _ (Step.put hj hh (by omega))
      | none =>
        cases hb : (S j).bytes with
        | nil => rw [hb] at h1; simp only [List.length_nil] at h1; omega
        | cons c cs => exact h _ (Step.take hj hh hb)
    have := r.pipe_length P hj
    omega
  have hin : (S i).incoming = [] := by
    by_contra hin
    obtain ⟨m, rest, hin⟩ := List.exists_cons_of_ne_nil hin
    have hm : m ∈ pipe (S i) := by simp [pipe, hin]
    by_cases he : (S i).exited = true
    · have hd := (exited_done P hp hi he).2
      rw [r.state i hi] at hd
      rw [(r.done_empty P hi hd).1] at hm
      cases hm
    · rw [Bool.not_eq_true] at he
      have hsent := (r.sent P hi hm).1
      set N₁ := N.after i (.handle m) (.handled (handleMessage impl (N.state i) m).2) (handleMessage impl (N.state i) m).1 with hN₁
      have hpath : Path impl ids coins (Net.start init) N₁ := r.path.tail (op := .handle m) hi hsent rfl
      have hsti : N₁.state i = (handleMessage impl (N.state i) m).1 := by simp [N₁, Net.after]
      obtain ⟨s, o, h2, _, _⟩ := (P.netInv hpath).process P.honest hi .insertion (coins i) (fun _ => rfl)
      rw [hsti, ← r.state i hi] at h2
      exact h _ (Step.recv (ords := fun _ => .insertion) hi (hst i hi) he hout hin h2)
  have hheld : (S i).held = none := by
    cases hh : (S i).held with
    | none => rfl
    | some m => exact absurd (Step.put hi hh (by rw [hin]; exact hpos)) (h _)
  refine ⟨hst i hi, hout, ?_, hheld, hin, ?_⟩
  · cases hb : (S i).bytes with
    | nil => rfl
    | cons c cs => exact absurd (Step.take hi hheld hb) (h _)
  · cases hd : (S i).state.done with
    | false =>
      cases he : (S i).exited with
      | false => rfl
      | true => rw [(exited_done P hp hi he).2] at hd; cases hd
    | true =>
      cases he : (S i).exited with
      | true => rfl
      | false =>
        have hc := (inv_hist P.honest.stable (hN.hist i hi)).closed
        rw [← r.state i hi, hd] at hc
        exact absurd (Step.exit hi (hst i hi) he hout hc) (h _)

end

end Verif.Chan
