import Verif.Spec.Net
import Verif.Lemmas.Forward
import Mathlib.Data.Finset.Max

/-!
Safety and liveness of a network of honest parties, for any three-round protocol with predetermined messages.
-/

namespace Verif.State

open Spec

variable {G R : Type}

/-- A protocol of three rounds in which party `i` sends the messages `out i n` at the end of round `n`; `M n k i` is what `i` gets
from `k` in round `n`, and `Good i n` holds of the round object of `i` in round `n`. -/
structure Honest (impl : RoundImpl G R) (ids : IDSlice) (r₀ : ID → R) (coins : ID → Coins) (M : Nat → ID → ID → Message G)
    (out : ID → Nat → List (Message G)) (Good : ID → Nat → R → Prop) (tys : List MsgType) : Prop where
  stable : impl.Stable
  tys_nodup : tys.Nodup
  tys_length : tys.length = 3
  sorted : ids.Pairwise (· ≤ ·)
  nodup : ids.Nodup
  self : ∀ i ∈ ids, impl.selfID (r₀ i) = i
  parties : ∀ i ∈ ids, impl.partyIDs (r₀ i) = ids
  types : ∀ i ∈ ids, impl.acceptedMessageTypes (r₀ i) = tys
  out_spec : ∀ i ∈ ids, ∀ n, n < 2 → ∀ m ∈ out i n, m.header.fromID = i ∧ tys[n + 1]? = some m.header.type ∧
    ∀ j ∈ ids, j ≠ i → m.header.toID = 0 ∨ m.header.toID = j → m = M (n + 1) i j
  out_mem : ∀ i ∈ ids, ∀ j ∈ ids, j ≠ i → ∀ n, n < 2 → M (n + 1) i j ∈ out i n ∧ ((M (n + 1) i j).header.toID = 0 ∨ (M (n + 1) i j).header.toID = j)
  out_last : ∀ i ∈ ids, out i 2 = []
  good0 : ∀ i ∈ ids, Good i 0 (r₀ i)
  step : ∀ i ∈ ids, ∀ n r, n < 3 → Good i n r → ∀ l : List (ID × Option (Message G)), (l.map Prod.fst).Perm (others i ids) →
    (n = 0 → ∀ k v, (k, v) ∈ l → v = none) → (n ≠ 0 → ∀ k v, (k, v) ∈ l → v = some (M n k i)) → ∀ ord c, (n = 0 → c = coins i) →
    ∃ r₁ r₂, processLoop impl l r = .ok r₁ ∧ impl.generateMessages ord c r₁ = .ok (r₂, out i n) ∧
      (n < 2 → ∃ r₃, impl.nextRound r₂ = some r₃ ∧ Good i (n + 1) r₃) ∧ (n = 2 → impl.nextRound r₂ = none ∧ ∃ r₃, impl.reset r₂ = some r₃)

/-- How far a session is. -/
def prog (s : State G R) : Nat := if s.done then 3 else s.roundNumber

/-- What holds in every reachable state of the network. -/
structure NetInv (impl : RoundImpl G R) (ids : IDSlice) (r₀ : ID → R) (out : ID → Nat → List (Message G)) (Good : ID → Nat → R → Prop)
    (timeout now : ID → Nat) (N : Net G R) : Prop where
  hist : ∀ i ∈ ids, Hist impl (newBaseState impl (r₀ i) (timeout i) (now i)) (N.hist i) (N.state i)
  err : ∀ i ∈ ids, (N.state i).err = none
  good : ∀ i ∈ ids, (N.state i).done = false → (N.state i).roundNumber < 3 ∧ Good i (N.state i).roundNumber (N.state i).round
  sentOnly : ∀ m ∈ N.sent, ∃ i ∈ ids, ∃ n < 2, m ∈ out i n
  sentAll : ∀ i ∈ ids, ∀ n < prog (N.state i), ∀ m ∈ out i n, m ∈ N.sent
  handled : ∀ i ∈ ids, ∀ m e, (Op.handle m, Ret.handled e) ∈ N.hist i → m ∈ N.sent
  emitted : ∀ i ∈ ids, ∀ op o, (op, Ret.messages o) ∈ N.hist i → ∀ m ∈ o, m ∈ N.sent

section

variable {impl : RoundImpl G R} {ids : IDSlice} {r₀ : ID → R} {coins : ID → Coins} {M : Nat → ID → ID → Message G}
  {out : ID → Nat → List (Message G)} {Good : ID → Nat → R → Prop} {timeout now : ID → Nat} {N : Net G R} {tys : List MsgType}

theorem index_inj (hnd : tys.Nodup) {n n' : Nat} {t : MsgType} (h : tys[n]? = some t) (h' : tys[n']? = some t) :
    n = n' := by
  obtain ⟨h1, h2⟩ := List.getElem?_eq_some_iff.mp h
  obtain ⟨h3, h4⟩ := List.getElem?_eq_some_iff.mp h'
  exact (List.Nodup.getElem_inj_iff hnd).mp (h2.trans h4.symm)

theorem NetInv.start (H : Honest impl ids r₀ coins M out Good tys) {init : ID → State G R}
    (hinit : ∀ i ∈ ids, init i = newBaseState impl (r₀ i) (timeout i) (now i)) :
    NetInv impl ids r₀ out Good timeout now (Net.start init) where
  hist i hi := by
    show Hist impl _ [] (init i)
    rw [hinit i hi]; exact Hist.nil
  err i hi := by
    show (init i).err = none
    rw [hinit i hi]; rfl
  good i hi _ := by
    show (init i).roundNumber < 3 ∧ Good i (init i).roundNumber (init i).round
    rw [hinit i hi]
    exact ⟨by show 0 < 3; omega, H.good0 i hi⟩
  sentOnly m hm := by cases hm
  sentAll i hi n hn := by
    have hn : n < prog (init i) := hn
    rw [hinit i hi] at hn
    exact absurd hn (by simp [prog, newBaseState])
  handled i _ m e hm := by cases hm
  emitted i _ op o hm := by cases hm

/-- The messages stored for the current round are the predetermined ones. -/
theorem NetInv.stored (H : Honest impl ids r₀ coins M out Good tys) (hN : NetInv impl ids r₀ out Good timeout now N) {i : ID} (hi : i ∈ ids)
    (hd : (N.state i).done = false) (hf : Full impl (N.state i)) (ord : MapOrder) :
    ((ord.order _ (N.state i).received).map Prod.fst).Perm (others i ids) ∧
    ((N.state i).roundNumber = 0 → ∀ k v, (k, v) ∈ ord.order _ (N.state i).received → v = none) ∧
    ((N.state i).roundNumber ≠ 0 → ∀ k v, (k, v) ∈ ord.order _ (N.state i).received → v = some (M (N.state i).roundNumber k i)) := by
  have e1 := H.self i hi
  have e2 := H.parties i hi
  have hready := ready H.stable (hN.hist i hi) (by rw [e2]; exact H.nodup) (by rw [e1, e2]; exact hi) hd hf ord
  have hk := hready.keys
  rw [e1, e2] at hk
  refine ⟨hk, hready.first, ?_⟩
  intro h0 k v hkv
  obtain ⟨m, rfl, h2, h3, h4, h5⟩ := hready.later h0 k v hkv
  rw [H.types i hi] at h3
  rw [e1, e2] at h5
  obtain ⟨j, hj, n, hn, hm⟩ := hN.sentOnly m (hN.handled i hi m none h4)
  obtain ⟨g1, g2, g3⟩ := H.out_spec j hj n hn m hm
  have hnn := index_inj H.tys_nodup h3 g2
  have hjk : j = k := g1.symm.trans h2
  subst hjk
  rw [hnn, ← g3 i hi (fun h => h5.1 (g1.trans h.symm)) h5.2.2]

/-- `ProcessAll` does not fail. -/
theorem NetInv.process (H : Honest impl ids r₀ coins M out Good tys) (hN : NetInv impl ids r₀ out Good timeout now N) {i : ID} (hi : i ∈ ids)
    (ord : MapOrder) (c : Coins) (hc : (N.state i).roundNumber = 0 → c = coins i) :
    ∃ t o, processAll impl ord c (N.state i) = some (t, o) ∧ t.err = none ∧
      ((((N.state i).done = true ∨ ¬ Full impl (N.state i)) ∧ t = N.state i ∧ o = []) ∨
        ((N.state i).done = false ∧ o = out i (N.state i).roundNumber ∧ prog t = (N.state i).roundNumber + 1 ∧
          (t.done = false → t.roundNumber = (N.state i).roundNumber + 1 ∧ t.roundNumber < 3 ∧ Good i t.roundNumber t.round))) := by
  by_cases hidle : (N.state i).done = true ∨ ¬ Full impl (N.state i)
  · exact ⟨N.state i, [], (processAll_iff impl).mpr (.idle hidle), hN.err i hi, Or.inl ⟨hidle, rfl, rfl⟩⟩
  · rw [not_or, not_not, Bool.not_eq_true] at hidle
    obtain ⟨hd, hf⟩ := hidle
    obtain ⟨h1, h2, h3⟩ := hN.stored H hi hd hf ord
    obtain ⟨h4, h5⟩ := hN.good i hi hd
    obtain ⟨r₁, r₂, g1, g2, g3, g4⟩ := H.step i hi _ _ h4 h5 _ h1 h2 h3 ord c hc
    have hinv := inv_hist H.stable (hN.hist i hi)
    have hty := hinv.types
    rw [H.types i hi, show (N.state i).used = (N.state i).roundNumber by simp [used, hd]] at hty
    obtain ⟨ty, types, hty'⟩ : ∃ ty types, (N.state i).acceptedTypes = ty :: types := by
      cases hl : (N.state i).acceptedTypes with
      | cons ty types => exact ⟨ty, types, rfl⟩
      | nil =>
        rw [hl] at hty
        have := congrArg List.length hty
        rw [List.length_nil, List.length_drop, H.tys_length] at this
        omega
    have hcl : (N.state i).closed = false := hinv.closed.trans hd
    by_cases h2' : (N.state i).roundNumber < 2
    · obtain ⟨r₃, g5, g6⟩ := g3 h2'
      refine ⟨_, _, (processAll_iff impl).mpr (.next ty types r₁ r₂ r₃ _ hd hf g1 g2 hty' g5), hN.err i hi, Or.inr ⟨hd, rfl, ?_, fun _ => ⟨rfl, ?_, g6⟩⟩⟩
      · simp [prog, hd]
      · show _ + 1 < 3
        omega
    · have h2' : (N.state i).roundNumber = 2 := by omega
      obtain ⟨g5, r₃, g6⟩ := g4 h2'
      refine ⟨_, _, (processAll_iff impl).mpr (.last ty types r₁ r₂ r₃ _ hd hf g1 g2 hty' g5 g6 hcl), hN.err i hi, Or.inr ⟨hd, rfl, ?_, fun h => (nomatch h)⟩⟩
      simp [prog, h2']

theorem update_mem {α : Type*} {f : ID → α} {i j : ID} {x : α} {P : α → Prop} (h1 : j = i → P x) (h2 : j ≠ i → P (f j)) :
    P (Function.update f i x j) := by
  by_cases h : j = i
  · subst h; rw [Function.update_self]; exact h1 rfl
  · rw [Function.update_of_ne h]; exact h2 h

/-- A step that leaves the session where it is. -/
theorem NetInv.quiet (hN : NetInv impl ids r₀ out Good timeout now N) {i : ID} {op : Op G} {ret : Ret G} {s : State G R}
    (hs : step impl (N.state i) op = some (s, ret)) (hret : returned ret = []) (herr : s.err = (N.state i).err) (hdone : s.done = (N.state i).done)
    (hround : s.round = (N.state i).round) (hnum : s.roundNumber = (N.state i).roundNumber) (hop : ∀ m e, op = .handle m → ret = .handled e → m ∈ N.sent) :
    NetInv impl ids r₀ out Good timeout now (N.after i op ret s) where
  hist j hj := by
    by_cases h : j = i
    · subst h
      simp only [Net.after, Function.update_self]
      exact (hN.hist j hj).snoc hs
    · simp only [Net.after, Function.update_of_ne h]
      exact hN.hist j hj
  err j hj := update_mem (f := N.state) (i := i) (j := j) (P := fun t : State G R => t.err = none) (fun h => by rw [herr, ← h]; exact hN.err j hj) (fun _ => hN.err j hj)
  good j hj := update_mem (f := N.state) (i := i) (j := j) (P := fun t : State G R => t.done = false → t.roundNumber < 3 ∧ Good j t.roundNumber t.round)
    (fun h => by rw [hdone, hround, hnum, ← h]; exact hN.good j hj) (fun _ => hN.good j hj)
  sentOnly m hm := by
    simp only [Net.after, hret, List.append_nil] at hm
    exact hN.sentOnly m hm
  sentAll j hj := by
    simp only [Net.after, hret, List.append_nil]
    exact update_mem (f := N.state) (i := i) (j := j) (P := fun t : State G R => ∀ n < prog t, ∀ m ∈ out j n, m ∈ N.sent)
      (fun h => by
        have : prog s = prog (N.state i) := by simp [prog, hdone, hnum]
        rw [this, ← h]; exact hN.sentAll j hj) (fun _ => hN.sentAll j hj)
  handled j hj m e := by
    simp only [Net.after, hret, List.append_nil]
    refine update_mem (f := N.hist) (i := i) (j := j) (P := fun t : List (Op G × Ret G) => (Op.handle m, Ret.handled e) ∈ t → m ∈ N.sent) (fun h => ?_) ?_
    swap
    · exact fun _ => hN.handled j hj m e
    intro hm
    rcases List.mem_append.mp hm with hm | hm
    · exact hN.handled i (h ▸ hj) m e hm
    · rw [List.mem_singleton, Prod.mk.injEq] at hm
      exact hop m e hm.1.symm hm.2.symm
  emitted j hj op' o := by
    simp only [Net.after, hret, List.append_nil]
    refine update_mem (f := N.hist) (i := i) (j := j) (P := fun t : List (Op G × Ret G) => (op', Ret.messages o) ∈ t → ∀ m ∈ o, m ∈ N.sent) (fun h => ?_) ?_
    swap
    · exact fun _ => hN.emitted j hj op' o
    intro hm
    rcases List.mem_append.mp hm with hm | hm
    · exact hN.emitted i (h ▸ hj) op' o hm
    · rw [List.mem_singleton, Prod.mk.injEq] at hm
      rw [← hm.2] at hret
      simp only [returned] at hret
      intro m hm; rw [hret] at hm; cases hm

theorem NetInv.step (H : Honest impl ids r₀ coins M out Good tys) (hN : NetInv impl ids r₀ out Good timeout now N) {i : ID} (hi : i ∈ ids)
    {op : Op G} {ret : Ret G} {s : State G R} (ha : Allowed coins N i op) (hs : State.step impl (N.state i) op = some (s, ret)) :
    NetInv impl ids r₀ out Good timeout now (N.after i op ret s) := by
  have hs' := hs
  rcases step_cases hs with ⟨m, e, rfl, rfl, h2⟩ | ⟨ord, c, o, rfl, rfl, h2⟩ | ⟨dt, rfl, rfl, rfl⟩ |
    ⟨rfl, rfl, rfl | ⟨t, _, _, rfl⟩⟩ | ⟨rfl, rfl, ⟨_, rfl⟩ | ⟨_, _, rfl⟩ | ⟨r, hf, hd, _⟩⟩
  · refine hN.quiet hs rfl ?_ ?_ ?_ ?_ (fun m' e' h h' => by cases h; exact ha)
    all_goals cases handle_cases _ h2 <;> rfl
  · obtain ⟨t, o', h3, h4, h5⟩ := hN.process H hi ord c ha
    rw [(processAll_iff impl).mpr h2] at h3
    obtain ⟨rfl, rfl⟩ := Prod.mk.inj (Option.some.inj h3)
    rcases h5 with ⟨_, rfl, rfl⟩ | ⟨hd, rfl, h5, h6⟩
    · exact hN.quiet hs rfl rfl rfl rfl rfl (fun m' e' h h' => by cases h)
    · obtain ⟨h7, h8⟩ := hN.good i hi hd
      refine ⟨?_, ?_, ?_, ?_, ?_, ?_, ?_⟩
      · intro j hj
        by_cases h : j = i
        · subst h
          simp only [Net.after, Function.update_self]
          exact (hN.hist j hj).snoc hs
        · simp only [Net.after, Function.update_of_ne h]
          exact hN.hist j hj
      · intro j hj
        exact update_mem (f := N.state) (i := i) (j := j) (P := fun t : State G R => t.err = none) (fun _ => h4) (fun _ => hN.err j hj)
      · intro j hj
        refine update_mem (f := N.state) (i := i) (j := j) (P := fun t : State G R => t.done = false → t.roundNumber < 3 ∧ Good j t.roundNumber t.round)
          (fun h => ?_) (fun _ => hN.good j hj)
        intro hd2
        rw [h]
        exact (h6 hd2).2
      · intro m hm
        simp only [Net.after, returned, List.mem_append] at hm
        rcases hm with hm | hm
        · exact hN.sentOnly m hm
        · by_cases h2 : (N.state i).roundNumber < 2
          · exact ⟨i, hi, _, h2, hm⟩
          · rw [show (N.state i).roundNumber = 2 by omega, H.out_last i hi] at hm
            cases hm
      · intro j hj
        simp only [Net.after, returned, List.mem_append]
        refine update_mem (f := N.state) (i := i) (j := j) (P := fun t : State G R => ∀ n < prog t, ∀ m ∈ out j n, m ∈ N.sent ∨ m ∈ out i (N.state i).roundNumber)
          (fun h => ?_) (fun _ n hn m hm => Or.inl (hN.sentAll j hj n hn m hm))
        subst h
        intro n hn m hm
        rw [h5] at hn
        by_cases hn' : n = (N.state j).roundNumber
        · rw [← hn']; exact Or.inr hm
        · refine Or.inl (hN.sentAll j hj n ?_ m hm)
          simp [prog, hd]
          omega
      · intro j hj m e
        simp only [Net.after, returned, List.mem_append]
        refine update_mem (f := N.hist) (i := i) (j := j) (P := fun t : List (Op G × Ret G) => (Op.handle m, Ret.handled e) ∈ t → m ∈ N.sent ∨ m ∈ out i (N.state i).roundNumber)
          (fun h => ?_) ?_
        swap
        · exact fun _ hm => Or.inl (hN.handled j hj m e hm)
        intro hm
        rcases List.mem_append.mp hm with hm | hm
        · exact Or.inl (hN.handled i hi m e hm)
        · rw [List.mem_singleton, Prod.mk.injEq] at hm
          cases hm.1
      · intro j hj op' o
        simp only [Net.after, returned, List.mem_append]
        refine update_mem (f := N.hist) (i := i) (j := j) (P := fun t : List (Op G × Ret G) => (op', Ret.messages o) ∈ t → ∀ m ∈ o, m ∈ N.sent ∨ m ∈ out i (N.state i).roundNumber)
          (fun h => ?_) ?_
        swap
        · exact fun _ hm m hm' => Or.inl (hN.emitted j hj op' o hm m hm')
        intro hm
        rcases List.mem_append.mp hm with hm | hm
        · exact fun m hm' => Or.inl (hN.emitted i hi op' o hm m hm')
        · rw [List.mem_singleton, Prod.mk.injEq] at hm
          cases hm.2
          exact fun m hm' => Or.inr hm'
  · exact hN.quiet hs rfl rfl rfl rfl rfl (fun m' e' h h' => by cases h)
  · exact hN.quiet hs rfl rfl rfl rfl rfl (fun m' e' h h' => by cases h)
  · exact hN.quiet hs rfl rfl rfl rfl rfl (fun m' e' h h' => by cases h)
  · exact hN.quiet hs rfl rfl rfl rfl rfl (fun m' e' h h' => by cases h)
  · exact hN.quiet hs rfl rfl rfl rfl rfl (fun m' e' h h' => by cases h)
  · rcases ha with ha | ha
    · exact absurd ha hf
    · rw [hd] at ha; cases ha

theorem Path.trans {N₁ N₂ N₃ : Net G R} (h1 : Path impl ids coins N₁ N₂) (h2 : Path impl ids coins N₂ N₃) : Path impl ids coins N₁ N₃ := by
  induction h2 with
  | refl => exact h1
  | tail _ g1 g2 g3 ih => exact ih.tail g1 g2 g3

theorem NetInv.path (H : Honest impl ids r₀ coins M out Good tys) (hN : NetInv impl ids r₀ out Good timeout now N) {N' : Net G R}
    (hp : Path impl ids coins N N') : NetInv impl ids r₀ out Good timeout now N' := by
  induction hp with
  | refl => exact hN
  | tail _ h1 h2 h3 ih => exact ih.step H h1 h2 h3

/-- No call crashes. -/
theorem NetInv.no_crash (H : Honest impl ids r₀ coins M out Good tys) (hN : NetInv impl ids r₀ out Good timeout now N) {i : ID} (hi : i ∈ ids)
    {op : Op G} (ha : Allowed coins N i op) : ∃ s ret, State.step impl (N.state i) op = some (s, ret) := by
  cases op with
  | handle m => exact ⟨_, _, rfl⟩
  | processAll ord c =>
    obtain ⟨t, o, h1, _⟩ := hN.process H hi ord c ha
    exact ⟨t, .messages o, by simp [State.step, h1]⟩
  | advance dt => exact ⟨_, _, rfl⟩
  | fire =>
    unfold State.step
    simp only []
    split
    · split <;> exact ⟨_, _, rfl⟩
    · exact ⟨_, _, rfl⟩
  | callback =>
    rcases ha with ha | ha
    · exact ⟨N.state i, .nothing, by simp [State.step, ha]⟩
    · unfold State.step
      simp only []
      split
      · exact ⟨_, _, rfl⟩
      · simp [timeoutCallback, reportError, ha]

/-- Handing over the messages of the current round to `i`. -/
theorem NetInv.collect (H : Honest impl ids r₀ coins M out Good tys) (hN : NetInv impl ids r₀ out Good timeout now N) {i : ID} (hi : i ∈ ids)
    (hd : (N.state i).done = false) (h0 : (N.state i).roundNumber ≠ 0) (ks : List ID) (hks : ∀ k ∈ ks, k ∈ others i ids)
    (hsent : ∀ k ∈ ks, M (N.state i).roundNumber k i ∈ N.sent) :
    ∃ N', Path impl ids coins N N' ∧ (∀ j, j ≠ i → N'.state j = N.state j) ∧ (N'.state i).done = false ∧
      (N'.state i).roundNumber = (N.state i).roundNumber ∧ (∀ k ∈ (N.state i).received.keys, k ∈ (N'.state i).received.keys) ∧
      ∀ k ∈ ks, k ∈ (N'.state i).received.keys := by
  induction ks generalizing N with
  | nil => exact ⟨N, .refl N, fun _ _ => rfl, hd, rfl, fun _ h => h, by simp⟩
  | cons k ks ih =>
    obtain ⟨n, hn⟩ : ∃ n, (N.state i).roundNumber = n + 1 := ⟨(N.state i).roundNumber - 1, by omega⟩
    have hk := mem_others.mp (hks k List.mem_cons_self)
    have hlt := (hN.good i hi hd).1
    let m := M (N.state i).roundNumber k i
    have hm : m ∈ N.sent := hsent k List.mem_cons_self
    let s' := (handleMessage impl (N.state i) m).1
    have hstep : State.step impl (N.state i) (.handle m) = some (s', .handled (handleMessage impl (N.state i) m).2) := rfl
    let N₁ := N.after i (.handle m) (.handled (handleMessage impl (N.state i) m).2) s'
    have hN₁ : NetInv impl ids r₀ out Good timeout now N₁ := hN.step H hi hm hstep
    have hst : N₁.state i = s' := by simp [N₁, Net.after]
    have hmem := H.out_mem k hk.1 i hi (Ne.symm hk.2) n (by omega)
    rw [← hn] at hmem
    have hspec := H.out_spec k hk.1 n (by omega) m (by exact hmem.1)
    have hinv := inv_hist H.stable (hN.hist i hi)
    have hhead : (N.state i).acceptedTypes.head? = some m.header.type := by
      rw [hinv.types, H.types i hi, show (N.state i).used = (N.state i).roundNumber by simp [used, hd], List.head?_drop, hn]
      exact hspec.2.1
    have hfacts : s'.done = false ∧ s'.roundNumber = (N.state i).roundNumber ∧ (∀ k ∈ (N.state i).received.keys, k ∈ s'.received.keys) ∧
        k ∈ s'.received.keys := by
      have hrel : Relevant (impl.selfID (N.state i).round) (impl.partyIDs (N.state i).round) m := by
        rw [hinv.self, hinv.ids, H.self i hi, H.parties i hi]
        refine ⟨by rw [hspec.1]; exact hk.2, hmem.2, IDSlice.contains_complete H.sorted (by rw [hspec.1]; exact hk.1)⟩
      by_cases hin : k ∈ (N.state i).received.keys
      · have : ∀ t e, handleMessage impl (N.state i) m = (t, e) → t.done = false ∧ t.roundNumber = (N.state i).roundNumber ∧
            (∀ k ∈ (N.state i).received.keys, k ∈ t.received.keys) := by
          intro t e ht
          cases handle_cases _ ht with
          | stored => exact ⟨hd, rfl, fun k hk => GoMap.mem_keys_set.mpr (Or.inr hk)⟩
          | _ => exact ⟨hd, rfl, fun _ h => h⟩
        obtain ⟨a1, a2, a3⟩ := this _ _ (Prod.mk.eta (p := handleMessage impl (N.state i) m)).symm
        exact ⟨a1, a2, a3, a3 k hin⟩
      · cases hacc : (N.state i).acceptedTypes with
        | nil => rw [hacc] at hhead; cases hhead
        | cons t ts =>
          rw [hacc] at hhead
          have h1 := handle_stores hd hacc hrel (by rw [hspec.1]; exact hin) (Option.some.inj hhead).symm
          have : s' = _ := congrArg Prod.fst h1
          rw [this]
          exact ⟨hd, rfl, fun k hk => GoMap.mem_keys_set.mpr (Or.inr hk), GoMap.mem_keys_set.mpr (Or.inl hspec.1.symm)⟩
    obtain ⟨N', g1, g2, g3, g4, g5, g6⟩ := ih hN₁ (by rw [hst]; exact hfacts.1) (by rw [hst, hfacts.2.1]; exact h0)
      (fun k' hk' => hks k' (List.mem_cons_of_mem _ hk')) (fun k' hk' => by
        rw [hst, hfacts.2.1]
        exact List.mem_append_left _ (hsent k' (List.mem_cons_of_mem _ hk')))
    rw [hst] at g4 g5
    refine ⟨N', Path.trans ((Path.refl N).tail (op := .handle m) hi hm hstep) g1, ?_, g3, g4.trans hfacts.2.1, fun k' hk' => g5 k' (hfacts.2.2.1 k' hk'), ?_⟩
    · intro j hj
      rw [g2 j hj]
      simp [N₁, Net.after, Function.update_of_ne hj]
    · intro k' hk'
      rcases List.mem_cons.mp hk' with rfl | hk'
      · exact g5 _ hfacts.2.2.2
      · exact g6 k' hk'

/-- A session all of whose keys are there is full. -/
theorem full_of_keys {r : R} {h : List (Op G × Ret G)} {s : State G R} (hinv : Inv impl r h s) (hnd : (impl.partyIDs r).Nodup)
    (hself : impl.selfID r ∈ impl.partyIDs r) (hk : ∀ k ∈ others (impl.selfID r) (impl.partyIDs r), k ∈ s.received.keys) : Full impl s := by
  show s.received.length = (IDSlice.N (impl.partyIDs s.round) - 1).toNat
  rw [hinv.ids, ← Keygen.filter_self_length hnd hself, ← GoMap.keys_length]
  refine List.Perm.length_eq ((List.perm_ext_iff_of_nodup hinv.wf (hnd.filter _)).mpr fun k => ⟨fun hkk => ?_, hk k⟩)
  obtain ⟨v, hv⟩ := GoMap.mem_keys_iff.mp hkk
  have hv := GoMap.mem_of_get? hv
  cases v with
  | none => exact mem_others.mpr (hinv.storedNone k hv).2
  | some m =>
    obtain ⟨rfl, h2, _⟩ := hinv.stored k m hv
    exact mem_others.mpr ⟨IDSlice.contains_sound h2.2.2, h2.1⟩

/-- The party that is behind can always advance. -/
theorem NetInv.advance (H : Honest impl ids r₀ coins M out Good tys) (hN : NetInv impl ids r₀ out Good timeout now N) {i : ID} (hi : i ∈ ids)
    (hd : (N.state i).done = false) (hmin : ∀ j ∈ ids, (N.state i).roundNumber ≤ prog (N.state j)) :
    ∃ N', Path impl ids coins N N' ∧ (∀ j, j ≠ i → N'.state j = N.state j) ∧ prog (N'.state i) = prog (N.state i) + 1 := by
  have hcol : ∃ N', Path impl ids coins N N' ∧ (∀ j, j ≠ i → N'.state j = N.state j) ∧ (N'.state i).done = false ∧
      (N'.state i).roundNumber = (N.state i).roundNumber ∧ Full impl (N'.state i) := by
    have hfull : ∀ {N'}, NetInv impl ids r₀ out Good timeout now N' → (∀ k ∈ others i ids, k ∈ (N'.state i).received.keys) → Full impl (N'.state i) := by
      intro N' hN' hk
      refine full_of_keys (inv_hist H.stable (hN'.hist i hi)) ?_ ?_ ?_
      · rw [H.parties i hi]; exact H.nodup
      · rw [H.parties i hi, H.self i hi]; exact hi
      · rw [H.parties i hi, H.self i hi]; exact hk
    by_cases h0 : (N.state i).roundNumber = 0
    · refine ⟨N, .refl N, fun _ _ => rfl, hd, rfl, hfull hN ?_⟩
      intro k hk
      rw [((inv_hist H.stable (hN.hist i hi)).round0 h0 hd).1, H.self i hi, H.parties i hi, mem_initReceived]
      have := mem_others.mp hk
      exact Or.inr ⟨this.1, this.2⟩
    · obtain ⟨N', g1, g2, g3, g4, g5, g6⟩ := hN.collect H hi hd h0 (others i ids) (fun _ h => h) (by
        intro k hk
        have hk := mem_others.mp hk
        obtain ⟨n, hn⟩ : ∃ n, (N.state i).roundNumber = n + 1 := ⟨(N.state i).roundNumber - 1, by omega⟩
        have := hmin k hk.1
        have hlt := (hN.good i hi hd).1
        rw [hn]
        exact hN.sentAll k hk.1 n (by omega) _ (H.out_mem k hk.1 i hi (Ne.symm hk.2) n (by omega)).1)
      exact ⟨N', g1, g2, g3, g4, hfull (hN.path H g1) g6⟩
  obtain ⟨N', g1, g2, g3, g4, g5⟩ := hcol
  have hN' := hN.path H g1
  obtain ⟨t, o, h1, h2, h3⟩ := hN'.process H hi .insertion (coins i) (fun _ => rfl)
  have hstep : State.step impl (N'.state i) (.processAll .insertion (coins i)) = some (t, .messages o) := by simp [State.step, h1]
  refine ⟨_, g1.tail (op := .processAll .insertion (coins i)) hi (fun _ => rfl) hstep, ?_, ?_⟩
  · intro j hj
    simp only [Net.after, Function.update_of_ne hj]
    exact g2 j hj
  · rcases h3 with ⟨h3 | h3, _⟩ | ⟨_, _, h3, _⟩
    · rw [g3] at h3; cases h3
    · exact absurd g5 h3
    · simp only [Net.after, Function.update_self]
      rw [h3, g4]
      simp [prog, hd]

/-- From every reachable state everybody can still finish. -/
theorem NetInv.finish (H : Honest impl ids r₀ coins M out Good tys) (hN : NetInv impl ids r₀ out Good timeout now N) :
    ∃ N', Path impl ids coins N N' ∧ ∀ i ∈ ids, (N'.state i).done = true := by
  generalize hμ : (ids.map fun i => 3 - prog (N.state i)).sum = μ
  induction μ using Nat.strong_induction_on generalizing N with
  | _ μ ih =>
    by_cases hall : ∀ i ∈ ids, (N.state i).done = true
    · exact ⟨N, .refl N, hall⟩
    · push Not at hall
      obtain ⟨i₀, hi₀, hd₀⟩ := hall
      obtain ⟨i, hi, hmin⟩ := Finset.exists_min_image (ids.toFinset.filter fun i => (N.state i).done ≠ true) (fun i => prog (N.state i))
        ⟨i₀, by simp [hi₀, hd₀]⟩
      rw [Finset.mem_filter, List.mem_toFinset] at hi
      obtain ⟨hi, hd⟩ := hi
      rw [ne_eq, Bool.not_eq_true] at hd
      have hp : prog (N.state i) = (N.state i).roundNumber := by simp [prog, hd]
      have hlt := (hN.good i hi hd).1
      obtain ⟨N', g1, g2, g3⟩ := hN.advance H hi hd (by
        intro j hj
        by_cases hdj : (N.state j).done = true
        · simp only [prog, hdj, if_true]; omega
        · have := hmin j (by simp [hj, hdj])
          rwa [hp] at this)
      obtain ⟨N'', g4, g5⟩ := ih _ (by
        rw [← hμ]
        apply List.sum_lt_sum
        · intro j _
          by_cases hj : j = i
          · subst hj; rw [g3]; omega
          · rw [g2 j hj]
        · exact ⟨i, hi, by rw [g3]; omega⟩) (hN.path H g1) rfl
      exact ⟨N'', Path.trans g1 g4, g5⟩

end

end Verif.State
