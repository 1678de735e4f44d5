import Verif.Lemmas.PromptExists

/-!
A session whose timeout is at most `3 δ` can time out although callers and network take at most `δ`.
-/

namespace Verif.State

open Spec

variable {G R : Type}

section

variable {impl : RoundImpl G R} {ids : IDSlice} {r₀ : ID → R} {coins : ID → Coins} {M : Nat → ID → ID → Message G}
  {out : ID → Nat → List (Message G)} {Good : ID → Nat → R → Prop} {timeout now : ID → Nat} {N : Net G R} {tys : List MsgType}
  {init : ID → State G R} {event : Nat → Option (Event G)} {net : Nat → Net G R} {time : Nat → Nat} {δ τ : Nat} {S : List (Message G)}
  {x : ID × Op G} {i j k : ID}

/-- The network after one call. -/
def one (impl : RoundImpl G R) (N : Net G R) (x : ID × Op G) : Net G R := (perform impl N (some x)).2

/-- The network after some calls. -/
def exec (impl : RoundImpl G R) (N : Net G R) (l : List (ID × Op G)) : Net G R := l.foldl (one impl) N

/-- Calls that have nothing to do with timers that have fired; messages that are handed over are among `S`. -/
def Plain (ids : List ID) (coins : ID → Coins) (S : List (Message G)) (x : ID × Op G) : Prop :=
  x.1 ∈ ids ∧ match x.2 with
    | .processAll _ c => c = coins x.1
    | .handle m => m ∈ S
    | .advance _ => True
    | _ => False

theorem one_cases (impl : RoundImpl G R) (N : Net G R) (x : ID × Op G) : one impl N x = N ∨
    ∃ s ret, State.step impl (N.state x.1) x.2 = some (s, ret) ∧ one impl N x = N.after x.1 x.2 ret s := by
  obtain ⟨j, op⟩ := x
  unfold one perform
  cases h : State.step impl (N.state j) op with
  | none => exact Or.inl (by simp only [h])
  | some y => exact Or.inr ⟨y.1, y.2, rfl, by simp only [h]⟩

theorem one_some {s : State G R} {ret : Ret G} (h : State.step impl (N.state x.1) x.2 = some (s, ret)) : one impl N x = N.after x.1 x.2 ret s := by
  obtain ⟨j, op⟩ := x
  unfold one perform
  simp only at h
  simp only [h]

theorem one_other (h : k ≠ x.1) : (one impl N x).state k = N.state k ∧ (one impl N x).hist k = N.hist k := by
  rcases one_cases impl N x with h1 | ⟨s, ret, _, h1⟩
  · rw [h1]; exact ⟨rfl, rfl⟩
  · rw [h1]; simp [Net.after, Function.update_of_ne h]

theorem one_sent {m : Message G} (h : m ∈ N.sent) : m ∈ (one impl N x).sent := by
  rcases one_cases impl N x with h1 | ⟨s, ret, _, h1⟩
  · rw [h1]; exact h
  · rw [h1]; exact List.mem_append_left _ h

theorem exec_ind {P : Net G R → Prop} {Q : ID × Op G → Prop} (h : ∀ N x, P N → Q x → P (one impl N x)) :
    ∀ (l : List (ID × Op G)) (N : Net G R), (∀ x ∈ l, Q x) → P N → P (exec impl N l)
  | [], _, _, hP => hP
  | x :: l, N, hQ, hP => exec_ind h l (one impl N x) (fun y hy => hQ y (List.mem_cons_of_mem _ hy)) (h N x hP (hQ x List.mem_cons_self))

theorem exec_append (l l' : List (ID × Op G)) : exec impl N (l ++ l') = exec impl (exec impl N l) l' := List.foldl_append ..

theorem exec_sent {m : Message G} (l : List (ID × Op G)) (h : m ∈ N.sent) : m ∈ (exec impl N l).sent :=
  exec_ind (P := fun N => m ∈ N.sent) (Q := fun _ => True) (fun _ _ h _ => one_sent h) l N (fun _ _ => trivial) h

/-- What is true of the network as long as no timer callback got the mutex. -/
structure Live (impl : RoundImpl G R) (ids : IDSlice) (r₀ : ID → R) (coins : ID → Coins) (out : ID → Nat → List (Message G)) (Good : ID → Nat → R → Prop)
    (timeout now : ID → Nat) (init : ID → State G R) (N : Net G R) : Prop where
  path : Path impl ids coins (Net.start init) N
  inv : NetInv impl ids r₀ out Good timeout now N
  lead : Lead ids out N

theorem Plain.allowed (hx : Plain ids coins S x) (hS : ∀ m ∈ S, m ∈ N.sent) : x.1 ∈ ids ∧ Allowed coins N x.1 x.2 := by
  obtain ⟨j, op⟩ := x
  obtain ⟨h1, h2⟩ := hx
  refine ⟨h1, ?_⟩
  cases op with
  | handle m => exact hS m h2
  | processAll ord c => exact fun _ => h2
  | advance dt => trivial
  | fire => exact h2.elim
  | callback => exact h2.elim

theorem Live.one (H : Honest impl ids r₀ coins M out Good tys) (L : Live impl ids r₀ coins out Good timeout now init N)
    (hS : ∀ m ∈ S, m ∈ N.sent) (hx : Plain ids coins S x) : Live impl ids r₀ coins out Good timeout now init (one impl N x) := by
  obtain ⟨h1, h2⟩ := hx.allowed hS
  rcases one_cases impl N x with h | ⟨s, ret, hs, h⟩
  · rw [h]; exact L
  · rw [h]
    have hp : Path impl ids coins N (N.after x.1 x.2 ret s) := (Path.refl N).tail h1 h2 hs
    exact ⟨L.path.tail h1 h2 hs, L.inv.path H hp, lead_step H L.inv L.lead h1 h2 hs⟩

theorem Live.exec (H : Honest impl ids r₀ coins M out Good tys) (L : Live impl ids r₀ coins out Good timeout now init N)
    (hS : ∀ m ∈ S, m ∈ N.sent) {l : List (ID × Op G)} (hl : ∀ x ∈ l, Plain ids coins S x) :
    Live impl ids r₀ coins out Good timeout now init (exec impl N l) :=
  (exec_ind (P := fun N => Live impl ids r₀ coins out Good timeout now init N ∧ ∀ m ∈ S, m ∈ N.sent) (Q := Plain ids coins S)
    (fun _ _ h hx => ⟨h.1.one H h.2 hx, fun m hm => one_sent (h.2 m hm)⟩) l N hl ⟨L, hS⟩).1

/-- What one call does to the session it is made at. -/
theorem one_self (H : Honest impl ids r₀ coins M out Good tys) (L : Live impl ids r₀ coins out Good timeout now init N) (hj : j ∈ ids) :
    (∃ o, (one impl N (j, .processAll .insertion (coins j))).hist j = N.hist j ++ [(.processAll .insertion (coins j), .messages o)]) ∧
    ((((N.state j).done = true ∨ ¬ Full impl (N.state j)) ∧ (one impl N (j, .processAll .insertion (coins j))).state j = N.state j) ∨
      ((N.state j).done = false ∧ Full impl (N.state j) ∧ prog ((one impl N (j, .processAll .insertion (coins j))).state j) = prog (N.state j) + 1 ∧
        (((one impl N (j, .processAll .insertion (coins j))).state j).done = false →
          ((one impl N (j, .processAll .insertion (coins j))).state j).timer = (N.state j).timer))) := by
  obtain ⟨t, o, h1, h2, h3⟩ := L.inv.process H hj .insertion (coins j) (fun _ => rfl)
  have hs : State.step impl (N.state j) (.processAll .insertion (coins j)) = some (t, .messages o) := by
    show (processAll impl .insertion (coins j) (N.state j)).map _ = _
    rw [h1]
    rfl
  rw [one_some (x := (j, .processAll .insertion (coins j))) hs]
  simp only [Net.after, Function.update_self]
  refine ⟨⟨o, rfl⟩, ?_⟩
  rcases h3 with ⟨h3, rfl, _⟩ | ⟨hd, _, h3, _⟩
  · exact Or.inl ⟨h3, rfl⟩
  · by_cases hf : Full impl (N.state j)
    swap
    · have := (processAll_iff impl).mpr (.idle (ord := .insertion) (coins := coins j) (Or.inr hf))
      rw [this] at h1
      obtain ⟨rfl, _⟩ := Prod.mk.inj (Option.some.inj h1)
      simp [prog, hd] at h3
    refine Or.inr ⟨hd, hf, by rw [h3]; simp [prog, hd], fun hdt => ?_⟩
    cases (processAll_iff impl).mp h1 with
    | idle | next => rfl
    | _ => cases hdt

theorem Live.notFull (H : Honest impl ids r₀ coins M out Good tys) (L : Live impl ids r₀ coins out Good timeout now init N) (hj : j ∈ ids)
    (hk : k ∈ others j ids) (hd : (N.state j).done = false) (h0 : (N.state j).roundNumber ≠ 0) (hh : ∀ m e, (Op.handle m, Ret.handled e) ∉ N.hist j) :
    ¬ Full impl (N.state j) := by
  intro hf
  have hready := ready H.stable (L.inv.hist j hj) (by rw [H.parties j hj]; exact H.nodup) (by rw [H.self j hj, H.parties j hj]; exact hj) hd hf .insertion
  obtain ⟨g1, _, _⟩ := L.inv.stored H hj hd hf .insertion
  obtain ⟨⟨k', v⟩, hv, rfl⟩ := List.mem_map.mp (g1.mem_iff.mpr hk)
  obtain ⟨m, _, _, _, e4, _⟩ := hready.later h0 k' v hv
  exact hh m none e4

theorem Live.full0 (H : Honest impl ids r₀ coins M out Good tys) (L : Live impl ids r₀ coins out Good timeout now init N) (hj : j ∈ ids)
    (hp : prog (N.state j) = 0) : Full impl (N.state j) := by
  obtain ⟨hd, hr⟩ := prog_lt hp (by omega)
  refine full_of_keys (inv_hist H.stable (L.inv.hist j hj)) (by rw [H.parties j hj]; exact H.nodup) (by rw [H.parties j hj, H.self j hj]; exact hj) ?_
  rw [H.parties j hj, H.self j hj]
  intro k hk
  rw [((inv_hist H.stable (L.inv.hist j hj)).round0 hr hd).1, H.self j hj, H.parties j hj, mem_initReceived]
  have := mem_others.mp hk
  exact Or.inr ⟨this.1, this.2⟩

theorem one_prog (H : Honest impl ids r₀ coins M out Good tys) (L : Live impl ids r₀ coins out Good timeout now init N) (hx : Plain ids coins S x) (j : ID) :
    prog (N.state j) ≤ prog ((one impl N x).state j) := by
  by_cases hj : j = x.1
  swap
  · rw [(one_other hj).1]
  subst hj
  rcases one_cases impl N x with h | ⟨s, ret, hs, h⟩
  · rw [h]
  obtain ⟨j, op⟩ := x
  obtain ⟨h1, h2⟩ := hx
  rw [h]
  simp only [Net.after, Function.update_self]
  rcases step_cases hs with ⟨m, e, h3, rfl, h5⟩ | ⟨ord, c, o, h3, rfl, h5⟩ | ⟨dt, _, rfl, rfl⟩ | ⟨h3, _⟩ | ⟨h3, _⟩
  · cases handle_cases _ h5 <;> exact le_refl _
  · simp only at h3 h2 h1 h5
    subst h3
    obtain ⟨t, o', h6, _, h7⟩ := L.inv.process H h1 ord c (fun _ => h2)
    rw [(processAll_iff impl).mpr h5] at h6
    obtain ⟨rfl, rfl⟩ := Prod.mk.inj (Option.some.inj h6)
    rcases h7 with ⟨_, rfl, _⟩ | ⟨hd, _, h7, _⟩
    · exact le_refl _
    · simp only [h7]
      simp [prog, hd]
  · exact le_refl _
  · simp only at h3; subst h3; exact h2.elim
  · simp only at h3; subst h3; exact h2.elim

/-- What has been heard stays heard. -/
theorem heard_one (H : Honest impl ids r₀ coins M out Good tys) (L : Live impl ids r₀ coins out Good timeout now init N) (hx : Plain ids coins S x)
    (hk : k ∈ others i ids) {q : Nat} (hq2 : q ≤ 2) (hh : Heard tys (N.state i) q k) : Heard tys ((one impl N x).state i) q k := by
  by_cases hi : i = x.1
  swap
  · rw [(one_other hi).1]; exact hh
  subst hi
  rcases one_cases impl N x with h | ⟨s, ret, hs, h⟩
  · rw [h]; exact hh
  obtain ⟨i, op⟩ := x
  obtain ⟨h1, h2⟩ := hx
  rw [h]
  simp only [Net.after, Function.update_self]
  rcases step_cases hs with ⟨m, e, h3, rfl, h5⟩ | ⟨ord, c, o, h3, rfl, h5⟩ | ⟨dt, _, rfl, rfl⟩ | ⟨h3, _⟩ | ⟨h3, _⟩
  · cases handle_cases _ h5 with
    | stored =>
      rcases hh with ih | ⟨ih, ih'⟩ | ih
      · exact Or.inl ih
      · exact Or.inr (Or.inl ⟨ih, GoMap.mem_keys_set.mpr (Or.inr ih')⟩)
      · exact Or.inr (Or.inr ih)
    | queued =>
      rcases hh with ih | ih | ⟨ih, m', hm', h'⟩
      · exact Or.inl ih
      · exact Or.inr (Or.inl ih)
      · exact Or.inr (Or.inr ⟨ih, m', List.mem_append_left _ hm', h'⟩)
    | _ => exact hh
  · simp only at h3 h2 h1 h5
    subst h3
    exact (heard_process H L.inv h1 hk hq2 (fun _ => h2) h5).mpr hh
  · exact hh
  · simp only at h3; subst h3; exact h2.elim
  · simp only at h3; subst h3; exact h2.elim

theorem one_handle (m : Message G) : (one impl N (i, .handle m)).state i = (handleMessage impl (N.state i) m).1 := by
  cases h : handleMessage impl (N.state i) m with
  | mk s e =>
    rw [one_some (x := (i, .handle m)) (s := s) (ret := .handled e) (by simp only [State.step, h])]
    simp only [Net.after, Function.update_self]

/-- The first message of `k` is heard when it is handed over. -/
theorem hears_one (H : Honest impl ids r₀ coins M out Good tys) (L : Live impl ids r₀ coins out Good timeout now init N) (hi : i ∈ ids)
    (hk : k ∈ others i ids) (hp : prog (N.state i) = 1) : Heard tys ((one impl N (i, .handle (M 1 k i))).state i) 1 k := by
  have hk' := mem_others.mp hk
  obtain ⟨hd, hrn⟩ := prog_lt hp (by omega)
  obtain ⟨hmem, hto⟩ := H.out_mem k hk'.1 i hi (Ne.symm hk'.2) 0 (by omega)
  obtain ⟨hfrom, hty, _⟩ := H.out_spec k hk'.1 0 (by omega) _ hmem
  have hrel : Relevant (impl.selfID (r₀ i)) (impl.partyIDs (r₀ i)) (M 1 k i) := by
    rw [H.self i hi, H.parties i hi]
    exact ⟨by rw [hfrom]; exact hk'.2, hto, IDSlice.contains_complete H.sorted (by rw [hfrom]; exact hk'.1)⟩
  have hinv := inv_hist H.stable (L.inv.hist i hi)
  have hhead : (N.state i).acceptedTypes.head? = some (M 1 k i).header.type := by
    rw [types_drop H L.inv hi hd, List.head?_drop, hrn]
    exact hty
  rw [one_handle]
  by_cases hin : k ∈ (N.state i).received.keys
  · cases hc : handleMessage impl (N.state i) (M 1 k i) with
    | mk s e =>
    cases handle_cases impl hc with
    | stored => exact Or.inr (Or.inl ⟨hp, GoMap.mem_keys_set.mpr (Or.inr hin)⟩)
    | _ => exact Or.inr (Or.inl ⟨hp, hin⟩)
  · cases hacc : (N.state i).acceptedTypes with
    | nil => rw [hacc] at hhead; cases hhead
    | cons t ts =>
      rw [hacc] at hhead
      rw [handle_stores hd hacc (by rw [hinv.self, hinv.ids]; exact hrel) (by rw [hfrom]; exact hin) (Option.some.inj hhead).symm]
      exact Or.inr (Or.inl ⟨hp, GoMap.mem_keys_set.mpr (Or.inl hfrom.symm)⟩)

/-- A message of `i` itself, or a first message. -/
def Old (ids : List ID) (out : ID → Nat → List (Message G)) (i : ID) (m : Message G) : Prop := ∃ j ∈ ids, ∃ n < 2, m ∈ out j n ∧ (j ≠ i → n = 0)

/-- Whoever has heard all first messages does not listen to them again. -/
theorem deaf (H : Honest impl ids r₀ coins M out Good tys) (L : Live impl ids r₀ coins out Good timeout now init N) (hi : i ∈ ids)
    (hh : ∀ k ∈ others i ids, Heard tys (N.state i) 1 k) {m : Message G} (hm : Old ids out i m) : (one impl N (i, .handle m)).state i = N.state i := by
  obtain ⟨j, hj, n, hn, h1, h2⟩ := hm
  obtain ⟨hfrom, hty, _⟩ := H.out_spec j hj n hn m h1
  have hinv := inv_hist H.stable (L.inv.hist i hi)
  rw [one_handle]
  have key : (N.state i).done = false → Relevant (impl.selfID (N.state i).round) (impl.partyIDs (N.state i).round) m →
      m.header.fromID ∉ (N.state i).received.keys → m.header.type ∉ (N.state i).acceptedTypes := by
    intro hd hrel hnot hmem
    have hji : j ≠ i := by
      have := hrel.1
      rw [hinv.self, H.self i hi, hfrom] at this
      exact this
    have hn0 := h2 hji
    subst hn0
    have hpr : prog (N.state i) = (N.state i).roundNumber := by simp [prog, hd]
    have hp : prog (N.state i) < 2 := by
      rw [types_drop H L.inv hi hd] at hmem
      obtain ⟨a, ha⟩ := List.getElem?_of_mem hmem
      rw [List.getElem?_drop] at ha
      have := index_inj H.tys_nodup hty ha
      omega
    rcases hh j (mem_others.mpr ⟨hj, hji⟩) with h | ⟨_, h⟩ | ⟨h, m', hm', _⟩
    · omega
    · rw [hfrom] at hnot; exact hnot h
    · rw [(hinv.round0 (by omega) hd).2] at hm'
      cases hm'
  cases hc : handleMessage impl (N.state i) m with
  | mk s e =>
  cases handle_cases impl hc with
  | stored hd hrel hnot hhead => exact absurd (List.mem_of_mem_head? hhead) (key hd hrel hnot)
  | queued hd hrel hnot hmem => exact absurd hmem (key hd hrel hnot)
  | _ => rfl

/-- `ProcessAll` is called at each of `l`. -/
def procs (coins : ID → Coins) (l : List ID) : List (ID × Op G) := l.map fun j => (j, .processAll .insertion (coins j))

/-- Each of `l` is handed all of `S`. -/
def handAll (l : List ID) (S : List (Message G)) : List (ID × Op G) := l.flatMap fun j => S.map fun m => (j, .handle m)

theorem mem_procs {l : List ID} : x ∈ procs (G := G) coins l ↔ ∃ j ∈ l, x = (j, .processAll .insertion (coins j)) := by
  simp [procs, eq_comm]

theorem mem_handAll {l : List ID} : x ∈ handAll l S ↔ ∃ j ∈ l, ∃ m ∈ S, x = (j, .handle m) := by
  simp [handAll, eq_comm]

theorem plain_procs {l : List ID} (hl : ∀ j ∈ l, j ∈ ids) (S : List (Message G)) : ∀ x ∈ procs (G := G) coins l, Plain ids coins S x := by
  intro x hx
  obtain ⟨j, hj, rfl⟩ := mem_procs.mp hx
  exact ⟨hl j hj, rfl⟩

theorem plain_handAll {l : List ID} (hl : ∀ j ∈ l, j ∈ ids) : ∀ x ∈ handAll l S, Plain ids coins S x := by
  intro x hx
  obtain ⟨j, hj, m, hm, rfl⟩ := mem_handAll.mp hx
  exact ⟨hl j hj, hm⟩

/-- Nothing has been handed over to `j`. -/
def NoHandle (N : Net G R) (j : ID) : Prop := ∀ m e, (Op.handle m, Ret.handled e) ∉ N.hist j

/-- The timer of `i` is running since its session was created, `a` ago, or since its clock showed the same time. -/
def Ticks (timeout now : ID → Nat) (i : ID) (a : Nat) (N : Net G R) : Prop :=
  (N.state i).done = false ∧ (N.state i).timer = ⟨timeout i, now i + a, some (now i + timeout i), 0⟩

theorem done_of_le (hp : prog (N.state j) ≤ 2) : (N.state j).done = false := (prog_lt rfl (by omega)).1

/-- A call of `ProcessAll` moves the session by at most one round. -/
theorem proc_le (H : Honest impl ids r₀ coins M out Good tys) (L : Live impl ids r₀ coins out Good timeout now init N) (hj : j ∈ ids) :
    prog ((one impl N (j, .processAll .insertion (coins j))).state j) ≤ prog (N.state j) + 1 := by
  rcases (one_self H L hj).2 with ⟨_, h⟩ | ⟨_, _, h, _⟩
  · rw [h]; omega
  · omega

theorem proc_ge (H : Honest impl ids r₀ coins M out Good tys) (L : Live impl ids r₀ coins out Good timeout now init N) (hj : j ∈ ids) :
    1 ≤ prog ((one impl N (j, .processAll .insertion (coins j))).state j) := by
  by_cases h0 : prog (N.state j) = 0
  · rcases (one_self H L hj).2 with ⟨h | h, _⟩ | ⟨_, _, h, _⟩
    · rw [(prog_lt h0 (by omega)).1] at h; cases h
    · exact absurd (L.full0 H hj h0) h
    · omega
  · have := one_prog H L (S := []) (x := (j, .processAll .insertion (coins j))) ⟨hj, rfl⟩ j
    omega

theorem proc_ticks (H : Honest impl ids r₀ coins M out Good tys) (L : Live impl ids r₀ coins out Good timeout now init N) (hj : j ∈ ids) {a : Nat}
    (ht : Ticks timeout now j a N) (hp : prog ((one impl N (j, .processAll .insertion (coins j))).state j) ≤ 2) :
    Ticks timeout now j a (one impl N (j, .processAll .insertion (coins j))) := by
  have hd := done_of_le hp
  rcases (one_self H L hj).2 with ⟨_, h⟩ | ⟨_, _, _, h⟩
  · unfold Ticks; rw [h]; exact ht
  · exact ⟨hd, (h hd).trans ht.2⟩

/-- Without having been handed anything nobody gets beyond the second round. -/
theorem proc_quiet (H : Honest impl ids r₀ coins M out Good tys) (L : Live impl ids r₀ coins out Good timeout now init N) (hj : j ∈ ids)
    (hk : k ∈ others j ids) (hh : NoHandle N j) (hp : prog (N.state j) ≤ 1) :
    NoHandle (one impl N (j, .processAll .insertion (coins j))) j ∧ prog ((one impl N (j, .processAll .insertion (coins j))).state j) ≤ 1 := by
  obtain ⟨⟨o, h1⟩, h2⟩ := one_self H L hj
  refine ⟨fun m e hm => ?_, ?_⟩
  · rw [h1] at hm
    rcases List.mem_append.mp hm with hm | hm
    · exact hh m e hm
    · simp at hm
  · rcases h2 with ⟨_, h⟩ | ⟨hd, hf, h, _⟩
    · rw [h]; exact hp
    · by_cases h0 : prog (N.state j) = 0
      · omega
      · exact absurd hf (L.notFull H hj hk hd (by simp [prog, hd] at h0; exact h0) hh)

theorem exec_prog (H : Honest impl ids r₀ coins M out Good tys) (L : Live impl ids r₀ coins out Good timeout now init N)
    (hS : ∀ m ∈ S, m ∈ N.sent) {l : List (ID × Op G)} (hl : ∀ x ∈ l, Plain ids coins S x) (j : ID) :
    prog (N.state j) ≤ prog ((exec impl N l).state j) :=
  (exec_ind (P := fun N' => (Live impl ids r₀ coins out Good timeout now init N' ∧ ∀ m ∈ S, m ∈ N'.sent) ∧ prog (N.state j) ≤ prog (N'.state j))
    (Q := Plain ids coins S)
    (fun _ _ h hx => ⟨⟨h.1.1.one H h.1.2 hx, fun m hm => one_sent (h.1.2 m hm)⟩, h.2.trans (one_prog H h.1.1 hx j)⟩) l N hl ⟨⟨L, hS⟩, le_refl _⟩).2

theorem exec_heard (H : Honest impl ids r₀ coins M out Good tys) (L : Live impl ids r₀ coins out Good timeout now init N)
    (hS : ∀ m ∈ S, m ∈ N.sent) {l : List (ID × Op G)} (hl : ∀ x ∈ l, Plain ids coins S x) (hk : k ∈ others i ids)
    (hh : Heard tys (N.state i) 1 k) : Heard tys ((exec impl N l).state i) 1 k :=
  (exec_ind (P := fun N' => (Live impl ids r₀ coins out Good timeout now init N' ∧ ∀ m ∈ S, m ∈ N'.sent) ∧ Heard tys (N'.state i) 1 k)
    (Q := Plain ids coins S)
    (fun _ _ h hx => ⟨⟨h.1.1.one H h.1.2 hx, fun m hm => one_sent (h.1.2 m hm)⟩, heard_one H h.1.1 hx hk (by omega) h.2⟩) l N hl ⟨⟨L, hS⟩, hh⟩).2

theorem procs_ge (H : Honest impl ids r₀ coins M out Good tys) : ∀ (l : List ID) (N : Net G R), Live impl ids r₀ coins out Good timeout now init N →
    (∀ j ∈ l, j ∈ ids) → ∀ j ∈ l, 1 ≤ prog ((exec impl N (procs coins l)).state j)
  | [], _, _, _, _, hj => nomatch hj
  | a :: l, N, L, hl, j, hj => by
    have ha := hl a List.mem_cons_self
    have hl' := fun j hj => hl j (List.mem_cons_of_mem _ hj)
    have L' := L.one H (S := []) (x := (a, .processAll .insertion (coins a))) (fun _ h => nomatch h) ⟨ha, rfl⟩
    rcases List.mem_cons.mp hj with rfl | hj
    · exact (proc_ge H L ha).trans (exec_prog H L' (S := []) (fun _ h => nomatch h) (plain_procs hl' []) j)
    · exact procs_ge H l _ L' hl' j hj

theorem exec_hears (H : Honest impl ids r₀ coins M out Good tys) (hi : i ∈ ids) (hk : k ∈ others i ids) : ∀ (l : List (ID × Op G)) (N : Net G R),
    Live impl ids r₀ coins out Good timeout now init N → (∀ m ∈ S, m ∈ N.sent) → (∀ x ∈ l, ∃ m ∈ S, x = (i, .handle m)) → prog (N.state i) = 1 →
    (i, .handle (M 1 k i)) ∈ l → Heard tys ((exec impl N l).state i) 1 k
  | [], _, _, _, _, _, hm => nomatch hm
  | a :: l, N, L, hS, hl, hp, hm => by
    have hplain : ∀ x ∈ a :: l, Plain ids coins S x := by
      intro x hx
      obtain ⟨m, hm, rfl⟩ := hl x hx
      exact ⟨hi, hm⟩
    have L' := L.one H hS (hplain a List.mem_cons_self)
    have hS' : ∀ m ∈ S, m ∈ (one impl N a).sent := fun m hm => one_sent (hS m hm)
    rcases List.mem_cons.mp hm with rfl | hm
    · exact exec_heard H L' hS' (fun x hx => hplain x (List.mem_cons_of_mem _ hx)) hk (hears_one H L hi hk hp)
    · refine exec_hears H hi hk l _ L' hS' (fun x hx => hl x (List.mem_cons_of_mem _ hx)) ?_ hm
      obtain ⟨m, _, rfl⟩ := hl a List.mem_cons_self
      rw [one_handle]
      cases hc : handleMessage impl (N.state i) m with
      | mk s e => cases handle_cases impl hc <;> exact hp

/-- Handing over a message does not move the clock or the timer of a session that was just created or heard something at the same time. -/
theorem handle_ticks (h0 : timeout i ≠ 0) {m : Message G} (h : Ticks timeout now i 0 N) : Ticks timeout now i 0 (one impl N (i, .handle m)) := by
  unfold Ticks
  rw [one_handle]
  obtain ⟨h1, h2⟩ := h
  have hack : (N.state i).timer.ackMessage = (N.state i).timer := by
    rw [h2]
    simp [Timer.ackMessage, Nat.pos_of_ne_zero h0]
  cases hc : handleMessage impl (N.state i) m with
  | mk s e =>
    cases handle_cases impl hc with
    | stored | queued => exact ⟨h1, hack.trans h2⟩
    | _ => exact ⟨h1, h2⟩

theorem handle_prog {m : Message G} (l : ID) : prog ((one impl N (i, .handle m)).state l) = prog (N.state l) := by
  by_cases hl : l = i
  · subst hl
    rw [one_handle]
    cases hc : handleMessage impl (N.state l) m with
    | mk s e => cases handle_cases impl hc <;> rfl
  · rw [(one_other (x := (i, Op.handle m)) hl).1]

/-- `i` has heard all first messages, nobody has heard of `i`. -/
structure Stage (impl : RoundImpl G R) (ids : IDSlice) (r₀ : ID → R) (coins : ID → Coins) (out : ID → Nat → List (Message G)) (Good : ID → Nat → R → Prop)
    (timeout now : ID → Nat) (init : ID → State G R) (tys : List MsgType) (i : ID) (a : Nat) (N : Net G R) : Prop where
  live : Live impl ids r₀ coins out Good timeout now init N
  heard : ∀ k ∈ others i ids, Heard tys (N.state i) 1 k
  quiet : ∀ k ∈ others i ids, NoHandle N k
  behind : ∀ k ∈ others i ids, prog (N.state k) ≤ 1
  ticks : Ticks timeout now i a N
  le : prog (N.state i) ≤ 1
  sole : others i ids = [] → prog (N.state i) = 0

theorem stage0 (H : Honest impl ids r₀ coins M out Good tys) (hN0 : NetInv impl ids r₀ out Good timeout now (Net.start init)) (hi : i ∈ ids)
    (h0 : timeout i ≠ 0) : ∃ l : List (ID × Op G), (∀ x ∈ l, ∀ dt, x.2 ≠ .advance dt) ∧
      (∃ l₁ l₂ S, l = l₁ ++ l₂ ∧ (∀ x ∈ l₁, Plain ids coins [] x) ∧ (∀ x ∈ l₂, Plain ids coins S x) ∧ ∀ m ∈ S, m ∈ (exec impl (Net.start init) l₁).sent) ∧
      Stage impl ids r₀ coins out Good timeout now init tys i 0 (exec impl (Net.start init) l) := by
  have hinit := start_init hN0
  have hst : ∀ j ∈ ids, (Net.start init).state j = newBaseState impl (r₀ j) (timeout j) (now j) := hinit
  have hpr : ∀ j ∈ ids, prog ((Net.start init).state j) = 0 := fun j hj => by rw [hst j hj]; rfl
  have L : Live impl ids r₀ coins out Good timeout now init (Net.start init) :=
    ⟨.refl _, hN0, (fun m hm => nomatch hm), fun j hj k hk => by rw [hpr j hj]; omega⟩
  have hticks : Ticks timeout now i 0 (Net.start init) := by
    unfold Ticks
    rw [hst i hi]
    refine ⟨rfl, ?_⟩
    simp [newBaseState, Timer.new, Nat.pos_of_ne_zero h0]
  have hno : ∀ j, NoHandle (Net.start init) j := fun j m e h => nomatch h
  by_cases hone : others i ids = []
  · have hemp : ∀ {P : ID → Prop}, ∀ k ∈ others i ids, P k := fun k hk => by rw [hone] at hk; cases hk
    refine ⟨[], (fun _ h => nomatch h), ⟨[], [], [], rfl, (fun _ h => nomatch h), (fun _ h => nomatch h), (fun _ h => nomatch h)⟩, L, hemp, hemp, hemp, hticks, ?_, fun _ => hpr i hi⟩
    show prog ((Net.start init).state i) ≤ 1
    rw [hpr i hi]
    omega
  obtain ⟨k₀, hk₀⟩ := List.exists_mem_of_ne_nil _ hone
  have hex : ∀ j ∈ ids, ∃ k, k ∈ others j ids := by
    intro j hj
    by_cases hji : j = i
    · subst hji; exact ⟨k₀, hk₀⟩
    · exact ⟨i, mem_others.mpr ⟨hi, Ne.symm hji⟩⟩
  -- everybody begins
  have A := exec_ind (impl := impl) (P := fun N : Net G R => Live impl ids r₀ coins out Good timeout now init N ∧ (∀ j ∈ ids, NoHandle N j ∧ prog (N.state j) ≤ 1) ∧
      Ticks timeout now i 0 N) (Q := fun x => ∃ j ∈ ids, x = (j, .processAll .insertion (coins j)))
    (fun N x h hx => by
      obtain ⟨j, hj, rfl⟩ := hx
      obtain ⟨h1, h2, h3⟩ := h
      obtain ⟨k, hk⟩ := hex j hj
      have hq := proc_quiet H h1 hj hk (h2 j hj).1 (h2 j hj).2
      refine ⟨h1.one H (S := []) (fun _ h => nomatch h) ⟨hj, rfl⟩, fun l hl => ?_, ?_⟩
      · by_cases hlj : l = j
        · subst hlj; exact hq
        · obtain ⟨e1, e2⟩ := one_other (impl := impl) (N := N) (x := (j, .processAll .insertion (coins j))) hlj
          unfold NoHandle
          rw [e1, e2]
          exact h2 l hl
      · by_cases hij : i = j
        · subst hij; exact proc_ticks H h1 hj h3 (hq.2.trans (by omega))
        · unfold Ticks
          rw [(one_other (impl := impl) (N := N) (x := (j, .processAll .insertion (coins j))) hij).1]
          exact h3)
    (procs coins ids) (Net.start init) (fun x hx => mem_procs.mp hx) ⟨L, fun j hj => ⟨hno j, by rw [hpr j hj]; omega⟩, hticks⟩
  have hge := procs_ge H ids (Net.start init) L (fun _ h => h)
  generalize hNA : exec impl (Net.start init) (procs coins ids) = NA at A hge
  obtain ⟨a1, a2, a3⟩ := A
  -- `i` is handed everything
  have B := exec_ind (impl := impl) (P := fun N : Net G R => (Live impl ids r₀ coins out Good timeout now init N ∧ ∀ m ∈ NA.sent, m ∈ N.sent) ∧
      (∀ k ∈ others i ids, NoHandle N k) ∧ (∀ j ∈ ids, prog (N.state j) ≤ 1) ∧ Ticks timeout now i 0 N)
    (Q := fun x => ∃ m ∈ NA.sent, x = (i, .handle m))
    (fun N x h hx => by
      obtain ⟨m, hm, rfl⟩ := hx
      obtain ⟨⟨h1, h2⟩, h3, h4, h5⟩ := h
      refine ⟨⟨h1.one H h2 ⟨hi, hm⟩, fun m hm => one_sent (h2 m hm)⟩, fun k hk => ?_, fun j hj => ?_, handle_ticks h0 h5⟩
      · unfold NoHandle
        rw [(one_other (impl := impl) (N := N) (x := (i, .handle m)) (mem_others.mp hk).2).2]
        exact h3 k hk
      · rw [handle_prog]; exact h4 j hj)
    (handAll [i] NA.sent) NA (fun x hx => by obtain ⟨j, hj, m, hm, rfl⟩ := mem_handAll.mp hx; rw [List.mem_singleton.mp hj]; exact ⟨m, hm, rfl⟩)
    ⟨⟨a1, fun _ h => h⟩, fun k hk => (a2 k (mem_others.mp hk).1).1, fun j hj => (a2 j hj).2, a3⟩
  have hheard : ∀ k ∈ others i ids, Heard tys ((exec impl NA (handAll [i] NA.sent)).state i) 1 k := by
    intro k hk
    have hk' := mem_others.mp hk
    refine exec_hears H hi hk _ NA a1 (fun _ h => h)
      (fun x hx => by obtain ⟨j, hj, m, hm, rfl⟩ := mem_handAll.mp hx; rw [List.mem_singleton.mp hj]; exact ⟨m, hm, rfl⟩) ?_ ?_
    · have := (a2 i hi).2
      have := hge i hi
      omega
    · have := (H.out_mem k hk'.1 i hi (Ne.symm hk'.2) 0 (by omega)).1
      exact mem_handAll.mpr ⟨i, List.mem_singleton.mpr rfl, _, a1.inv.sentAll k hk'.1 0 (hge k hk'.1) _ this, rfl⟩
  obtain ⟨⟨b1, _⟩, b3, b4, b5⟩ := B
  refine ⟨procs coins ids ++ handAll [i] NA.sent, fun x hx dt => ?_, ⟨procs coins ids, handAll [i] NA.sent, NA.sent, rfl, plain_procs (fun _ h => h) [],
    plain_handAll (fun j hj => by rw [List.mem_singleton.mp hj]; exact hi), fun m hm => by rw [hNA]; exact hm⟩, ?_⟩
  · rcases List.mem_append.mp hx with hx | hx
    · obtain ⟨j, _, rfl⟩ := mem_procs.mp hx
      exact fun h => nomatch h
    · obtain ⟨j, _, m, _, rfl⟩ := mem_handAll.mp hx
      exact fun h => nomatch h
  · rw [exec_append, hNA]
    exact ⟨b1, hheard, b3, fun k hk => b4 k (mem_others.mp hk).1, b5, b4 i hi, fun h => absurd h hone⟩

theorem one_advance (d : Nat) : (one impl N (i, .advance d)).state i =
    { N.state i with timer := { (N.state i).timer with now := (N.state i).timer.now + d } } := by
  rw [one_some (x := (i, .advance d)) rfl]
  simp only [Net.after, Function.update_self]

theorem advance_ticks {a d : Nat} (h : Ticks timeout now i a N) : Ticks timeout now i (a + d) (one impl N (i, .advance d)) := by
  unfold Ticks
  rw [one_advance]
  refine ⟨h.1, ?_⟩
  rw [h.2, Nat.add_assoc]

theorem advance_prog {d : Nat} (l : ID) : prog ((one impl N (i, .advance d)).state l) = prog (N.state l) := by
  by_cases hl : l = i
  · subst hl; rw [one_advance]; rfl
  · rw [(one_other (x := (i, Op.advance d)) hl).1]

/-- `i` waits for the second messages of the others, who have not begun the third round. -/
structure Stage' (impl : RoundImpl G R) (ids : IDSlice) (r₀ : ID → R) (coins : ID → Coins) (out : ID → Nat → List (Message G)) (Good : ID → Nat → R → Prop)
    (timeout now : ID → Nat) (init : ID → State G R) (tys : List MsgType) (i : ID) (a : Nat) (N : Net G R) : Prop where
  live : Live impl ids r₀ coins out Good timeout now init N
  heard : ∀ k ∈ others i ids, Heard tys (N.state i) 1 k
  behind : ∀ k ∈ others i ids, prog (N.state k) ≤ 1
  ticks : Ticks timeout now i a N
  ge : 1 ≤ prog (N.state i)
  sole : others i ids = [] → prog (N.state i) ≤ 1

theorem old_sent (L : Live impl ids r₀ coins out Good timeout now init N) (hb : ∀ k ∈ others i ids, prog (N.state k) ≤ 1) : ∀ m ∈ N.sent, Old ids out i m := by
  intro m hm
  obtain ⟨j, hj, n, hn, h1, h2⟩ := L.lead.sent m hm
  refine ⟨j, hj, n, hn, h1, fun hji => ?_⟩
  have := hb j (mem_others.mpr ⟨hj, hji⟩)
  omega

/-- Old messages are handed to everybody; `i` does not notice. -/
theorem handAll_old (H : Honest impl ids r₀ coins M out Good tys) (L : Live impl ids r₀ coins out Good timeout now init N) (hi : i ∈ ids)
    (hh : ∀ k ∈ others i ids, Heard tys (N.state i) 1 k) (hS : ∀ m ∈ S, m ∈ N.sent) (ho : ∀ m ∈ S, Old ids out i m) :
    Live impl ids r₀ coins out Good timeout now init (exec impl N (handAll ids S)) ∧ (exec impl N (handAll ids S)).state i = N.state i ∧
      ∀ k, prog ((exec impl N (handAll ids S)).state k) = prog (N.state k) := by
  have A := exec_ind (impl := impl) (P := fun N' : Net G R => (Live impl ids r₀ coins out Good timeout now init N' ∧ ∀ m ∈ S, m ∈ N'.sent) ∧
      N'.state i = N.state i ∧ ∀ k, prog (N'.state k) = prog (N.state k)) (Q := fun x => ∃ j ∈ ids, ∃ m ∈ S, x = (j, .handle m))
    (fun N' x h hx => by
      obtain ⟨j, hj, m, hm, rfl⟩ := hx
      obtain ⟨⟨h1, h2⟩, h3, h4⟩ := h
      refine ⟨⟨h1.one H h2 ⟨hj, hm⟩, fun m hm => one_sent (h2 m hm)⟩, ?_, fun k => (handle_prog k).trans (h4 k)⟩
      by_cases hij : i = j
      · subst hij
        rw [deaf H h1 hi (by rw [h3]; exact hh) (ho m hm)]
        exact h3
      · rw [(one_other (impl := impl) (N := N') (x := (j, .handle m)) hij).1]
        exact h3)
    (handAll ids S) N (fun x hx => mem_handAll.mp hx) ⟨⟨L, hS⟩, rfl, fun _ => rfl⟩
  exact ⟨A.1.1, A.2⟩

theorem stage1 (H : Honest impl ids r₀ coins M out Good tys) (hi : i ∈ ids) {a d : Nat} (T : Stage impl ids r₀ coins out Good timeout now init tys i a N) :
    ∃ S, (∀ m ∈ N.sent, m ∈ S) ∧ (∀ m ∈ S, m ∈ (exec impl N ((i, .advance d) :: procs coins (i :: others i ids))).sent) ∧
      Stage' impl ids r₀ coins out Good timeout now init tys i (a + d)
        (exec impl N ((i, .advance d) :: (procs coins (i :: others i ids) ++ handAll ids S))) := by
  have hsub : ∀ j ∈ i :: others i ids, j ∈ ids := by
    intro j hj
    rcases List.mem_cons.mp hj with rfl | hj
    · exact hi
    · exact (mem_others.mp hj).1
  -- the clock of `i`
  have L1 := T.live.one H (S := []) (x := (i, .advance d)) (fun _ h => nomatch h) ⟨hi, trivial⟩
  have t1 := advance_ticks (impl := impl) (d := d) T.ticks
  have p1 : ∀ l, prog ((one impl N (i, .advance d)).state l) = prog (N.state l) := advance_prog
  have h1 : ∀ k ∈ others i ids, Heard tys ((one impl N (i, .advance d)).state i) 1 k := fun k hk =>
    heard_one H T.live (S := []) (x := (i, .advance d)) ⟨hi, trivial⟩ hk (by omega) (T.heard k hk)
  have q1 : ∀ k ∈ others i ids, NoHandle (one impl N (i, .advance d)) k := fun k hk => by
    unfold NoHandle
    rw [(one_other (impl := impl) (N := N) (x := (i, .advance d)) (mem_others.mp hk).2).2]
    exact T.quiet k hk
  have s1 : ∀ m ∈ N.sent, m ∈ (one impl N (i, .advance d)).sent := fun m hm => one_sent hm
  show ∃ S, _ ∧ (∀ m ∈ S, m ∈ (exec impl (one impl N (i, .advance d)) (procs coins (i :: others i ids))).sent) ∧
    Stage' impl ids r₀ coins out Good timeout now init tys i (a + d) (exec impl (one impl N (i, .advance d)) (procs coins (i :: others i ids) ++ handAll ids S))
  generalize one impl N (i, .advance d) = N1 at L1 t1 p1 h1 q1 s1
  -- `i` calls `ProcessAll`
  have L2 := L1.one H (S := []) (x := (i, .processAll .insertion (coins i))) (fun _ h => nomatch h) ⟨hi, rfl⟩
  have hle := proc_le H L1 hi
  have hge := proc_ge H L1 hi
  have hpi : prog (N1.state i) ≤ 1 := (p1 i).trans_le T.le
  have t2 := proc_ticks H L1 hi t1 (hle.trans (by omega))
  have h2 : ∀ k ∈ others i ids, Heard tys ((one impl N1 (i, .processAll .insertion (coins i))).state i) 1 k := fun k hk =>
    heard_one H L1 (S := []) (x := (i, .processAll .insertion (coins i))) ⟨hi, rfl⟩ hk (by omega) (h1 k hk)
  have q2 : ∀ k ∈ others i ids, NoHandle (one impl N1 (i, .processAll .insertion (coins i))) k ∧
      prog ((one impl N1 (i, .processAll .insertion (coins i))).state k) ≤ 1 := fun k hk => by
    unfold NoHandle
    obtain ⟨e1, e2⟩ := one_other (impl := impl) (N := N1) (x := (i, .processAll .insertion (coins i))) (mem_others.mp hk).2
    rw [e1, e2, p1 k]
    exact ⟨q1 k hk, T.behind k hk⟩
  have s2 : ∀ m ∈ N.sent, m ∈ (one impl N1 (i, .processAll .insertion (coins i))).sent := fun m hm => one_sent (s1 m hm)
  have o2 : others i ids = [] → prog ((one impl N1 (i, .processAll .insertion (coins i))).state i) ≤ 1 := fun h => by
    have := T.sole h
    have := p1 i
    omega
  show ∃ S, _ ∧ (∀ m ∈ S, m ∈ (exec impl (one impl N1 (i, .processAll .insertion (coins i))) (procs coins (others i ids))).sent) ∧
    Stage' impl ids r₀ coins out Good timeout now init tys i (a + d)
      (exec impl (one impl N1 (i, .processAll .insertion (coins i))) (procs coins (others i ids) ++ handAll ids S))
  generalize one impl N1 (i, .processAll .insertion (coins i)) = N2 at L2 t2 h2 q2 s2 hle hge o2
  -- the others call it in vain
  have A := exec_ind (impl := impl) (P := fun N' : Net G R => Live impl ids r₀ coins out Good timeout now init N' ∧ N'.state i = N2.state i ∧
      (∀ k ∈ others i ids, NoHandle N' k ∧ prog (N'.state k) ≤ 1)) (Q := fun x => ∃ j ∈ others i ids, x = (j, .processAll .insertion (coins j)))
    (fun N' x h hx => by
      obtain ⟨j, hj, rfl⟩ := hx
      obtain ⟨g1, g2, g3⟩ := h
      have hj' := mem_others.mp hj
      refine ⟨g1.one H (S := []) (fun _ h => nomatch h) ⟨hj'.1, rfl⟩, ?_, fun k hk => ?_⟩
      · rw [(one_other (impl := impl) (N := N') (x := (j, .processAll .insertion (coins j))) (Ne.symm hj'.2)).1]
        exact g2
      · by_cases hkj : k = j
        · subst hkj
          exact proc_quiet H g1 hj'.1 (mem_others.mpr ⟨hi, Ne.symm hj'.2⟩) (g3 k hk).1 (g3 k hk).2
        · unfold NoHandle
          obtain ⟨e1, e2⟩ := one_other (impl := impl) (N := N') (x := (j, .processAll .insertion (coins j))) hkj
          rw [e1, e2]
          exact g3 k hk)
    (procs coins (others i ids)) N2 (fun x hx => mem_procs.mp hx) ⟨L2, rfl, q2⟩
  have s3 : ∀ m ∈ N.sent, m ∈ (exec impl N2 (procs coins (others i ids))).sent := fun m hm => exec_sent _ (s2 m hm)
  refine ⟨_, s3, fun _ h => h, ?_⟩
  rw [exec_append]
  generalize exec impl N2 (procs coins (others i ids)) = N3 at A s3
  obtain ⟨L3, e3, q3⟩ := A
  obtain ⟨L4, e4, p4⟩ := handAll_old H L3 hi (S := N3.sent) (by rw [e3]; exact h2) (fun _ h => h) (old_sent L3 fun k hk => (q3 k hk).2)
  refine ⟨L4, ?_, fun k hk => (p4 k).trans_le (q3 k hk).2, ?_, ?_, fun h => ?_⟩
  · rw [e4, e3]; exact h2
  · unfold Ticks; rw [e4, e3]; exact t2
  · rw [e4, e3]; exact hge
  · rw [e4, e3]; exact o2 h

theorem stage2 (H : Honest impl ids r₀ coins M out Good tys) (hi : i ∈ ids) {a d : Nat} (T : Stage' impl ids r₀ coins out Good timeout now init tys i a N) :
    (Live impl ids r₀ coins out Good timeout now init (exec impl N ((i, .advance d) :: (procs coins (i :: others i ids) ++ handAll ids N.sent)))) ∧
    Ticks timeout now i (a + d) (exec impl N ((i, .advance d) :: (procs coins (i :: others i ids) ++ handAll ids N.sent))) ∧
    1 ≤ prog ((exec impl N ((i, .advance d) :: (procs coins (i :: others i ids) ++ handAll ids N.sent))).state i) := by
  have hold := old_sent T.live T.behind
  have L1 := T.live.one H (S := []) (x := (i, .advance d)) (fun _ h => nomatch h) ⟨hi, trivial⟩
  have t1 := advance_ticks (impl := impl) (d := d) T.ticks
  have p1 : ∀ l, prog ((one impl N (i, .advance d)).state l) = prog (N.state l) := advance_prog
  have h1 : ∀ k ∈ others i ids, Heard tys ((one impl N (i, .advance d)).state i) 1 k := fun k hk =>
    heard_one H T.live (S := []) (x := (i, .advance d)) ⟨hi, trivial⟩ hk (by omega) (T.heard k hk)
  have s1 : ∀ m ∈ N.sent, m ∈ (one impl N (i, .advance d)).sent := fun m hm => one_sent hm
  show Live impl ids r₀ coins out Good timeout now init (exec impl (one impl N (i, .advance d)) (procs coins (i :: others i ids) ++ handAll ids N.sent)) ∧
    Ticks timeout now i (a + d) (exec impl (one impl N (i, .advance d)) (procs coins (i :: others i ids) ++ handAll ids N.sent)) ∧
    1 ≤ prog ((exec impl (one impl N (i, .advance d)) (procs coins (i :: others i ids) ++ handAll ids N.sent)).state i)
  generalize one impl N (i, .advance d) = N1 at L1 t1 p1 h1 s1
  have L2 := L1.one H (S := []) (x := (i, .processAll .insertion (coins i))) (fun _ h => nomatch h) ⟨hi, rfl⟩
  have hge := proc_ge H L1 hi
  have hle : prog ((one impl N1 (i, .processAll .insertion (coins i))).state i) ≤ 2 := by
    by_cases hone : others i ids = []
    · have := T.sole hone
      have := proc_le H L1 hi
      have := p1 i
      omega
    · obtain ⟨k, hk⟩ := List.exists_mem_of_ne_nil _ hone
      have hc := L2.lead.close i hi k hk
      rw [(one_other (impl := impl) (N := N1) (x := (i, .processAll .insertion (coins i))) (mem_others.mp hk).2).1, p1 k] at hc
      have := T.behind k hk
      omega
  have t2 := proc_ticks H L1 hi t1 hle
  have h2 : ∀ k ∈ others i ids, Heard tys ((one impl N1 (i, .processAll .insertion (coins i))).state i) 1 k := fun k hk =>
    heard_one H L1 (S := []) (x := (i, .processAll .insertion (coins i))) ⟨hi, rfl⟩ hk (by omega) (h1 k hk)
  have s2 : ∀ m ∈ N.sent, m ∈ (one impl N1 (i, .processAll .insertion (coins i))).sent := fun m hm => one_sent (s1 m hm)
  show Live impl ids r₀ coins out Good timeout now init
      (exec impl (one impl N1 (i, .processAll .insertion (coins i))) (procs coins (others i ids) ++ handAll ids N.sent)) ∧
    Ticks timeout now i (a + d) (exec impl (one impl N1 (i, .processAll .insertion (coins i))) (procs coins (others i ids) ++ handAll ids N.sent)) ∧
    1 ≤ prog ((exec impl (one impl N1 (i, .processAll .insertion (coins i))) (procs coins (others i ids) ++ handAll ids N.sent)).state i)
  generalize one impl N1 (i, .processAll .insertion (coins i)) = N2 at L2 t2 h2 s2 hle hge
  have A := exec_ind (impl := impl) (P := fun N' : Net G R => Live impl ids r₀ coins out Good timeout now init N' ∧ N'.state i = N2.state i)
    (Q := fun x => ∃ j ∈ others i ids, x = (j, .processAll .insertion (coins j)))
    (fun N' x h hx => by
      obtain ⟨j, hj, rfl⟩ := hx
      have hj' := mem_others.mp hj
      refine ⟨h.1.one H (S := []) (fun _ h => nomatch h) ⟨hj'.1, rfl⟩, ?_⟩
      rw [(one_other (impl := impl) (N := N') (x := (j, .processAll .insertion (coins j))) (Ne.symm hj'.2)).1]
      exact h.2)
    (procs coins (others i ids)) N2 (fun x hx => mem_procs.mp hx) ⟨L2, rfl⟩
  have s3 : ∀ m ∈ N.sent, m ∈ (exec impl N2 (procs coins (others i ids))).sent := fun m hm => exec_sent _ (s2 m hm)
  rw [exec_append]
  generalize exec impl N2 (procs coins (others i ids)) = N3 at A s3
  obtain ⟨L3, e3⟩ := A
  obtain ⟨L4, e4, _⟩ := handAll_old H L3 hi (S := N.sent) (by rw [e3]; exact h2) s3 hold
  refine ⟨L4, ?_, ?_⟩
  · unfold Ticks; rw [e4, e3]; exact t2
  · rw [e4, e3]; exact hge

/-- Every call of `l` may happen when it comes to it. -/
def Fits (impl : RoundImpl G R) (ids : List ID) (coins : ID → Coins) (N : Net G R) (l : List (ID × Op G)) : Prop :=
  ∀ n x, l[n]? = some x → x.1 ∈ ids ∧ AllowedT coins (exec impl N (l.take n)) x.1 x.2

theorem fits_nil : Fits impl ids coins N [] := fun n x h => by simp at h

theorem fits_cons {l : List (ID × Op G)} (hx : x.1 ∈ ids ∧ AllowedT coins N x.1 x.2) (hl : Fits impl ids coins (one impl N x) l) :
    Fits impl ids coins N (x :: l) := by
  intro n y hy
  cases n with
  | zero =>
    obtain rfl : x = y := by simpa using hy
    exact hx
  | succ n => exact hl n y (by simpa using hy)

theorem fits_append : ∀ {l l' : List (ID × Op G)} {N : Net G R}, Fits impl ids coins N l → Fits impl ids coins (exec impl N l) l' → Fits impl ids coins N (l ++ l')
  | [], _, _, _, h => h
  | x :: l, l', N, h, h' => by
    refine fits_cons (h 0 x rfl) (fits_append (fun n y hy => ?_) h')
    exact h (n + 1) y (by simpa using hy)

theorem fits_plain : ∀ {l : List (ID × Op G)} {N : Net G R}, (∀ x ∈ l, Plain ids coins S x) → (∀ m ∈ S, m ∈ N.sent) → Fits impl ids coins N l
  | [], _, _, _ => fits_nil
  | x :: l, N, h, hS => by
    obtain ⟨h1, h2⟩ := (h x List.mem_cons_self).allowed hS
    exact fits_cons ⟨h1, Or.inr h2⟩ (fits_plain (fun y hy => h y (List.mem_cons_of_mem _ hy)) fun m hm => one_sent (hS m hm))

/-- First `l`, then everything again and again. -/
def thenRobin (ids : List ID) (coins : ID → Coins) (l : List (ID × Op G)) (n : Nat) (N : Net G R) : Option (ID × Op G) :=
  match l[n]? with
  | some x => some x
  | none => roundRobin ids coins (n - l.length) N

theorem thenRobin_net {l : List (ID × Op G)} {n : Nat} (hn : n ≤ l.length) :
    schedNet impl (thenRobin ids coins l) init n = exec impl (Net.start init) (l.take n) := by
  induction n with
  | zero => simp [schedNet, exec]
  | succ n ih =>
    have hx : l[n]? = some l[n] := List.getElem?_eq_getElem (by omega)
    rw [List.take_add_one, hx, exec_append, ← ih (by omega)]
    show (perform impl _ (thenRobin ids coins l n _)).2 = _
    unfold thenRobin
    rw [hx]
    rfl

theorem index_append {α : Type*} {A B : List α} {n : Nat} {x : α} (h : (A ++ B)[n]? = some x) :
    x ∈ A ∨ (A.length ≤ n ∧ B[n - A.length]? = some x) := by
  by_cases hn : n < A.length
  · rw [List.getElem?_append_left hn] at h
    exact Or.inl (List.mem_of_getElem? h)
  · rw [List.getElem?_append_right (by omega)] at h
    exact Or.inr ⟨by omega, h⟩

theorem index_cons {α : Type*} {a : α} {B : List α} {n : Nat} {x : α} (h : (a :: B)[n]? = some x) : (n = 0 ∧ x = a) ∨ (1 ≤ n ∧ B[n - 1]? = some x) := by
  cases n with
  | zero => exact Or.inl ⟨rfl, by simpa using h.symm⟩
  | succ n => exact Or.inr ⟨by omega, by simpa using h⟩

/-- A session whose timeout is at most `3 δ` can time out although callers and network take at most `δ`. -/
theorem sharp_times_out (H : Honest impl ids r₀ coins M out Good tys)
    (hpath : ∀ N, Path impl ids coins (Net.start init) N → NetInv impl ids r₀ out Good timeout now N)
    (hno : ∀ N, PathT impl ids coins (Net.start init) N → ∀ i ∈ ids, ∀ op, AllowedT coins N i op → op ≠ .callback ∨ (N.state i).roundNumber ≠ 0 →
      ∃ s ret, State.step impl (N.state i) op = some (s, ret))
    (hi : i ∈ ids) (h0 : timeout i ≠ 0) (hle : timeout i ≤ 3 * δ) :
    ∃ event net time, TimedExecution impl ids coins init event net time ∧ Swift ids δ event net time ∧
      ∃ n, ∀ k, n ≤ k → TimedOut ((net k).state i) := by
  obtain ⟨B0, na0, ⟨l₁, l₂, S₀, rfl, hl₁, hl₂, hS₀⟩, T0⟩ := stage0 H (hpath _ (Path.refl _)) hi h0
  obtain ⟨S₁, hS₁, hS₁', T1⟩ := stage1 H hi (d := δ) T0
  obtain ⟨L2, t2, ge2⟩ := stage2 H hi (d := δ) T1
  generalize hB0 : l₁ ++ l₂ = B0 at na0 T0 hS₁ hS₁' T1 L2 t2 ge2
  have hsub : ∀ j ∈ i :: others i ids, j ∈ ids := by
    intro j hj
    rcases List.mem_cons.mp hj with rfl | hj
    · exact hi
    · exact (mem_others.mp hj).1
  have hsup : ∀ j ∈ ids, j ∈ i :: others i ids := fun j hj => by
    by_cases h : j = i
    · exact List.mem_cons.mpr (Or.inl h)
    · exact List.mem_cons_of_mem _ (mem_others.mpr ⟨hj, h⟩)
  generalize hS₂ : (exec impl (exec impl (Net.start init) B0) ((i, .advance δ) :: (procs coins (i :: others i ids) ++ handAll ids S₁))).sent = S₂ at L2 t2 ge2
  have hfB1 : Fits impl ids coins (one impl (exec impl (Net.start init) B0) (i, .advance δ)) (procs coins (i :: others i ids) ++ handAll ids S₁) :=
    fits_append (fits_plain (S := []) (plain_procs hsub []) (fun _ h => nomatch h)) (fits_plain (plain_handAll fun _ h => h) hS₁')
  have hfB2 : Fits impl ids coins (one impl (exec impl (exec impl (Net.start init) B0) ((i, .advance δ) :: (procs coins (i :: others i ids) ++ handAll ids S₁))) (i, .advance δ))
      (procs coins (i :: others i ids) ++ handAll ids S₂) := by
    refine fits_append (fits_plain (S := []) (plain_procs hsub []) (fun _ h => nomatch h)) (fits_plain (plain_handAll fun _ h => h) fun m hm => ?_)
    rw [← hS₂] at hm
    exact exec_sent _ (one_sent hm)
  have hp1 : ∀ j ∈ ids, (j, Op.processAll .insertion (coins j)) ∈ procs (G := G) coins (i :: others i ids) ++ handAll ids S₁ := fun j hj =>
    List.mem_append_left _ (mem_procs.mpr ⟨j, hsup j hj, rfl⟩)
  have hp2 : ∀ j ∈ ids, (j, Op.processAll .insertion (coins j)) ∈ procs (G := G) coins (i :: others i ids) ++ handAll ids S₂ := fun j hj =>
    List.mem_append_left _ (mem_procs.mpr ⟨j, hsup j hj, rfl⟩)
  have hd1 : ∀ j ∈ ids, ∀ m ∈ (exec impl (Net.start init) B0).sent, (j, Op.handle m) ∈ procs (G := G) coins (i :: others i ids) ++ handAll ids S₁ := fun j hj m hm =>
    List.mem_append_right _ (mem_handAll.mpr ⟨j, hj, m, hS₁ m hm, rfl⟩)
  have hd2 : ∀ j ∈ ids, ∀ m ∈ S₂, (j, Op.handle m) ∈ procs (G := G) coins (i :: others i ids) ++ handAll ids S₂ := fun j hj m hm =>
    List.mem_append_right _ (mem_handAll.mpr ⟨j, hj, m, hm, rfl⟩)
  have na : ∀ S : List (Message G), ∀ x ∈ procs (G := G) coins (i :: others i ids) ++ handAll ids S, ∀ dt, x.2 ≠ .advance dt := by
    intro S x hx dt
    rcases List.mem_append.mp hx with hx | hx
    · obtain ⟨j, _, rfl⟩ := mem_procs.mp hx
      exact fun h => nomatch h
    · obtain ⟨j, _, m, _, rfl⟩ := mem_handAll.mp hx
      exact fun h => nomatch h
  have na1 := na S₁
  have na2 := na S₂
  have hfB0 : Fits impl ids coins (Net.start init) B0 := by
    rw [← hB0]
    exact fits_append (fits_plain hl₁ (fun _ h => nomatch h)) (fits_plain hl₂ hS₀)
  clear hB0 hl₁ hl₂ hS₀ hS₁' T1 T0 na hS₁
  generalize procs (G := G) coins (i :: others i ids) ++ handAll ids S₁ = B1 at *
  generalize procs (G := G) coins (i :: others i ids) ++ handAll ids S₂ = B2 at *
  let end' : List (ID × Op G) := [(i, .advance δ), (i, .fire), (i, .callback)]
  let l := B0 ++ ((i, .advance δ) :: (B1 ++ ((i, .advance δ) :: (B2 ++ end'))))
  let b0 := B0.length
  let b1 := b0 + 1 + B1.length
  let b2 := b1 + 1 + B2.length
  have hlen : l.length = b2 + 3 := by
    simp only [l, end', b2, b1, b0, List.length_append, List.length_cons, List.length_nil]
    omega
  let N0 := exec impl (Net.start init) B0
  let N1 := exec impl N0 ((i, .advance δ) :: B1)
  let N2 := exec impl N1 ((i, .advance δ) :: B2)
  have take0 : l.take b0 = B0 := List.take_left' rfl
  have take1 : l.take b1 = B0 ++ ((i, .advance δ) :: B1) := by
    have : l = (B0 ++ ((i, .advance δ) :: B1)) ++ ((i, .advance δ) :: (B2 ++ end')) := by simp [l]
    rw [this]
    exact List.take_left' (by simp only [b1, b0, List.length_append, List.length_cons]; omega)
  have take2 : l.take b2 = (B0 ++ ((i, .advance δ) :: B1)) ++ ((i, .advance δ) :: B2) := by
    have : l = ((B0 ++ ((i, .advance δ) :: B1)) ++ ((i, .advance δ) :: B2)) ++ end' := by simp [l]
    rw [this]
    exact List.take_left' (by simp only [b2, b1, b0, List.length_append, List.length_cons]; omega)
  have drop2 : ∀ a, l[b2 + a]? = end'[a]? := by
    intro a
    have : l = ((B0 ++ ((i, .advance δ) :: B1)) ++ ((i, .advance δ) :: B2)) ++ end' := by simp [l]
    rw [this, List.getElem?_append_right (by simp only [b2, b1, b0, List.length_append, List.length_cons]; omega)]
    congr 1
    simp only [b2, b1, b0, List.length_append, List.length_cons]
    omega
  have hfits : Fits impl ids coins (Net.start init) l := by
    refine fits_append hfB0 (fits_cons ⟨hi, Or.inr trivial⟩ (fits_append hfB1 (fits_cons ⟨hi, Or.inr trivial⟩ (fits_append hfB2 ?_))))
    exact fits_cons ⟨hi, Or.inr trivial⟩ (fits_cons ⟨hi, Or.inr trivial⟩ (fits_cons ⟨hi, Or.inl rfl⟩ fits_nil))
  -- the calls of the second and of the third part
  have at1 : ∀ x ∈ B1, ∃ k, b0 + 1 ≤ k ∧ k < b1 ∧ l[k]? = some x := by
    intro x hx
    obtain ⟨a, ha⟩ := List.getElem?_of_mem hx
    have hlt := (List.getElem?_eq_some_iff.mp ha).1
    refine ⟨b0 + 1 + a, by omega, by omega, ?_⟩
    show (B0 ++ _)[_]? = _
    rw [List.getElem?_append_right (by omega), show b0 + 1 + a - B0.length = a + 1 by omega, List.getElem?_cons_succ, List.getElem?_append_left hlt]
    exact ha
  have at2 : ∀ x ∈ B2, ∃ k, b1 + 1 ≤ k ∧ k < b2 ∧ l[k]? = some x := by
    intro x hx
    obtain ⟨a, ha⟩ := List.getElem?_of_mem hx
    have hlt := (List.getElem?_eq_some_iff.mp ha).1
    refine ⟨b1 + 1 + a, by omega, by omega, ?_⟩
    show (B0 ++ _)[_]? = _
    rw [List.getElem?_append_right (by omega), show b1 + 1 + a - B0.length = B1.length + 1 + a + 1 by omega, List.getElem?_cons_succ,
      List.getElem?_append_right (by omega), show B1.length + 1 + a - B1.length = a + 1 by omega, List.getElem?_cons_succ, List.getElem?_append_left hlt]
    exact ha
  -- the clock of `i` is moved three times
  have adv : ∀ n j dt, l[n]? = some (j, Op.advance dt) → j = i ∧ dt = δ ∧ (n = b0 ∨ n = b1 ∨ n = b2) := by
    intro n j dt h
    have fin : ∀ {y : ID × Op G}, (j, Op.advance dt) = y → y = (i, .advance δ) → j = i ∧ dt = δ := by
      rintro y rfl h
      cases h
      exact ⟨rfl, rfl⟩
    rcases index_append h with h | ⟨g1, h⟩
    · exact absurd rfl (na0 _ h dt)
    rcases index_cons h with ⟨g2, h⟩ | ⟨g2, h⟩
    · exact ⟨(fin h rfl).1, (fin h rfl).2, Or.inl (by omega)⟩
    rcases index_append h with h | ⟨g3, h⟩
    · exact absurd rfl (na1 _ h dt)
    rcases index_cons h with ⟨g4, h⟩ | ⟨g4, h⟩
    · exact ⟨(fin h rfl).1, (fin h rfl).2, Or.inr (Or.inl (by omega))⟩
    rcases index_append h with h | ⟨g5, h⟩
    · exact absurd rfl (na2 _ h dt)
    rcases index_cons h with ⟨g6, h⟩ | ⟨g6, h⟩
    · exact ⟨(fin h rfl).1, (fin h rfl).2, Or.inr (Or.inr (by omega))⟩
    rcases index_cons h with ⟨_, h⟩ | ⟨_, h⟩
    · cases h
    rcases index_cons h with ⟨_, h⟩ | ⟨_, h⟩
    · cases h
    · simp at h
  let sched := thenRobin (R := R) ids coins l
  let net := schedNet impl sched init
  let time : Nat → Nat := fun n => (if n ≤ b0 then 0 else δ) + (if n ≤ b1 then 0 else δ) + (if n ≤ b2 then 0 else δ)
  have hnet : ∀ n, n ≤ l.length → net n = exec impl (Net.start init) (l.take n) := fun n hn => thenRobin_net hn
  have hsched : ∀ {n x}, l[n]? = some x → ∀ N, sched n N = some x := fun h N => by
    show thenRobin ids coins l _ N = _
    unfold thenRobin
    rw [h]
  have hlate : ∀ {n}, l.length ≤ n → ∀ N, sched n N = roundRobin ids coins (n - l.length) N := fun h N => by
    show thenRobin ids coins l _ N = _
    unfold thenRobin
    rw [List.getElem?_eq_none h]
  have h01 : b0 < b1 := by omega
  have h12 : b1 < b2 := by omega
  have T : TimedExecution impl ids coins init (schedEvent impl sched init) net time := by
    refine ⟨rfl, fun n h => sched_rest h, ?_, ?_, ?_, ?_⟩
    · intro n j op ret h
      obtain ⟨h1, h2⟩ := sched_step h
      by_cases hn : n < l.length
      · have hx : l[n]? = some l[n] := List.getElem?_eq_getElem hn
        rw [hsched hx] at h1
        obtain ⟨h3, h4⟩ := hfits n _ hx
        rw [← hnet n hn.le, Option.some.inj h1] at h4
        rw [Option.some.inj h1] at h3
        exact ⟨h3, h4, h2⟩
      · rw [hlate (by omega)] at h1
        obtain ⟨h3, h4⟩ := roundRobin_allowed h1
        exact ⟨h3, Or.inr h4, h2⟩
    · simp [time]
    · intro n
      simp only [time]
      (repeat' split) <;> omega
    · intro n j hj
      have hmono : time n ≤ time (n + 1) := by
        simp only [time]
        (repeat' split) <;> omega
      have key : ((net (n + 1)).state j).timer.now ≤ ((net n).state j).timer.now + (time (n + 1) - time n) := by
        cases he : schedEvent impl sched init n with
        | none => rw [show net (n + 1) = net n from sched_rest he]; omega
        | some x =>
          obtain ⟨j', op, ret⟩ := x
          obtain ⟨h1, s, h2, h3⟩ := sched_step he
          rw [show net (n + 1) = (net n).after j' op ret s from h3]
          refine update_mem (f := (net n).state) (i := j') (j := j)
            (P := fun t : State G R => t.timer.now ≤ ((net n).state j).timer.now + (time (n + 1) - time n)) (fun h => ?_) (fun _ => by omega)
          subst h
          by_cases hadv : ∀ dt, op ≠ .advance dt
          · rw [step_now h2 hadv]; exact Nat.le_add_right _ _
          · simp only [not_forall, not_not] at hadv
            obtain ⟨dt, rfl⟩ := hadv
            by_cases hn : n < l.length
            · have hx : l[n]? = some l[n] := List.getElem?_eq_getElem hn
              rw [hsched hx] at h1
              rw [Option.some.inj h1] at hx
              obtain ⟨_, rfl, hcase⟩ := adv n _ _ hx
              obtain ⟨rfl, _⟩ := Prod.mk.inj (Option.some.inj h2)
              refine Nat.add_le_add_left ?_ _
              simp only [time]
              rcases hcase with rfl | rfl | rfl <;> (repeat' split) <;> omega
            · exfalso
              rw [hlate (by omega)] at h1
              unfold roundRobin at h1
              split at h1
              · cases h1
              · split at h1
                · have := (Prod.mk.inj (Option.some.inj h1)).2; cases this
                · rw [Option.map_eq_some_iff] at h1
                  obtain ⟨m, _, h1⟩ := h1
                  have := (Prod.mk.inj h1).2; cases this
      omega
  have tle : ∀ n, time n ≤ 3 * δ := fun n => by simp only [time]; (repeat' split) <;> omega
  have t1 : ∀ n, n ≤ b1 → time n ≤ δ := fun n hn => by simp only [time]; (repeat' split) <;> omega
  have t2' : ∀ n, n ≤ b2 → time n ≤ 2 * δ := fun n hn => by simp only [time]; (repeat' split) <;> omega
  have u1 : ∀ n, b0 < n → δ ≤ time n := fun n hn => by simp only [time]; (repeat' split) <;> omega
  have u2 : ∀ n, b1 < n → 2 * δ ≤ time n := fun n hn => by simp only [time]; (repeat' split) <;> omega
  have tmono : ∀ a b, a ≤ b → time a ≤ time b := fun a b h => time_le T.mono h
  have hproc : ∀ {k} {j}, j ∈ ids → sched k (net k) = some (j, .processAll .insertion (coins j)) →
      ∃ ord c o, schedEvent impl sched init k = some (j, .processAll ord c, .messages o) := by
    intro k j hj hs
    obtain ⟨s, ret, h1⟩ := hno _ (timed_path T k) j hj (.processAll .insertion (coins j)) (Or.inr fun _ => rfl) (Or.inl fun h => nomatch h)
    obtain ⟨⟨s', o⟩, h2, h3⟩ := Option.map_eq_some_iff.mp (show (processAll impl .insertion (coins j) _).map _ = _ from h1)
    obtain ⟨rfl, rfl⟩ := Prod.mk.inj h3
    exact ⟨.insertion, coins j, o, sched_event hs h1⟩
  have hsent : ∀ {a b m}, a ≤ b → m ∈ (net a).sent → m ∈ (net b).sent := by
    intro a b m hab hm
    obtain ⟨c, hc⟩ := List.getElem?_of_mem hm
    exact List.mem_of_getElem? (timed_sent T hc hab)
  have hN0 : net b0 = N0 := by rw [hnet b0 (by omega), take0]
  have hN1 : net b1 = N1 := by rw [hnet b1 (by omega), take1, exec_append]
  have hN2 : net b2 = N2 := by rw [hnet b2 (by omega), take2, exec_append, exec_append]
  refine ⟨_, net, time, T, ⟨?_, ?_⟩, b2 + 3, ?_⟩
  · intro j hj n _
    by_cases hn0 : n ≤ b0
    · obtain ⟨k, g1, g2, g3⟩ := at1 _ (hp1 j hj)
      exact ⟨k, by omega, (t1 (k + 1) (by omega)).trans (Nat.le_add_left _ _), hproc hj (hsched g3 _)⟩
    by_cases hn1 : n ≤ b1
    · obtain ⟨k, g1, g2, g3⟩ := at2 _ (hp2 j hj)
      have := t2' (k + 1) (by omega)
      have := u1 n (by omega)
      exact ⟨k, by omega, by omega, hproc hj (hsched g3 _)⟩
    · obtain ⟨k, hk, hr⟩ := robin_processes (R := R) (coins := coins) hj n
      have := tle (k + l.length + 1)
      have := u2 n (by omega)
      refine ⟨k + l.length, by omega, by omega, hproc hj ?_⟩
      rw [hlate (by omega), Nat.add_sub_cancel]
      exact hr _
  · intro j hj n _ m hm _ _
    right
    by_cases hn0 : n ≤ b0
    · obtain ⟨k, g1, g2, g3⟩ := at1 _ (hd1 j hj m (by have := hsent hn0 hm; rwa [hN0] at this))
      exact ⟨k, by omega, (t1 (k + 1) (by omega)).trans (Nat.le_add_left _ _), _, sched_event (hsched g3 _) rfl⟩
    by_cases hn1 : n ≤ b1
    · obtain ⟨k, g1, g2, g3⟩ := at2 _ (hd2 j hj m (by have := hsent hn1 hm; rw [hN1] at this; rw [← hS₂]; exact this))
      have := t2' (k + 1) (by omega)
      have := u1 n (by omega)
      exact ⟨k, by omega, by omega, _, sched_event (hsched g3 _) rfl⟩
    · obtain ⟨a, ha⟩ := List.getElem?_of_mem hj
      obtain ⟨b, hb⟩ := List.getElem?_of_mem hm
      obtain ⟨k, hk, hu⟩ := moment a (b + 1) n
      have hs : sched (k + l.length) (net (k + l.length)) = some (j, .handle m) := by
        rw [hlate (by omega), Nat.add_sub_cancel]
        unfold roundRobin
        rw [hu]
        simp only [ha, timed_sent T hb (show n ≤ k + l.length by omega), Option.map_some]
      have := tle (k + l.length + 1)
      have := u2 n (by omega)
      exact ⟨k + l.length, by omega, by omega, _, sched_event hs rfl⟩
  · have hL2 : Live impl ids r₀ coins out Good timeout now init (net b2) := by rw [hN2]; exact L2
    have ht2 : Ticks timeout now i (0 + δ + δ) (net b2) := by rw [hN2]; exact t2
    have hge2 : 1 ≤ prog ((net b2).state i) := by rw [hN2]; exact ge2
    have hr2 : ((net b2).state i).roundNumber ≠ 0 := by
      simp only [prog, ht2.1] at hge2
      simp at hge2
      omega
    have herr := hL2.inv.err i hi
    have e1 : (net (b2 + 1)).state i = { (net b2).state i with timer := ⟨timeout i, now i + (0 + δ + δ) + δ, some (now i + timeout i), 0⟩ } := by
      refine sched_next (sched := sched) (n := b2) (ret := .nothing) (hsched (drop2 0) _) ?_
      show State.step impl ((net b2).state i) (.advance δ) = _
      simp only [State.step, ht2.2]
    have e2 : (net (b2 + 2)).state i = { (net b2).state i with timer := ⟨timeout i, now i + (0 + δ + δ) + δ, none, 1⟩ } := by
      refine sched_next (sched := sched) (n := b2 + 1) (ret := .nothing) (hsched (drop2 1) _) ?_
      show State.step impl ((net (b2 + 1)).state i) .fire = _
      rw [e1]
      simp only [State.step]
      rw [if_pos (by omega)]
    have e3 : TimedOut ((net (b2 + 3)).state i) := by
      obtain ⟨s, ret, h1⟩ := hno _ (timed_path T (b2 + 2)) i hi .callback (Or.inl rfl) (Or.inr (by rw [e2]; exact hr2))
      have hs4 : (net (b2 + 3)).state i = s := sched_next (sched := sched) (n := b2 + 2) (hsched (drop2 2) _) h1
      rw [hs4]
      rw [e2] at h1
      rcases step_cases h1 with ⟨_, _, h, _⟩ | ⟨_, _, _, h, _⟩ | ⟨_, h, _⟩ | ⟨h, _⟩ | ⟨_, rfl, ⟨h, _⟩ | ⟨_, h, _⟩ | ⟨r, _, _, _, _, rfl⟩⟩
      · cases h
      · cases h
      · cases h
      · cases h
      · exact absurd h (by show (1 : Nat) ≠ 0; omega)
      · have h : ((net b2).state i).done = true := h
        rw [ht2.1] at h; cases h
      · refine ⟨rfl, ?_⟩
        show some (((net b2).state i).err.getD _) = _
        rw [herr]
        rfl
    intro n hn
    induction n, hn using Nat.le_induction with
    | base => exact e3
    | succ n _ ih =>
      cases he : schedEvent impl sched init n with
      | none => rw [show net (n + 1) = net n from sched_rest he]; exact ih
      | some x =>
        obtain ⟨j, op, ret⟩ := x
        obtain ⟨_, s, h2, h3⟩ := sched_step he
        rw [show net (n + 1) = (net n).after j op ret s from h3]
        refine update_mem (f := (net n).state) (i := j) (j := i) (P := fun t : State G R => TimedOut t) (fun h => ?_) (fun _ => ih)
        subst h
        obtain ⟨⟨tm, rfl⟩, _⟩ := step_done h2 ih.1
        exact ih

end

end Verif.State
