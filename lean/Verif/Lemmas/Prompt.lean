import Verif.Spec.Prompt
import Verif.Lemmas.Fair
import Verif.Lemmas.NetTime

/-!
Among honest parties nobody times out if callers and network are prompt.
-/

namespace Verif.State

open Spec

variable {G R : Type}

section

variable {impl : RoundImpl G R} {ids : IDSlice} {r₀ : ID → R} {coins : ID → Coins} {M : Nat → ID → ID → Message G}
  {out : ID → Nat → List (Message G)} {Good : ID → Nat → R → Prop} {timeout now : ID → Nat} {N : Net G R} {tys : List MsgType}
  {init : ID → State G R} {event : Nat → Option (Event G)} {net : Nat → Net G R} {time : Nat → Nat} {δ τ σ T : Nat} {start : ID → Nat}

/-- Whoever has sent a message is past its round, and nobody is two rounds ahead of anybody. -/
structure Lead (ids : List ID) (out : ID → Nat → List (Message G)) (N : Net G R) : Prop where
  sent : ∀ m ∈ N.sent, ∃ j ∈ ids, ∃ n < 2, m ∈ out j n ∧ n < prog (N.state j)
  close : ∀ i ∈ ids, ∀ k ∈ others i ids, prog (N.state i) ≤ prog (N.state k) + 1

theorem sent_prog (H : Honest impl ids r₀ coins M out Good tys) (hL : Lead ids out N) {q : Nat} {m : Message G} (hm : m ∈ N.sent)
    (hq : tys[q]? = some m.header.type) : q ≤ prog (N.state m.header.fromID) := by
  obtain ⟨j, hj, n, hn, h1, h2⟩ := hL.sent m hm
  obtain ⟨g1, g2, _⟩ := H.out_spec j hj n hn m h1
  have := index_inj H.tys_nodup hq g2
  rw [g1]
  omega

theorem lead_step (H : Honest impl ids r₀ coins M out Good tys) (hN : NetInv impl ids r₀ out Good timeout now N) (hL : Lead ids out N) {i : ID} (hi : i ∈ ids)
    {op : Op G} {ret : Ret G} {s : State G R} (ha : Allowed coins N i op) (hs : State.step impl (N.state i) op = some (s, ret)) :
    Lead ids out (N.after i op ret s) := by
  have same : returned ret = [] → prog s = prog (N.state i) → Lead ids out (N.after i op ret s) := by
    intro h1 h2
    have h3 : ∀ j, prog ((N.after i op ret s).state j) = prog (N.state j) := by
      intro j
      exact update_mem (f := N.state) (i := i) (j := j) (P := fun t : State G R => prog t = prog (N.state j)) (fun h => by rw [h, h2]) (fun _ => rfl)
    refine ⟨fun m hm => ?_, fun j hj k hk => by rw [h3, h3]; exact hL.close j hj k hk⟩
    simp only [Net.after, h1, List.append_nil] at hm
    obtain ⟨j, hj, n, hn, g1, g2⟩ := hL.sent m hm
    exact ⟨j, hj, n, hn, g1, by rw [h3]; exact g2⟩
  rcases step_cases hs with ⟨m, e, rfl, rfl, h2⟩ | ⟨ord, c, o, rfl, rfl, h2⟩ | ⟨dt, rfl, rfl, rfl⟩ |
    ⟨rfl, rfl, rfl | ⟨t, _, _, rfl⟩⟩ | ⟨rfl, rfl, ⟨_, rfl⟩ | ⟨_, _, rfl⟩ | ⟨r, hf, hd, _⟩⟩
  · refine same rfl ?_
    cases handle_cases _ h2 <;> rfl
  · obtain ⟨t, o', h3, h4, h5⟩ := hN.process H hi ord c ha
    have h2' := h2
    rw [(processAll_iff impl).mpr h2] at h3
    obtain ⟨rfl, rfl⟩ := Prod.mk.inj (Option.some.inj h3)
    rcases h5 with ⟨_, rfl, rfl⟩ | ⟨hd, rfl, h5, h6⟩
    · exact same rfl rfl
    have hle : ∀ j, prog (N.state j) ≤ prog ((N.after i (.processAll ord c) (.messages (out i (N.state i).roundNumber)) s).state j) := by
      intro j
      refine update_mem (f := N.state) (i := i) (j := j) (P := fun t : State G R => prog (N.state j) ≤ prog t) (fun h => ?_) (fun _ => le_refl _)
      rw [h, h5]
      simp [prog, hd]
    refine ⟨fun m hm => ?_, fun j hj k hk => ?_⟩
    · simp only [Net.after, returned, List.mem_append] at hm
      rcases hm with hm | hm
      · obtain ⟨j, hj, n, hn, g1, g2⟩ := hL.sent m hm
        exact ⟨j, hj, n, hn, g1, g2.trans_le (hle j)⟩
      · by_cases h2 : (N.state i).roundNumber < 2
        · refine ⟨i, hi, _, h2, hm, ?_⟩
          simp only [Net.after, Function.update_self]
          omega
        · have := (hN.good i hi hd).1
          rw [show (N.state i).roundNumber = 2 by omega, H.out_last i hi] at hm
          cases hm
    · refine le_trans ?_ (Nat.add_le_add_right (hle k) 1)
      refine update_mem (f := N.state) (i := i) (j := j) (P := fun t : State G R => prog t ≤ prog (N.state k) + 1) (fun h => ?_) (fun _ => hL.close j hj k hk)
      subst h
      rw [h5]
      by_cases h0 : (N.state j).roundNumber = 0
      · omega
      have hf : Full impl (N.state j) := by
        by_contra hf
        have := (processAll_iff impl).mpr (.idle (ord := ord) (coins := c) (Or.inr hf))
        rw [(processAll_iff impl).mpr h2'] at this
        have h7 : s = N.state j := (Prod.mk.inj (Option.some.inj this)).1
        rw [h7] at h5
        simp [prog, hd] at h5
      have hready := ready H.stable (hN.hist j hj) (by rw [H.parties j hj]; exact H.nodup) (by rw [H.self j hj, H.parties j hj]; exact hj) hd hf ord
      obtain ⟨g1, _, _⟩ := hN.stored H hj hd hf ord
      obtain ⟨⟨k', v⟩, hv, rfl⟩ := List.mem_map.mp (g1.mem_iff.mpr hk)
      obtain ⟨m, _, e2, e3, e4, _⟩ := hready.later h0 k' v hv
      rw [H.types j hj] at e3
      have := sent_prog H hL (hN.handled j hj m none e4) e3
      rw [e2] at this
      simpa using this
  · exact same rfl rfl
  · exact same rfl rfl
  · exact same rfl rfl
  · exact same rfl rfl
  · exact same rfl rfl
  · rcases ha with ha | ha
    · exact absurd ha hf
    · rw [hd] at ha; cases ha

theorem lead_execution (H : Honest impl ids r₀ coins M out Good tys) (E : Execution impl ids coins init event net)
    (hN : ∀ n, NetInv impl ids r₀ out Good timeout now (net n)) (h0 : ∀ i ∈ ids, prog (init i) = 0) (n : Nat) : Lead ids out (net n) := by
  induction n with
  | zero =>
    rw [E.start]
    exact ⟨(fun m hm => nomatch hm), fun i hi k hk => by rw [show (Net.start init).state i = init i from rfl, h0 i hi]; omega⟩
  | succ n ih =>
    cases he : event n with
    | none => rw [E.rest n he]; exact ih
    | some x =>
      obtain ⟨i, op, ret⟩ := x
      obtain ⟨h1, h2, s, h3, h4⟩ := E.step n i op ret he
      rw [h4]
      exact lead_step H (hN n) ih h1 h2 h3

/-- The session has the message of round `q` from `k`, or is past that round. -/
def Heard (tys : List MsgType) (s : State G R) (q : Nat) (k : ID) : Prop :=
  q < prog s ∨ (prog s = q ∧ k ∈ s.received.keys) ∨ (prog s < q ∧ ∃ m ∈ s.queue, m.header.fromID = k ∧ tys[q]? = some m.header.type)

theorem types_drop (H : Honest impl ids r₀ coins M out Good tys) (hN : NetInv impl ids r₀ out Good timeout now N) {i : ID} (hi : i ∈ ids)
    (hd : (N.state i).done = false) : (N.state i).acceptedTypes = tys.drop (N.state i).roundNumber := by
  have h := (inv_hist H.stable (hN.hist i hi)).types
  rwa [H.types i hi, show (N.state i).used = (N.state i).roundNumber by simp [used, hd]] at h

theorem heard_prog (H : Honest impl ids r₀ coins M out Good tys) (hN : NetInv impl ids r₀ out Good timeout now N) (hL : Lead ids out N) {i k : ID}
    (hi : i ∈ ids) (hk : k ∈ others i ids) {q : Nat} (hq1 : 1 ≤ q) (hq2 : q ≤ 2) (h : Heard tys (N.state i) q k) : q ≤ prog (N.state k) := by
  have hinv := inv_hist H.stable (hN.hist i hi)
  rcases h with h | ⟨h, hkey⟩ | ⟨_, m, hm, rfl, h2⟩
  · have := hL.close i hi k hk
    omega
  · obtain ⟨hd, hrn⟩ := prog_lt h (by omega)
    obtain ⟨v, hv⟩ := GoMap.mem_keys_iff.mp hkey
    have hv := GoMap.mem_of_get? hv
    cases v with
    | none => have := (hinv.storedNone k hv).1; omega
    | some m =>
      obtain ⟨rfl, _, h3, h4⟩ := hinv.stored k m hv
      rw [types_drop H hN hi hd, List.head?_drop, hrn] at h3
      exact sent_prog H hL (hN.handled i hi m none h4) h3
  · exact sent_prog H hL (hN.handled i hi m none (hinv.queue m hm).2.2.2) h2

/-- `ProcessAll` does not change what has been heard. -/
theorem heard_process (H : Honest impl ids r₀ coins M out Good tys) (hN : NetInv impl ids r₀ out Good timeout now N) {i k : ID}
    (hi : i ∈ ids) (hk : k ∈ others i ids) {q : Nat} (hq2 : q ≤ 2) {ord : MapOrder} {c : Coins} {s : State G R} {o : List (Message G)}
    (hc : (N.state i).roundNumber = 0 → c = coins i) (h : ProcessCases impl ord c (N.state i) s o) :
    Heard tys s q k ↔ Heard tys (N.state i) q k := by
  obtain ⟨t, o', h3, h4, h5⟩ := hN.process H hi ord c hc
  rw [(processAll_iff impl).mpr h] at h3
  obtain ⟨rfl, rfl⟩ := Prod.mk.inj (Option.some.inj h3)
  rcases h5 with ⟨_, rfl, _⟩ | ⟨hd, _, h5, h6⟩
  · exact Iff.rfl
  have hpr : prog (N.state i) = (N.state i).roundNumber := by simp [prog, hd]
  have hkeys : Full impl (N.state i) → k ∈ (N.state i).received.keys := by
    intro hf
    obtain ⟨g1, _, _⟩ := hN.stored H hi hd hf .insertion
    exact g1.mem_iff.mpr hk
  have hty := types_drop H hN hi hd
  have hlen := H.tys_length
  cases h with
  | idle h =>
    rw [hpr] at h5
  | processErr | generateErr => cases h4
  | last t types r₁ r r' _ _ hf _ _ h7 h8 h9 h10 =>
    have h5 : 3 = (N.state i).roundNumber + 1 := h5
    unfold Heard
    rw [hpr]
    constructor
    · intro _
      by_cases hq : q = 2
      · exact Or.inr (Or.inl ⟨by omega, hkeys hf⟩)
      · exact Or.inl (by omega)
    · exact fun _ => Or.inl (show q < 3 by omega)
  | next t types r₁ r r' _ _ hf _ _ h7 h8 =>
    have htypes : types = tys.drop ((N.state i).roundNumber + 1) := by
      rw [h7] at hty
      rw [← List.tail_drop, ← hty, List.tail_cons]
    unfold Heard
    rw [h5, hpr]
    show (_ ∨ (_ ∧ k ∈ (movedReceived types (N.state i).queue).keys) ∨ (_ ∧ ∃ m ∈ movedQueue types (N.state i).queue, _)) ↔ _
    constructor
    · rintro (h | ⟨h, hm⟩ | ⟨h, m, hm, h1, h2⟩)
      · by_cases hq : q = (N.state i).roundNumber
        · exact Or.inr (Or.inl ⟨hq.symm, hkeys hf⟩)
        · exact Or.inl (by omega)
      · refine Or.inr (Or.inr ⟨by omega, ?_⟩)
        obtain ⟨v, hv⟩ := GoMap.mem_keys_iff.mp hm
        have hv := GoMap.mem_of_get? hv
        cases hts : types with
        | nil => rw [hts] at hv; cases hv
        | cons t' ts =>
          rw [hts] at hv
          rcases mem_foldl_set hv with ⟨a, ha, rfl, _⟩ | hv
          · rw [List.mem_filter] at ha
            refine ⟨a, ha.1, rfl, ?_⟩
            have : types.head? = some t' := by rw [hts]; rfl
            rw [htypes, List.head?_drop, h] at this
            rw [this, of_decide_eq_true ha.2]
          · cases hv
      · refine Or.inr (Or.inr ⟨by omega, m, ?_, h1, h2⟩)
        cases hts : types with
        | nil => rw [hts] at hm; exact hm
        | cons t' ts => rw [hts] at hm; exact (List.mem_filter.mp hm).1
    · rintro (h | ⟨h, _⟩ | ⟨h, m, hm, h1, h2⟩)
      · exact Or.inl (by omega)
      · exact Or.inl (by omega)
      · cases hts : types with
        | nil =>
          rw [hts] at htypes
          have := congrArg List.length htypes
          rw [List.length_nil, List.length_drop, hlen] at this
          omega
        | cons t' ts =>
          have ht' : types.head? = some t' := by rw [hts]; rfl
          rw [htypes, List.head?_drop] at ht'
          by_cases hq : q = (N.state i).roundNumber + 1
          · refine Or.inr (Or.inl ⟨hq.symm, mem_keys_foldl_set (Or.inr ⟨m, ?_, h1⟩)⟩)
            rw [List.mem_filter]
            rw [← hq, h2] at ht'
            exact ⟨hm, decide_eq_true (Option.some.inj ht')⟩
          · refine Or.inr (Or.inr ⟨by omega, m, ?_, h1, h2⟩)
            refine List.mem_filter.mpr ⟨hm, decide_eq_true fun h' => hq ?_⟩
            rw [h'] at h2
            exact index_inj H.tys_nodup h2 ht'

/-- What has been heard stays heard. -/
theorem heard_mono (H : Honest impl ids r₀ coins M out Good tys) (E : Execution impl ids coins init event net)
    (hN : ∀ n, NetInv impl ids r₀ out Good timeout now (net n)) {i k : ID} (hk : k ∈ others i ids) {q : Nat} (hq2 : q ≤ 2) {n l : Nat}
    (hl : n ≤ l) (h : Heard tys ((net n).state i) q k) : Heard tys ((net l).state i) q k := by
  induction l, hl using Nat.le_induction with
  | base => exact h
  | succ l _ ih =>
    cases he : event l with
    | none => rw [E.rest l he]; exact ih
    | some x =>
      obtain ⟨j, op, ret⟩ := x
      obtain ⟨hj, h2, s, h3, h4⟩ := E.step l j op ret he
      rw [h4]
      refine update_mem (f := (net l).state) (i := j) (j := i) (P := fun t : State G R => Heard tys t q k) (fun h => ?_) (fun _ => ih)
      subst h
      rcases step_cases h3 with ⟨m, e, rfl, rfl, h5⟩ | ⟨ord, c, o, rfl, rfl, h5⟩ | ⟨dt, rfl, rfl, rfl⟩ |
        ⟨rfl, rfl, rfl | ⟨t, _, _, rfl⟩⟩ | ⟨rfl, rfl, ⟨_, rfl⟩ | ⟨_, _, rfl⟩ | ⟨r, hf, hd, _⟩⟩
      · cases handle_cases _ h5 with
        | stored =>
          rcases ih with ih | ⟨ih, ih'⟩ | ih
          · exact Or.inl ih
          · exact Or.inr (Or.inl ⟨ih, GoMap.mem_keys_set.mpr (Or.inr ih')⟩)
          · exact Or.inr (Or.inr ih)
        | queued =>
          rcases ih with ih | ih | ⟨ih, m', hm', h'⟩
          · exact Or.inl ih
          · exact Or.inr (Or.inl ih)
          · exact Or.inr (Or.inr ⟨ih, m', List.mem_append_left _ hm', h'⟩)
        | _ => exact ih
      · exact (heard_process H (hN l) hj hk hq2 h2 h5).mpr ih
      · exact ih
      · exact ih
      · exact ih
      · exact ih
      · exact ih
      · rcases h2 with h2 | h2
        · exact absurd h2 hf
        · rw [hd] at h2; cases h2

/-- `SwiftFrom` for what is to happen before the time `τ`; `T` is a time at which the moment has come and the session exists. -/
structure Until (ids : List ID) (δ τ : Nat) (start : ID → Nat) (event : Nat → Option (Event G)) (net : Nat → Net G R) (time : Nat → Nat) : Prop where
  mono : ∀ n, time n ≤ time (n + 1)
  created : ∀ n i op ret, event n = some (i, op, ret) → start i ≤ time n
  processes : ∀ i ∈ ids, ∀ n T, time n ≤ T → start i ≤ T → T + δ < τ → ((net n).state i).done = false →
    ∃ k, n ≤ k ∧ time (k + 1) ≤ T + δ ∧ ∃ ord c o, event k = some (i, .processAll ord c, .messages o)
  delivers : ∀ i ∈ ids, ∀ n T, time n ≤ T → start i ≤ T → T + δ < τ → ((net n).state i).done = false → ∀ m ∈ (net n).sent, m.header.fromID ≠ i →
    m.header.toID = 0 ∨ m.header.toID = i → (∃ k < n, event k = some (i, .handle m, .handled none)) ∨
    ∃ k, n ≤ k ∧ time (k + 1) ≤ T + δ ∧ ∃ e, event k = some (i, .handle m, .handled e)

theorem time_le (hm : ∀ n, time n ≤ time (n + 1)) {a b : Nat} (h : a ≤ b) : time a ≤ time b := by
  induction b, h using Nat.le_induction with
  | base => exact le_refl _
  | succ b _ ih => exact ih.trans (hm b)

theorem le_of_time (hm : ∀ n, time n ≤ time (n + 1)) {a b : Nat} (h : time a < time b) : a ≤ b := by
  by_contra hab
  have := time_le hm (show b ≤ a by omega)
  omega

/-- Something that comes true in time for each of finitely many things, and stays true, is true of all of them in time. -/
theorem all_by (hm : ∀ n, time n ≤ time (n + 1)) {Q : ID → Nat → Prop} {n T : Nat} (hn : time n ≤ T) (l : List ID)
    (hmono : ∀ k ∈ l, ∀ a b, a ≤ b → Q k a → Q k b) (h : ∀ k ∈ l, ∃ m, n ≤ m ∧ time m ≤ T ∧ Q k m) :
    ∃ m, n ≤ m ∧ time m ≤ T ∧ ∀ k ∈ l, Q k m := by
  induction l with
  | nil => exact ⟨n, le_refl n, hn, (fun _ h => nomatch h)⟩
  | cons a l ih =>
    obtain ⟨m, h1, h2, h3⟩ := ih (fun k hk => hmono k (List.mem_cons_of_mem _ hk)) (fun k hk => h k (List.mem_cons_of_mem _ hk))
    obtain ⟨m', h1', h2', h3'⟩ := h a List.mem_cons_self
    rcases le_total m m' with hle | hle
    · refine ⟨m', h1', h2', fun k hk => ?_⟩
      rcases List.mem_cons.mp hk with rfl | hk
      · exact h3'
      · exact hmono _ (List.mem_cons_of_mem _ hk) _ _ hle (h3 k hk)
    · refine ⟨m, h1, h2, fun k hk => ?_⟩
      rcases List.mem_cons.mp hk with rfl | hk
      · exact hmono _ List.mem_cons_self _ _ hle h3'
      · exact h3 k hk

/-- When `k` is past a round, its message is heard in time by whoever is in the next. -/
theorem hears_by (H : Honest impl ids r₀ coins M out Good tys) (E : Execution impl ids coins init event net)
    (hN : ∀ n, NetInv impl ids r₀ out Good timeout now (net n)) (F : Until ids δ τ start event net time) {r n : Nat} (hr1 : 1 ≤ r) (hr : r ≤ 2)
    (hn : time n ≤ T) (hT : T + δ < τ) {i : ID} (hi : i ∈ ids) (hsi : start i ≤ T) {k : ID} (hk : k ∈ others i ids) (hpi : r ≤ prog ((net n).state i))
    (hpk : r ≤ prog ((net n).state k)) : ∃ l, n ≤ l ∧ time l ≤ T + δ ∧ Heard tys ((net l).state i) r k := by
  by_cases hgt : r < prog ((net n).state i)
  · exact ⟨n, le_refl n, by omega, Or.inl hgt⟩
  have hp : prog ((net n).state i) = r := by omega
  obtain ⟨hd, hrn⟩ := prog_lt hp (by omega)
  have hk' := mem_others.mp hk
  obtain ⟨q, rfl⟩ : ∃ q, r = q + 1 := ⟨r - 1, by omega⟩
  obtain ⟨hmem, hto⟩ := H.out_mem k hk'.1 i hi (Ne.symm hk'.2) q (by omega)
  obtain ⟨hfrom, hty, _⟩ := H.out_spec k hk'.1 q (by omega) _ hmem
  have hsent : M (q + 1) k i ∈ (net n).sent := (hN n).sentAll k hk'.1 q (by omega) _ hmem
  have hrel : Relevant (impl.selfID (r₀ i)) (impl.partyIDs (r₀ i)) (M (q + 1) k i) := by
    rw [H.self i hi, H.parties i hi]
    exact ⟨by rw [hfrom]; exact hk'.2, hto, IDSlice.contains_complete H.sorted (by rw [hfrom]; exact hk'.1)⟩
  have hhead : ∀ l, prog ((net l).state i) = q + 1 → ((net l).state i).acceptedTypes.head? = some (M (q + 1) k i).header.type := by
    intro l hl
    obtain ⟨h1, h2⟩ := prog_lt hl (by omega)
    rw [types_drop H (hN l) hi h1, List.head?_drop, h2]
    exact hty
  rcases F.delivers i hi n T hn hsi hT hd _ hsent (by rw [hfrom]; exact hk'.2) hto with ⟨l, hl, he⟩ | ⟨l, hl, hlt, e, he⟩
  · refine ⟨n, le_refl n, by omega, Or.inr (Or.inl ⟨hp, ?_⟩)⟩
    obtain ⟨_, _, s, _, h4⟩ := E.step l i _ _ he
    have hin : (Op.handle (M (q + 1) k i), Ret.handled none) ∈ (net (l + 1)).hist i := by
      rw [h4]
      simp only [Net.after, Function.update_self]
      exact List.mem_append_right _ (List.mem_singleton.mpr rfl)
    have hin := (execution_mono H E hN i hi (show l + 1 ≤ n by omega)).2.1 _ hin
    have := (accepted_kept H.stable (by rw [H.types i hi]; exact H.tys_nodup) ((hN n).hist i hi) hin hrel hd).1 (hhead n hp)
    rwa [hfrom] at this
  · obtain ⟨_, _, s, h3, h4⟩ := E.step l i _ _ he
    refine ⟨l + 1, by omega, hlt, ?_⟩
    by_cases hgt : q + 1 < prog ((net (l + 1)).state i)
    · exact Or.inl hgt
    have hge := execution_prog H E hN i hi hl
    have hge' := execution_prog H E hN i hi (show l ≤ l + 1 by omega)
    have hp' : prog ((net (l + 1)).state i) = q + 1 := by omega
    refine Or.inr (Or.inl ⟨hp', ?_⟩)
    have hpl : prog ((net l).state i) = q + 1 := by omega
    obtain ⟨hdl, _⟩ := prog_lt hpl (by omega)
    have hinv := inv_hist H.stable ((hN l).hist i hi)
    have hst : (net (l + 1)).state i = s := by rw [h4]; simp [Net.after]
    by_cases hin : k ∈ ((net l).state i).received.keys
    · rcases (execution_step H E hN i hi l).2.2 with h | ⟨_, h⟩
      · omega
      · exact h k hin
    · have hh := hhead l hpl
      cases hacc : ((net l).state i).acceptedTypes with
      | nil => rw [hacc] at hh; cases hh
      | cons t ts =>
        rw [hacc] at hh
        have h1 := handle_stores hdl hacc (by rw [hinv.self, hinv.ids]; exact hrel) (by rw [hfrom]; exact hin) (Option.some.inj hh).symm
        rw [hst]
        simp only [State.step, Option.some.injEq, Prod.mk.injEq] at h3
        rw [← h3.1, h1]
        exact GoMap.mem_keys_set.mpr (Or.inl hfrom.symm)

/-- Whoever has heard from everybody is in the next round in time. -/
theorem processes_by (H : Honest impl ids r₀ coins M out Good tys) (E : Execution impl ids coins init event net)
    (hN : ∀ n, NetInv impl ids r₀ out Good timeout now (net n)) (F : Until ids δ τ start event net time) {r n : Nat} (hr : r ≤ 2)
    (hn : time n ≤ T) (hT : T + δ < τ) {i : ID} (hi : i ∈ ids) (hsi : start i ≤ T) (hp : r ≤ prog ((net n).state i))
    (hh : 1 ≤ r → ∀ k ∈ others i ids, Heard tys ((net n).state i) r k) : ∃ l, n ≤ l ∧ time l ≤ T + δ ∧ r + 1 ≤ prog ((net l).state i) := by
  by_cases hgt : r < prog ((net n).state i)
  · exact ⟨n, le_refl n, by omega, hgt⟩
  have hpr : prog ((net n).state i) = r := by omega
  obtain ⟨hd, hrn⟩ := prog_lt hpr (by omega)
  obtain ⟨p, hnp, hpt, ord, c, o, he⟩ := F.processes i hi n T hn hsi hT hd
  obtain ⟨_, ha, s, h3, h4⟩ := E.step p i _ _ he
  refine ⟨p + 1, by omega, hpt, ?_⟩
  have hge' := execution_prog H E hN i hi (show p ≤ p + 1 by omega)
  by_cases hgt : r < prog ((net p).state i)
  · omega
  have hge := execution_prog H E hN i hi hnp
  have hpp : prog ((net p).state i) = r := by omega
  obtain ⟨hd, hrn⟩ := prog_lt hpp (by omega)
  have hfull : Full impl ((net p).state i) := by
    refine full_of_keys (inv_hist H.stable ((hN p).hist i hi)) (by rw [H.parties i hi]; exact H.nodup) (by rw [H.parties i hi, H.self i hi]; exact hi) ?_
    rw [H.parties i hi, H.self i hi]
    intro k hk
    by_cases h0 : r = 0
    · rw [((inv_hist H.stable ((hN p).hist i hi)).round0 (hrn.trans h0) hd).1, H.self i hi, H.parties i hi, mem_initReceived]
      have := mem_others.mp hk
      exact Or.inr ⟨this.1, this.2⟩
    · rcases heard_mono H E hN hk hr hnp (hh (by omega) k hk) with h | ⟨_, h⟩ | ⟨h, _⟩
      · omega
      · exact h
      · omega
  have hst : (net (p + 1)).state i = s := by rw [h4]; simp [Net.after]
  rw [hst]
  obtain ⟨t, o', h5, _, h6⟩ := (hN p).process H hi ord c ha
  have h7 : s = t := by
    simp only [State.step, h5, Option.map_some, Option.some.injEq, Prod.mk.injEq] at h3
    exact h3.1.symm
  subst h7
  rcases h6 with ⟨h6 | h6, _⟩ | ⟨_, _, h6, _⟩
  · rw [hd] at h6; cases h6
  · exact absurd hfull h6
  · omega

/-- From when everybody has reached round `r`, everybody hears from everybody in time. -/
theorem all_hear (H : Honest impl ids r₀ coins M out Good tys) (E : Execution impl ids coins init event net)
    (hN : ∀ n, NetInv impl ids r₀ out Good timeout now (net n)) (F : Until ids δ τ start event net time) {r n : Nat} (hr1 : 1 ≤ r) (hr : r ≤ 2)
    (hn : time n ≤ T) (hT : T + δ < τ) (hst : ∀ i ∈ ids, start i ≤ T) (hp : ∀ i ∈ ids, r ≤ prog ((net n).state i)) :
    ∃ l, n ≤ l ∧ time l ≤ T + δ ∧ ∀ i ∈ ids, ∀ k ∈ others i ids, Heard tys ((net l).state i) r k := by
  refine all_by F.mono (Q := fun i l => ∀ k ∈ others i ids, Heard tys ((net l).state i) r k) (by omega) ids
    (fun i hi a b hab h k hk => heard_mono H E hN hk hr hab (h k hk)) fun i hi => ?_
  exact all_by F.mono (Q := fun k l => Heard tys ((net l).state i) r k) (by omega) (others i ids)
    (fun k hk a b hab h => heard_mono H E hN hk hr hab h)
    fun k hk => hears_by H E hN F hr1 hr hn hT hi (hst i hi) hk (hp i hi) (hp k (mem_others.mp hk).1)

/-- From when everybody has heard from everybody in round `r`, everybody gets to the next round in time. -/
theorem all_process (H : Honest impl ids r₀ coins M out Good tys) (E : Execution impl ids coins init event net)
    (hN : ∀ n, NetInv impl ids r₀ out Good timeout now (net n)) (F : Until ids δ τ start event net time) {r n : Nat} (hr : r ≤ 2)
    (hn : time n ≤ T) (hT : T + δ < τ) (hst : ∀ i ∈ ids, start i ≤ T) (hp : ∀ i ∈ ids, r ≤ prog ((net n).state i)) (hh : 1 ≤ r → ∀ i ∈ ids, ∀ k ∈ others i ids, Heard tys ((net n).state i) r k) :
    ∃ l, n ≤ l ∧ time l ≤ T + δ ∧ ∀ i ∈ ids, r + 1 ≤ prog ((net l).state i) :=
  all_by F.mono (Q := fun i l => r + 1 ≤ prog ((net l).state i)) (by omega) ids
    (fun i hi a b hab h => h.trans (execution_prog H E hN i hi hab))
    fun i hi => processes_by H E hN F hr hn hT hi (hst i hi) (hp i hi) fun h1 => hh h1 i hi

theorem done_of_prog (hN : NetInv impl ids r₀ out Good timeout now N) {i : ID} (hi : i ∈ ids) (h : 3 ≤ prog (N.state i)) : (N.state i).done = true := by
  by_contra hd
  rw [Bool.not_eq_true] at hd
  have := (hN.good i hi hd).1
  simp only [prog, hd] at h
  simp at h
  omega

/-- Everybody has finished `5 δ` after the last session was created. -/
theorem prompt_finishes (H : Honest impl ids r₀ coins M out Good tys) (E : Execution impl ids coins init event net)
    (hN : ∀ n, NetInv impl ids r₀ out Good timeout now (net n)) (h0 : time 0 = 0) (F : Until ids δ τ start event net time) (hσ : ∀ i ∈ ids, start i ≤ σ)
    (hτ : σ + 5 * δ < τ) {n : Nat} (hn : σ + 5 * δ < time n) : ∀ i ∈ ids, ((net n).state i).done = true := by
  have hst : ∀ j, ∀ i ∈ ids, start i ≤ σ + j := fun j i hi => (hσ i hi).trans (Nat.le_add_right _ _)
  obtain ⟨l1, _, t1, p1⟩ := all_process H E hN F (r := 0) (n := 0) (T := σ + 0) (by omega) (by omega) (by omega) (hst _) (fun _ _ => Nat.zero_le _) (by omega)
  obtain ⟨l2, g2, t2, p2⟩ := all_hear H E hN F (r := 1) (n := l1) (T := σ + δ) (by omega) (by omega) (by omega) (by omega) (hst _) p1
  obtain ⟨l3, _, t3, p3⟩ := all_process H E hN F (r := 1) (n := l2) (T := σ + 2 * δ) (by omega) (by omega) (by omega) (hst _)
    (fun i hi => (p1 i hi).trans (execution_prog H E hN i hi g2)) (fun _ => p2)
  obtain ⟨l4, g4, t4, p4⟩ := all_hear H E hN F (r := 2) (n := l3) (T := σ + 3 * δ) (by omega) (by omega) (by omega) (by omega) (hst _) p3
  obtain ⟨l5, _, t5, p5⟩ := all_process H E hN F (r := 2) (n := l4) (T := σ + 4 * δ) (by omega) (by omega) (by omega) (hst _)
    (fun i hi => (p3 i hi).trans (execution_prog H E hN i hi g4)) (fun _ => p4)
  intro i hi
  exact done_of_prog (hN n) hi ((p5 i hi).trans (execution_prog H E hN i hi (le_of_time F.mono (by omega))))

/-- Whoever is past round 0 has been created. -/
theorem created_of_prog (E : Execution impl ids coins init event net) (F : Until ids δ τ start event net time) (hi0 : ∀ i ∈ ids, prog (init i) = 0)
    {i : ID} (hi : i ∈ ids) {n : Nat} (h : 1 ≤ prog ((net n).state i)) : start i ≤ time n := by
  induction n with
  | zero =>
    rw [E.start, show (Net.start init).state i = init i from rfl, hi0 i hi] at h
    omega
  | succ n ih =>
    cases he : event n with
    | none => rw [E.rest n he] at h; exact (ih h).trans (F.mono n)
    | some x =>
      obtain ⟨j, op, ret⟩ := x
      by_cases hij : i = j
      · subst hij
        exact (F.created n i op ret he).trans (F.mono n)
      · obtain ⟨_, _, s, _, h4⟩ := E.step n j op ret he
        have hst : (net (n + 1)).state i = (net n).state i := by rw [h4]; simp [Net.after, Function.update_of_ne hij]
        rw [hst] at h
        exact (ih h).trans (F.mono n)

/-- Nobody waits longer than `3 δ` for the next message or the end, except for first messages of sessions that are created later. -/
theorem prompt_hears (H : Honest impl ids r₀ coins M out Good tys) (E : Execution impl ids coins init event net)
    (hN : ∀ n, NetInv impl ids r₀ out Good timeout now (net n)) (hL : ∀ n, Lead ids out (net n)) (h0 : time 0 = 0) (hi0 : ∀ i ∈ ids, prog (init i) = 0)
    {s B : Nat} (F : Until ids δ (time B) start event net time) (hσ : ∀ i ∈ ids, start i ≤ σ) {i : ID} (hi : i ∈ ids) (hd : ((net B).state i).done = false)
    (hT : time s + 3 * δ < time B) (hTi : start i + 3 * δ < time B) (hTσ : σ + 2 * δ < time B)
    (hq : ∀ q, 1 ≤ q → q ≤ 2 → ∀ k ∈ others i ids, Heard tys ((net B).state i) q k → Heard tys ((net s).state i) q k) : False := by
  have fin : ∀ l, time l < time B → 3 ≤ prog ((net l).state i) → False := by
    intro l hl h
    have := done_of_prog (hN B) hi (h.trans (execution_prog H E hN i hi (le_of_time F.mono hl)))
    rw [hd] at this
    cases this
  by_cases hone : others i ids = []
  · have hno : ∀ {P : ID → Prop}, ∀ k ∈ others i ids, P k := fun k hk => by rw [hone] at hk; cases hk
    obtain ⟨T, hT1, hT2, hT3⟩ : ∃ T, time s ≤ T ∧ start i ≤ T ∧ T + 3 * δ < time B :=
      ⟨max (time s) (start i), le_max_left _ _, le_max_right _ _, by omega⟩
    obtain ⟨l1, _, t1, p1⟩ := processes_by H E hN F (r := 0) (n := s) (T := T) (by omega) (by omega) (by omega) hi (by omega) (Nat.zero_le _) (fun _ => hno)
    obtain ⟨l2, _, t2, p2⟩ := processes_by H E hN F (r := 1) (n := l1) (T := T + δ) (by omega) (by omega) (by omega) hi (by omega) p1 (fun _ => hno)
    obtain ⟨l3, _, t3, p3⟩ := processes_by H E hN F (r := 2) (n := l2) (T := T + 2 * δ) (by omega) (by omega) (by omega) hi (by omega) p2 (fun _ => hno)
    exact fin l3 (by omega) p3
  obtain ⟨k₀, hk₀⟩ := List.exists_mem_of_ne_nil _ hone
  obtain ⟨l1, _, t1, p1⟩ := all_process H E hN F (r := 0) (n := 0) (T := σ) (by omega) (by omega) (by omega) hσ (fun _ _ => Nat.zero_le _) (by omega)
  obtain ⟨l2, g2, t2, p2⟩ := all_hear H E hN F (r := 1) (n := l1) (T := σ + δ) (by omega) (by omega) (by omega) (by omega)
    (fun i hi => (hσ i hi).trans (Nat.le_add_right _ _)) p1
  have hs1 : ∀ k ∈ others i ids, Heard tys ((net s).state i) 1 k := fun k hk =>
    hq 1 (by omega) (by omega) k hk (heard_mono H E hN hk (by omega) (le_of_time F.mono (by omega)) (p2 i hi k hk))
  have hpi : 1 ≤ prog ((net s).state i) := by
    by_contra h
    have h : prog ((net s).state i) = 0 := by omega
    obtain ⟨hds, hrs⟩ := prog_lt h (by omega)
    rcases hs1 k₀ hk₀ with h' | ⟨h', _⟩ | ⟨_, m, hm, _⟩
    · omega
    · omega
    · rw [((inv_hist H.stable ((hN s).hist i hi)).round0 hrs hds).2] at hm
      cases hm
  have hps : ∀ j ∈ ids, 1 ≤ prog ((net s).state j) := by
    intro j hj
    by_cases hji : j = i
    · subst hji; exact hpi
    · have hjo : j ∈ others i ids := mem_others.mpr ⟨hj, hji⟩
      exact heard_prog H (hN s) (hL s) hi hjo (by omega) (by omega) (hs1 j hjo)
  have hst : ∀ d, ∀ j ∈ ids, start j ≤ time s + d := fun d j hj => (created_of_prog E F hi0 hj (hps j hj)).trans (Nat.le_add_right _ _)
  obtain ⟨m1, a1, u1, v1⟩ := all_hear H E hN F (r := 1) (n := s) (T := time s + 0) (by omega) (by omega) (by omega) (by omega) (hst _) hps
  obtain ⟨m2, a2, u2, v2⟩ := all_process H E hN F (r := 1) (n := m1) (T := time s + δ) (by omega) (by omega) (by omega) (hst _)
    (fun j hj => (hps j hj).trans (execution_prog H E hN j hj a1)) (fun _ => v1)
  obtain ⟨m3, a3, u3, v3⟩ := all_hear H E hN F (r := 2) (n := m2) (T := time s + 2 * δ) (by omega) (by omega) (by omega) (by omega) (hst _) v2
  have hs2 : ∀ k ∈ others i ids, Heard tys ((net s).state i) 2 k := fun k hk =>
    hq 2 (by omega) (by omega) k hk (heard_mono H E hN hk (by omega) (le_of_time F.mono (by omega)) (v3 i hi k hk))
  obtain ⟨n1, b1, w1, x1⟩ := processes_by H E hN F (r := 1) (n := s) (T := time s + 0) (by omega) (by omega) (by omega) hi (hst _ i hi) hpi (fun _ => hs1)
  obtain ⟨n2, b2, w2, x2⟩ := processes_by H E hN F (r := 2) (n := n1) (T := time s + δ) (by omega) (by omega) (by omega) hi (hst _ i hi) x1
    (fun _ k hk => heard_mono H E hN hk (by omega) b1 (hs2 k hk))
  exact fin n2 (by omega) x2

/-- The timer of `i` at moment `n` was last started at a moment since when `i` has heard nothing new. -/
structure Waits (ids : List ID) (tys : List MsgType) (timeout : Nat) (net : Nat → Net G R) (i : ID) (n : Nat) : Prop where
  d : ((net n).state i).timer.d = timeout
  fired : ((net n).state i).timer.fired = 0
  off : timeout = 0 → ((net n).state i).timer.deadline = none
  last : ∀ t, ((net n).state i).timer.deadline = some t → ∃ s ≤ n, t = ((net s).state i).timer.now + timeout ∧
    ∀ q, 1 ≤ q → q ≤ 2 → ∀ k ∈ others i ids, Heard tys ((net n).state i) q k → Heard tys ((net s).state i) q k

theorem Waits.keep {i : ID} {n t : Nat} (h : Waits ids tys t net i n) (h1 : ((net (n + 1)).state i).timer.d = ((net n).state i).timer.d)
    (h2 : ((net (n + 1)).state i).timer.fired = ((net n).state i).timer.fired)
    (h3 : ((net (n + 1)).state i).timer.deadline = ((net n).state i).timer.deadline)
    (h4 : ∀ q, 1 ≤ q → q ≤ 2 → ∀ k ∈ others i ids, Heard tys ((net (n + 1)).state i) q k → Heard tys ((net n).state i) q k) :
    Waits ids tys t net i (n + 1) where
  d := h1.trans h.d
  fired := h2.trans h.fired
  off h0 := h3.trans (h.off h0)
  last t ht := by
    obtain ⟨s, hs, h5, h6⟩ := h.last t (h3.symm.trans ht)
    exact ⟨s, by omega, h5, fun q a b k hk hh => h6 q a b k hk (h4 q a b k hk hh)⟩

/-- A clock is never faster than the time, and stands still until the session is created. -/
theorem clock_le (T : TimedExecution impl ids coins init event net time) (hc : ∀ n i op ret, event n = some (i, op, ret) → start i ≤ time n) {i : ID} (hi : i ∈ ids)
    {s n : Nat} (h : s ≤ n) : ((net n).state i).timer.now + max (time s) (start i) ≤ ((net s).state i).timer.now + max (time n) (start i) := by
  induction n, h using Nat.le_induction with
  | base => exact le_refl _
  | succ n _ ih =>
    have hm := T.mono n
    have still : (net (n + 1)).state i = (net n).state i →
        ((net (n + 1)).state i).timer.now + max (time s) (start i) ≤ ((net s).state i).timer.now + max (time (n + 1)) (start i) := by
      intro h
      rw [h]
      omega
    cases he : event n with
    | none => exact still (by rw [T.rest n he])
    | some x =>
      obtain ⟨j, op, ret⟩ := x
      by_cases hij : i = j
      · subst hij
        have h1 := hc n i op ret he
        have h2 := T.clock n i hi
        omega
      · obtain ⟨_, _, t, _, h4⟩ := T.step n j op ret he
        exact still (by rw [h4]; simp [Net.after, Function.update_of_ne hij])

/-- The execution that stops at the moment `B`, as long as no timer has fired until then. -/
theorem cut_execution (T : TimedExecution impl ids coins init event net time) (B : Nat)
    (hB : ∀ k < B, ∀ i ∈ ids, ((net k).state i).done = false → ((net k).state i).timer.fired = 0) :
    Execution impl ids coins init (fun k => if k < B then event k else none) (fun k => net (min k B)) where
  start := by
    show net (min 0 B) = _
    rw [Nat.zero_min]
    exact T.start
  rest n h := by
    show net (min (n + 1) B) = net (min n B)
    by_cases hn : n < B
    · rw [Nat.min_eq_left (by omega), Nat.min_eq_left (by omega)]
      rw [if_pos hn] at h
      exact T.rest n h
    · rw [Nat.min_eq_right (by omega), Nat.min_eq_right (by omega)]
  step n i op ret h := by
    by_cases hn : n < B
    · rw [if_pos hn] at h
      obtain ⟨h1, h2, h3⟩ := T.step n i op ret h
      show _ ∧ Allowed coins (net (min n B)) i op ∧ ∃ s, State.step impl ((net (min n B)).state i) op = some (s, ret) ∧
        net (min (n + 1) B) = (net (min n B)).after i op ret s
      rw [Nat.min_eq_left (show n ≤ B by omega), Nat.min_eq_left (show n + 1 ≤ B by omega)]
      refine ⟨h1, ?_, h3⟩
      rcases h2 with rfl | h2
      · by_cases hd : ((net n).state i).done = true
        · exact Or.inr hd
        · exact Or.inl (hB n hn i h1 (by simpa using hd))
      · exact h2
    · rw [if_neg hn] at h
      cases h

theorem cut_until (hm : ∀ n, time n ≤ time (n + 1)) (F : SwiftFrom ids δ start event net time) (B : Nat) :
    Until ids δ (time B) start (fun k => if k < B then event k else none) (fun k => net (min k B)) time where
  mono := hm
  created n i op ret he := by
    split at he
    · exact F.created n i op ret he
    · cases he
  processes i hi n T hn hs hT hd := by
    have hnB : n ≤ B := le_of_time hm (by omega)
    rw [Nat.min_eq_left hnB] at hd
    obtain ⟨k, h1, h2, ord, c, o, h3⟩ := F.processes i hi n hd
    have hk : k + 1 ≤ B := le_of_time hm (by omega)
    exact ⟨k, h1, by omega, ord, c, o, by rw [if_pos (by omega)]; exact h3⟩
  delivers i hi n T hn hs hT hd m hms hf ht := by
    have hnB : n ≤ B := le_of_time hm (by omega)
    rw [Nat.min_eq_left hnB] at hd hms
    rcases F.delivers i hi n hd m hms hf ht with ⟨k, h1, h2⟩ | ⟨k, h1, h2, e, h3⟩
    · exact Or.inl ⟨k, h1, by rw [if_pos (by omega)]; exact h2⟩
    · have hk : k + 1 ≤ B := le_of_time hm (by omega)
      exact Or.inr ⟨k, h1, by omega, e, by rw [if_pos (by omega)]; exact h3⟩

/-- No timer ever fires in a session that has not ended. -/
theorem prompt_waits (H : Honest impl ids r₀ coins M out Good tys)
    (hpath : ∀ N, Path impl ids coins (Net.start init) N → NetInv impl ids r₀ out Good timeout now N)
    (hinit : ∀ i ∈ ids, init i = newBaseState impl (r₀ i) (timeout i) (now i))
    (T : TimedExecution impl ids coins init event net time) (F : SwiftFrom ids δ start event net time)
    (hσ : ∀ i ∈ ids, start i ≤ σ) (ht : ∀ i ∈ ids, timeout i = 0 ∨ 3 * δ < timeout i ∧ σ + 2 * δ < start i + timeout i) (n : Nat) :
    ∀ i ∈ ids, ((net n).state i).done = false → Waits ids tys (timeout i) net i n := by
  induction n using Nat.strong_induction_on with
  | _ n ih =>
  cases n with
  | zero =>
    intro i hi _
    have hst : (net 0).state i = newBaseState impl (r₀ i) (timeout i) (now i) := by
      rw [T.start]
      exact hinit i hi
    refine ⟨by rw [hst]; rfl, by rw [hst]; rfl, fun h => ?_, fun t h => ⟨0, le_refl 0, ?_, fun _ _ _ _ _ h => h⟩⟩
    · rw [hst]
      simp [newBaseState, Timer.new, h]
    · rw [hst] at h ⊢
      simp only [newBaseState, Timer.new] at h ⊢
      split at h
      · exact (Option.some.inj h).symm
      · cases h
  | succ n =>
    have E := cut_execution T n fun k hk i hi hd => (ih k (by omega) i hi hd).fired
    have hN := fun k => hpath _ (execution_path E k)
    have hL := lead_execution H E hN fun i hi => by rw [hinit i hi]; rfl
    have hU := cut_until T.mono F n
    have hNn := hN n
    simp only [Nat.min_self] at hNn
    intro i hi hd
    cases he : event n with
    | none =>
      have hst := T.rest n he
      rw [hst] at hd
      exact (ih n (by omega) i hi hd).keep (by rw [hst]) (by rw [hst]) (by rw [hst]) (fun q _ _ k _ h => by rwa [hst] at h)
    | some x =>
      obtain ⟨j, op, ret⟩ := x
      obtain ⟨hj, hal, s, hs, h4⟩ := T.step n j op ret he
      by_cases hij : i = j
      swap
      · have hst : (net (n + 1)).state i = (net n).state i := by rw [h4]; simp [Net.after, Function.update_of_ne hij]
        rw [hst] at hd
        exact (ih n (by omega) i hi hd).keep (by rw [hst]) (by rw [hst]) (by rw [hst]) (fun q _ _ k _ h => by rwa [hst] at h)
      subst hij
      have hst : (net (n + 1)).state i = s := by rw [h4]; simp [Net.after]
      rw [hst] at hd
      have hdn : ((net n).state i).done = false := by
        by_contra h
        rw [Bool.not_eq_false] at h
        obtain ⟨⟨tm, rfl⟩, _⟩ := step_done hs h
        rw [show ({ (net n).state i with timer := tm } : State G R).done = ((net n).state i).done from rfl, h] at hd
        cases hd
      have W := ih n (by omega) i hi hdn
      have same : s = (net n).state i → Waits ids tys (timeout i) net i (n + 1) := fun h =>
        W.keep (by rw [hst, h]) (by rw [hst, h]) (by rw [hst, h]) (fun q _ _ k _ hh => by rwa [hst, h] at hh)
      have reset : s.timer = ((net n).state i).timer.ackMessage → Waits ids tys (timeout i) net i (n + 1) := by
        intro h
        by_cases h0 : timeout i = 0
        · have hack : s.timer = ((net n).state i).timer := by rw [h, Timer.ackMessage, if_neg (by rw [W.d, h0]; omega)]
          refine ⟨by rw [hst, hack]; exact W.d, by rw [hst, hack]; exact W.fired, fun _ => by rw [hst, hack]; exact W.off h0, fun t htt => ?_⟩
          rw [hst, hack, W.off h0] at htt
          cases htt
        · have hack : s.timer = { ((net n).state i).timer with deadline := some (((net n).state i).timer.now + ((net n).state i).timer.d) } := by
            rw [h, Timer.ackMessage, if_pos (by rw [W.d]; omega)]
          refine ⟨by rw [hst, hack]; exact W.d, by rw [hst, hack]; exact W.fired, fun h => absurd h h0,
            fun t htt => ⟨n + 1, le_refl _, ?_, fun _ _ _ _ _ h => h⟩⟩
          rw [hst, hack] at htt ⊢
          rw [← Option.some.inj htt, W.d]
      rcases step_cases hs with ⟨m, e, rfl, rfl, h5⟩ | ⟨ord, c, o, rfl, rfl, h5⟩ | ⟨dt, rfl, rfl, h5⟩ |
        ⟨rfl, rfl, h5 | ⟨t, h5, h6, _⟩⟩ | ⟨rfl, rfl, ⟨_, h5⟩ | ⟨h5, _⟩ | ⟨r, h5, _⟩⟩
      · cases handle_cases _ h5 with
        | stored => exact reset rfl
        | queued => exact reset rfl
        | _ => exact same rfl
      · have hc : ((net n).state i).roundNumber = 0 → c = coins i := by
          rcases hal with hal | hal
          · cases hal
          · exact hal
        have hh : ∀ q, 1 ≤ q → q ≤ 2 → ∀ k ∈ others i ids, Heard tys s q k → Heard tys ((net n).state i) q k :=
          fun q _ h2 k hk => (heard_process H hNn hi hk h2 hc h5).mp
        cases h5 with
        | idle => exact same rfl
        | next => exact W.keep (by rw [hst]) (by rw [hst]) (by rw [hst]) (by rw [hst]; exact hh)
        | _ => cases hd
      · exact W.keep (by rw [hst, h5]) (by rw [hst, h5]) (by rw [hst, h5]) (fun q _ _ k _ hh => by rw [hst, h5] at hh; exact hh)
      · exact same h5
      · -- the timer does not fire
        exfalso
        obtain ⟨b, hb, rfl, h8⟩ := W.last t h5
        have hto : 3 * δ < timeout i ∧ σ + 2 * δ < start i + timeout i := by
          rcases ht i hi with h0 | h0
          · rw [W.off h0] at h5; cases h5
          · exact h0
        have hcl := clock_le T F.created hi hb
        have hcr := F.created n i _ _ he
        refine prompt_hears H E hN hL T.zero (fun i hi => by rw [hinit i hi]; rfl) (s := b) (B := n) hU hσ hi ?_ (by omega) (by omega) (by omega) ?_
        · simpa using hdn
        · intro q a1 a2 k hk hh
          simp only [Nat.min_self, Nat.min_eq_left hb] at hh ⊢
          exact h8 q a1 a2 k hk hh
      · exact same h5
      · exact absurd W.fired h5
      · exact absurd W.fired h5

/-- An execution in which callers and network are prompt is one without time-outs. -/
theorem prompt_execution (H : Honest impl ids r₀ coins M out Good tys)
    (hpath : ∀ N, Path impl ids coins (Net.start init) N → NetInv impl ids r₀ out Good timeout now N)
    (hinit : ∀ i ∈ ids, init i = newBaseState impl (r₀ i) (timeout i) (now i))
    (T : TimedExecution impl ids coins init event net time) (F : SwiftFrom ids δ start event net time)
    (hσ : ∀ i ∈ ids, start i ≤ σ) (ht : ∀ i ∈ ids, timeout i = 0 ∨ 3 * δ < timeout i ∧ σ + 2 * δ < start i + timeout i) : Execution impl ids coins init event net where
  start := T.start
  rest := T.rest
  step n i op ret h := by
    obtain ⟨h1, h2, h3⟩ := T.step n i op ret h
    refine ⟨h1, ?_, h3⟩
    rcases h2 with rfl | h2
    · by_cases hd : ((net n).state i).done = true
      · exact Or.inr hd
      · exact Or.inl (prompt_waits H hpath hinit T F hσ ht n i h1 (by simpa using hd)).fired
    · exact h2

theorem SwiftFrom.until (hm : ∀ n, time n ≤ time (n + 1)) (F : SwiftFrom ids δ start event net time) (τ : Nat) : Until ids δ τ start event net time where
  mono := hm
  created := F.created
  processes i hi n T hn hs _ hd := by
    obtain ⟨k, h1, h2, h3⟩ := F.processes i hi n hd
    exact ⟨k, h1, by omega, h3⟩
  delivers i hi n T hn hs _ hd m hm hf ht := by
    rcases F.delivers i hi n hd m hm hf ht with h | ⟨k, h1, h2, h3⟩
    · exact Or.inl h
    · exact Or.inr ⟨k, h1, by omega, h3⟩

theorem Swift.from (F : Swift ids δ event net time) : SwiftFrom ids δ (fun _ => 0) event net time where
  created _ _ _ _ _ := Nat.zero_le _
  processes i hi n hd := by
    obtain ⟨k, h1, h2, h3⟩ := F.processes i hi n hd
    exact ⟨k, h1, by omega, h3⟩
  delivers i hi n hd m hm hf ht := by
    rcases F.delivers i hi n hd m hm hf ht with h | ⟨k, h1, h2, h3⟩
    · exact Or.inl h
    · exact Or.inr ⟨k, h1, by omega, h3⟩

/-- Sessions that are created within `δ` of each other: nothing happens until all of them exist, and then what happens in an execution where all are
created at once. -/
theorem staggered_exists (hT : TimedExecution impl ids coins init event net time) (F : ∀ δ, Swift ids δ event net time)
    (hσ : ∀ i ∈ ids, start i ≤ σ) (hδ : ∀ i ∈ ids, σ ≤ start i + δ) (hev : ∀ n i op ret, event n = some (i, op, ret) → i ∈ ids) :
    ∃ event' net' time', TimedExecution impl ids coins init event' net' time' ∧ SwiftFrom ids δ start event' net' time' ∧
      ∀ n, net' (n + 1) = net n ∧ time' (n + 1) = σ + time n := by
  refine ⟨fun n => match n with | 0 => none | k + 1 => event k, fun n => match n with | 0 => Net.start init | k + 1 => net k,
    fun n => match n with | 0 => 0 | k + 1 => σ + time k, ⟨rfl, ?_, ?_, rfl, ?_, ?_⟩, ⟨?_, ?_, ?_⟩, fun n => ⟨rfl, rfl⟩⟩
  · intro n h
    cases n with
    | zero => exact hT.start
    | succ k => exact hT.rest k h
  · intro n i op ret h
    cases n with
    | zero => cases h
    | succ k => exact hT.step k i op ret h
  · intro n
    cases n with
    | zero => exact Nat.zero_le _
    | succ k => exact Nat.add_le_add_left (hT.mono k) σ
  · intro n i hi
    cases n with
    | zero =>
      show ((net 0).state i).timer.now + 0 ≤ ((Net.start init).state i).timer.now + _
      rw [hT.start]
      omega
    | succ k =>
      have := hT.clock k i hi
      show ((net (k + 1)).state i).timer.now + (σ + time k) ≤ ((net k).state i).timer.now + (σ + time (k + 1))
      omega
  · intro n i op ret h
    cases n with
    | zero => cases h
    | succ k => exact (hσ i (hev k i op ret h)).trans (Nat.le_add_right _ _)
  · intro i hi n hd
    cases n with
    | zero =>
      have hd : ((net 0).state i).done = false := by rw [hT.start]; exact hd
      obtain ⟨k, h1, h2, h3⟩ := (F 0).processes i hi 0 hd
      rw [hT.zero] at h2
      have := hδ i hi
      exact ⟨k + 1, by omega, show σ + time (k + 1) ≤ max 0 (start i) + δ by omega, h3⟩
    | succ n =>
      obtain ⟨k, h1, h2, h3⟩ := (F δ).processes i hi n hd
      exact ⟨k + 1, by omega, show σ + time (k + 1) ≤ max (σ + time n) (start i) + δ by omega, h3⟩
  · intro i hi n hd m hm hf ht
    cases n with
    | zero => cases hm
    | succ n =>
      rcases (F δ).delivers i hi n hd m hm hf ht with ⟨k, h1, h2⟩ | ⟨k, h1, h2, h3⟩
      · exact Or.inl ⟨k + 1, by omega, h2⟩
      · exact Or.inr ⟨k + 1, by omega, show σ + time (k + 1) ≤ max (σ + time n) (start i) + δ by omega, h3⟩

end

end Verif.State
