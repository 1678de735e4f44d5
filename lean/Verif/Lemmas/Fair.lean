import Verif.Spec.Fair
import Verif.Lemmas.Net
import Mathlib.Data.Nat.Pairing

/-!
Fair executions of a network of honest parties come to an end, and there are fair executions.
-/

namespace Verif.State

open Spec

variable {G R : Type}

section

variable {impl : RoundImpl G R} {ids : IDSlice} {r₀ : ID → R} {coins : ID → Coins} {M : Nat → ID → ID → Message G}
  {out : ID → Nat → List (Message G)} {Good : ID → Nat → R → Prop} {timeout now : ID → Nat} {N : Net G R} {tys : List MsgType}
  {init : ID → State G R} {event : Nat → Option (Event G)} {net : Nat → Net G R}

theorem mem_keys_foldl_set {l : List (Message G)} {r : GoMap (Option (Message G))} {k : ID}
    (h : k ∈ r.keys ∨ ∃ m ∈ l, m.header.fromID = k) : k ∈ GoMap.keys (l.foldl (fun r m => r.set m.header.fromID (some m)) r) := by
  induction l generalizing r with
  | nil => rcases h with h | ⟨m, hm, _⟩; exacts [h, nomatch hm]
  | cons a l ih =>
    apply ih
    rcases h with h | ⟨m, hm, rfl⟩
    · exact Or.inl (GoMap.mem_keys_set.mpr (Or.inr h))
    · rcases List.mem_cons.mp hm with rfl | hm
      · exact Or.inl (GoMap.mem_keys_set.mpr (Or.inl rfl))
      · exact Or.inr ⟨m, hm, rfl⟩

/-- A message that was accepted is not lost: it is in the queue until its round, and then its sender is one of those heard from. -/
theorem accepted_kept {r : R} {timeout now : Nat} (hst : impl.Stable) (hnd : (impl.acceptedMessageTypes r).Nodup)
    {h : List (Op G × Ret G)} {s : State G R} (hh : Hist impl (newBaseState impl r timeout now) h s) {m : Message G}
    (hm : (Op.handle m, Ret.handled none) ∈ h) (hrel : Relevant (impl.selfID r) (impl.partyIDs r) m) (hd : s.done = false) :
    (s.acceptedTypes.head? = some m.header.type → m.header.fromID ∈ s.received.keys) ∧
    (m.header.type ∈ s.acceptedTypes.tail → m ∈ s.queue) := by
  induction hh with
  | nil => cases hm
  | @snoc h s₁ s₂ op ret hh hs ih =>
    have hinv := inv_hist hst hh
    have htn : s₁.acceptedTypes.Nodup := by rw [hinv.types]; exact hnd.sublist (List.drop_sublist _ _)
    have hsplit : ∀ {t : MsgType}, s₁.acceptedTypes.head? = some t → t ∉ s₁.acceptedTypes.tail := by
      intro t ht
      cases hl : s₁.acceptedTypes with
      | nil => rw [hl] at ht; cases ht
      | cons a l =>
        rw [hl] at ht htn
        cases ht
        exact (List.nodup_cons.mp htn).1
    rcases step_cases hs with ⟨m', e, rfl, rfl, h2⟩ | ⟨ord, c, o, rfl, rfl, h2⟩ | ⟨dt, rfl, rfl, rfl⟩ |
      ⟨rfl, rfl, rfl | ⟨t, _, _, rfl⟩⟩ | ⟨rfl, rfl, ⟨_, rfl⟩ | ⟨_, _, rfl⟩ | ⟨r, _, _, _, _, rfl⟩⟩
    · have hm' : (Op.handle m, Ret.handled none) ∈ h ∨ (m = m' ∧ e = none) := by
        rcases List.mem_append.mp hm with hm | hm
        · exact Or.inl hm
        · rw [List.mem_singleton, Prod.mk.injEq] at hm
          cases hm.1
          cases hm.2
          exact Or.inr ⟨rfl, rfl⟩
      rcases hm' with hm' | ⟨rfl, rfl⟩
      · cases handle_cases _ h2 with
        | stored h3 =>
          obtain ⟨a, b⟩ := ih hm' h3
          exact ⟨fun h => GoMap.mem_keys_set.mpr (Or.inr (a h)), b⟩
        | queued h3 =>
          obtain ⟨a, b⟩ := ih hm' h3
          exact ⟨a, fun h => List.mem_append_left _ (b h)⟩
        | _ => exact ih hm' hd
      · rw [← hinv.self, ← hinv.ids] at hrel
        cases handle_cases _ h2 with
        | fromSelf _ h3 => exact absurd h3 hrel.1
        | notForUs _ _ h3 h4 => exact absurd hrel.2.1 (not_or.mpr ⟨h3, h4⟩)
        | stored _ _ _ h3 => exact ⟨fun _ => GoMap.mem_keys_set.mpr (Or.inl rfl), fun h4 => absurd h4 (hsplit h3)⟩
        | queued _ _ _ _ h3 => exact ⟨fun h4 => absurd h4 h3, fun _ => List.mem_append_right _ (List.mem_singleton.mpr rfl)⟩
    · have hm' : (Op.handle m, Ret.handled none) ∈ h := by
        rcases List.mem_append.mp hm with hm | hm
        · exact hm
        · rw [List.mem_singleton, Prod.mk.injEq] at hm; cases hm.1
      cases h2 with
      | idle _ => exact ih hm' hd
      | next t types _ _ _ _ h3 _ _ _ h4 _ =>
        obtain ⟨_, b⟩ := ih hm' h3
        rw [h4] at b
        simp only [List.tail_cons] at b
        rw [h4] at htn
        have htn := (List.nodup_cons.mp htn).2
        show (types.head? = some m.header.type → m.header.fromID ∈ (movedReceived types s₁.queue).keys) ∧
          (m.header.type ∈ types.tail → m ∈ movedQueue types s₁.queue)
        cases types with
        | nil => exact ⟨(fun h => nomatch h), (fun h => nomatch h)⟩
        | cons t' ts =>
          refine ⟨fun h => ?_, fun h => ?_⟩
          · have h : t' = m.header.type := Option.some.inj h
            refine mem_keys_foldl_set (Or.inr ⟨m, ?_, rfl⟩)
            rw [List.mem_filter]
            exact ⟨b (by rw [h]; exact List.mem_cons_self), by simp [h]⟩
          · refine List.mem_filter.mpr ⟨b (List.mem_cons_of_mem _ h), ?_⟩
            simp only [ne_eq, decide_eq_true_eq]
            rintro rfl
            exact (List.nodup_cons.mp htn).1 h
      | _ => cases hd
    all_goals
      have hm' : (Op.handle m, Ret.handled none) ∈ h := by
        rcases List.mem_append.mp hm with hm | hm
        · exact hm
        · rw [List.mem_singleton, Prod.mk.injEq] at hm; cases hm.1
      first | exact ih hm' hd | cases hd

theorem execution_path (E : Execution impl ids coins init event net) (n : Nat) : Path impl ids coins (Net.start init) (net n) := by
  induction n with
  | zero => rw [E.start]; exact .refl _
  | succ n ih =>
    cases he : event n with
    | none => rw [E.rest n he]; exact ih
    | some x =>
      obtain ⟨i, op, ret⟩ := x
      obtain ⟨h1, h2, s, h3, h4⟩ := E.step n i op ret he
      rw [h4]
      exact ih.tail h1 h2 h3

/-- What is going on at party `i` only moves forward. -/
theorem execution_step (H : Honest impl ids r₀ coins M out Good tys) (E : Execution impl ids coins init event net)
    (hN : ∀ n, NetInv impl ids r₀ out Good timeout now (net n)) (i : ID) (hi : i ∈ ids) (n : Nat) :
    (∀ m ∈ (net n).sent, m ∈ (net (n + 1)).sent) ∧ (∀ x ∈ (net n).hist i, x ∈ (net (n + 1)).hist i) ∧
    (prog ((net n).state i) < prog ((net (n + 1)).state i) ∨ (prog ((net n).state i) = prog ((net (n + 1)).state i) ∧
      ∀ k ∈ ((net n).state i).received.keys, k ∈ ((net (n + 1)).state i).received.keys)) := by
  cases he : event n with
  | none => rw [E.rest n he]; exact ⟨fun _ h => h, fun _ h => h, Or.inr ⟨rfl, fun _ h => h⟩⟩
  | some x =>
    obtain ⟨j, op, ret⟩ := x
    obtain ⟨hj, h2, s, h3, h4⟩ := E.step n j op ret he
    rw [h4]
    refine ⟨fun m h => List.mem_append_left _ h, fun x hx => ?_, ?_⟩
    · exact update_mem (f := (net n).hist) (i := j) (j := i) (P := fun t => x ∈ t) (fun h => List.mem_append_left _ (h ▸ hx)) (fun _ => hx)
    · refine update_mem (f := (net n).state) (i := j) (j := i)
        (P := fun t : State G R => prog ((net n).state i) < prog t ∨ (prog ((net n).state i) = prog t ∧ ∀ k ∈ ((net n).state i).received.keys, k ∈ t.received.keys))
        (fun h => ?_) (fun _ => Or.inr ⟨rfl, fun _ h => h⟩)
      subst h
      rcases step_cases h3 with ⟨m, e, rfl, rfl, h5⟩ | ⟨ord, c, o, rfl, rfl, h5⟩ | ⟨dt, rfl, rfl, rfl⟩ |
        ⟨rfl, rfl, rfl | ⟨t, _, _, rfl⟩⟩ | ⟨rfl, rfl, ⟨_, rfl⟩ | ⟨_, _, rfl⟩ | ⟨r, hf, hd, _⟩⟩
      · refine Or.inr ?_
        cases handle_cases _ h5 with
        | stored => exact ⟨rfl, fun k hk => GoMap.mem_keys_set.mpr (Or.inr hk)⟩
        | _ => exact ⟨rfl, fun _ h => h⟩
      · obtain ⟨t, o', h6, _, h7⟩ := (hN n).process H hi ord c h2
        rw [(processAll_iff impl).mpr h5] at h6
        obtain ⟨rfl, rfl⟩ := Prod.mk.inj (Option.some.inj h6)
        rcases h7 with ⟨_, rfl, _⟩ | ⟨hd, _, h7, _⟩
        · exact Or.inr ⟨rfl, fun _ h => h⟩
        · refine Or.inl ?_
          rw [h7]
          simp [prog, hd]
      · exact Or.inr ⟨rfl, fun _ h => h⟩
      · exact Or.inr ⟨rfl, fun _ h => h⟩
      · exact Or.inr ⟨rfl, fun _ h => h⟩
      · exact Or.inr ⟨rfl, fun _ h => h⟩
      · exact Or.inr ⟨rfl, fun _ h => h⟩
      · rcases h2 with h2 | h2
        · exact absurd h2 hf
        · rw [hd] at h2; cases h2

theorem execution_mono (H : Honest impl ids r₀ coins M out Good tys) (E : Execution impl ids coins init event net)
    (hN : ∀ n, NetInv impl ids r₀ out Good timeout now (net n)) (i : ID) (hi : i ∈ ids) {n k : Nat} (hk : n ≤ k) :
    (∀ m ∈ (net n).sent, m ∈ (net k).sent) ∧ (∀ x ∈ (net n).hist i, x ∈ (net k).hist i) ∧
    (prog ((net n).state i) < prog ((net k).state i) ∨ (prog ((net n).state i) = prog ((net k).state i) ∧
      ∀ x ∈ ((net n).state i).received.keys, x ∈ ((net k).state i).received.keys)) := by
  induction k, hk using Nat.le_induction with
  | base => exact ⟨fun _ h => h, fun _ h => h, Or.inr ⟨rfl, fun _ h => h⟩⟩
  | succ k _ ih =>
    obtain ⟨a1, a2, a3⟩ := ih
    obtain ⟨b1, b2, b3⟩ := execution_step H E hN i hi k
    refine ⟨fun m h => b1 m (a1 m h), fun x h => b2 x (a2 x h), ?_⟩
    rcases a3 with a3 | ⟨a3, a4⟩ <;> rcases b3 with b3 | ⟨b3, b4⟩
    · exact Or.inl (a3.trans b3)
    · exact Or.inl (b3 ▸ a3)
    · exact Or.inl (a3 ▸ b3)
    · exact Or.inr ⟨a3.trans b3, fun x h => b4 x (a4 x h)⟩

theorem execution_prog (H : Honest impl ids r₀ coins M out Good tys) (E : Execution impl ids coins init event net)
    (hN : ∀ n, NetInv impl ids r₀ out Good timeout now (net n)) (i : ID) (hi : i ∈ ids) {n k : Nat} (hk : n ≤ k) :
    prog ((net n).state i) ≤ prog ((net k).state i) := by
  rcases (execution_mono H E hN i hi hk).2.2 with h | ⟨h, _⟩ <;> omega

theorem prog_lt {i : ID} {r : Nat} (hp : prog (N.state i) = r) (hr : r < 3) :
    (N.state i).done = false ∧ (N.state i).roundNumber = r := by
  unfold prog at hp
  split at hp
  · omega
  · rename_i h
    exact ⟨by simpa using h, hp⟩

/-- Something true from some moment on about each of finitely many things is true of all of them from some moment on. -/
theorem eventually_all {P : ID → Nat → Prop} (l : List ID) (hmono : ∀ k ∈ l, ∀ a b, a ≤ b → P k a → P k b) (h : ∀ k ∈ l, ∃ n, P k n) :
    ∃ n, ∀ k ∈ l, P k n := by
  induction l with
  | nil => exact ⟨0, fun _ h => nomatch h⟩
  | cons a l ih =>
    obtain ⟨n, hn⟩ := ih (fun k hk => hmono k (List.mem_cons_of_mem _ hk)) (fun k hk => h k (List.mem_cons_of_mem _ hk))
    obtain ⟨n', hn'⟩ := h a List.mem_cons_self
    refine ⟨max n n', fun k hk => ?_⟩
    rcases List.mem_cons.mp hk with rfl | hk
    · exact hmono _ List.mem_cons_self _ _ (le_max_right _ _) hn'
    · exact hmono _ (List.mem_cons_of_mem _ hk) _ _ (le_max_left _ _) (hn k hk)

/-- When everybody has reached round `r`, every party hears in time from every other or gets further. -/
theorem fair_hears (H : Honest impl ids r₀ coins M out Good tys) (E : Execution impl ids coins init event net)
    (hN : ∀ n, NetInv impl ids r₀ out Good timeout now (net n)) (F : Fair ids event net) {r n : Nat} (hr : r < 3)
    (hall : ∀ i ∈ ids, r ≤ prog ((net n).state i)) {i : ID} (hi : i ∈ ids) {k : ID} (hk : k ∈ others i ids) :
    ∃ l, n ≤ l ∧ (r < prog ((net l).state i) ∨ (prog ((net l).state i) = r ∧ k ∈ ((net l).state i).received.keys)) := by
  by_cases hgt : r < prog ((net n).state i)
  · exact ⟨n, le_refl n, Or.inl hgt⟩
  have hp : prog ((net n).state i) = r := by have := hall i hi; omega
  obtain ⟨hd, hrn⟩ := prog_lt hp hr
  have hk' := mem_others.mp hk
  cases r with
  | zero =>
    refine ⟨n, le_refl n, Or.inr ⟨hp, ?_⟩⟩
    rw [((inv_hist H.stable ((hN n).hist i hi)).round0 hrn hd).1, H.self i hi, H.parties i hi, mem_initReceived]
    exact Or.inr ⟨hk'.1, hk'.2⟩
  | succ q =>
    obtain ⟨hmem, hto⟩ := H.out_mem k hk'.1 i hi (Ne.symm hk'.2) q (by omega)
    obtain ⟨hfrom, hty, _⟩ := H.out_spec k hk'.1 q (by omega) _ hmem
    have hsent : M (q + 1) k i ∈ (net n).sent := (hN n).sentAll k hk'.1 q (by have := hall k hk'.1; omega) _ hmem
    have hrel : Relevant (impl.selfID (r₀ i)) (impl.partyIDs (r₀ i)) (M (q + 1) k i) := by
      rw [H.self i hi, H.parties i hi]
      exact ⟨by rw [hfrom]; exact hk'.2, hto, IDSlice.contains_complete H.sorted (by rw [hfrom]; exact hk'.1)⟩
    have hhead : ∀ l, prog ((net l).state i) = q + 1 → ((net l).state i).acceptedTypes.head? = some (M (q + 1) k i).header.type := by
      intro l hl
      obtain ⟨h1, h2⟩ := prog_lt hl hr
      rw [(inv_hist H.stable ((hN l).hist i hi)).types, H.types i hi,
        show ((net l).state i).used = ((net l).state i).roundNumber by simp [used, h1], List.head?_drop, h2]
      exact hty
    rcases F.delivers i hi n _ hsent (by rw [hfrom]; exact hk'.2) hto with ⟨l, hl⟩ | hinf
    · -- it was accepted at some moment
      let l' := max n (l + 1)
      have hl' : n ≤ l' := le_max_left _ _
      refine ⟨l', hl', ?_⟩
      by_cases hgt : q + 1 < prog ((net l').state i)
      · exact Or.inl hgt
      have hp' : prog ((net l').state i) = q + 1 := by
        have := execution_prog H E hN i hi hl'
        omega
      refine Or.inr ⟨hp', ?_⟩
      obtain ⟨_, _, s, _, h4⟩ := E.step l i _ _ hl
      have hin : (Op.handle (M (q + 1) k i), Ret.handled none) ∈ (net (l + 1)).hist i := by
        rw [h4]
        simp only [Net.after, Function.update_self]
        exact List.mem_append_right _ (List.mem_singleton.mpr rfl)
      have hin := (execution_mono H E hN i hi (show l + 1 ≤ l' from le_max_right _ _)).2.1 _ hin
      have := (accepted_kept H.stable (by rw [H.types i hi]; exact H.tys_nodup) ((hN l').hist i hi) hin hrel (prog_lt hp' hr).1).1 (hhead l' hp')
      rwa [hfrom] at this
    · obtain ⟨l, hl, e, he⟩ := hinf n
      obtain ⟨_, _, s, h3, h4⟩ := E.step l i _ _ he
      have hle : n ≤ l + 1 := by omega
      refine ⟨l + 1, hle, ?_⟩
      by_cases hgt : q + 1 < prog ((net (l + 1)).state i)
      · exact Or.inl hgt
      have hge := execution_prog H E hN i hi hl
      have hge' := execution_prog H E hN i hi (show l ≤ l + 1 by omega)
      have hp' : prog ((net (l + 1)).state i) = q + 1 := by omega
      refine Or.inr ⟨hp', ?_⟩
      have hpl : prog ((net l).state i) = q + 1 := by omega
      obtain ⟨hdl, _⟩ := prog_lt hpl hr
      have hinv := inv_hist H.stable ((hN l).hist i hi)
      have hst : (net (l + 1)).state i = s := by rw [h4]; simp [Net.after]
      by_cases hin : k ∈ ((net l).state i).received.keys
      · rcases (execution_step H E hN i hi l).2.2 with h | ⟨_, h⟩
        · omega
        · exact h k hin
      · have hh := hhead l hpl
        cases hacc : ((net l).state i).acceptedTypes with
        | nil => rw [hacc] at hh; cases hh
        | cons t ts =>
          rw [hacc] at hh
          have h1 := handle_stores hdl hacc (by rw [hinv.self, hinv.ids]; exact hrel) (by rw [hfrom]; exact hin) (Option.some.inj hh).symm
          rw [hst]
          simp only [State.step, Option.some.injEq, Prod.mk.injEq] at h3
          rw [← h3.1, h1]
          exact GoMap.mem_keys_set.mpr (Or.inl hfrom.symm)

/-- Everybody reaches every round. -/
theorem fair_reaches (H : Honest impl ids r₀ coins M out Good tys) (E : Execution impl ids coins init event net)
    (hN : ∀ n, NetInv impl ids r₀ out Good timeout now (net n)) (F : Fair ids event net) (r : Nat) (hr : r ≤ 3) :
    ∃ n, ∀ i ∈ ids, r ≤ prog ((net n).state i) := by
  induction r with
  | zero => exact ⟨0, fun _ _ => Nat.zero_le _⟩
  | succ r ih =>
    obtain ⟨n, hall⟩ := ih (by omega)
    refine eventually_all (P := fun i n => r + 1 ≤ prog ((net n).state i)) ids (fun i hi a b hab h => h.trans (execution_prog H E hN i hi hab)) fun i hi => ?_
    obtain ⟨l, hl⟩ := eventually_all (P := fun k l => n ≤ l ∧ (r < prog ((net l).state i) ∨ (prog ((net l).state i) = r ∧ k ∈ ((net l).state i).received.keys)))
      (others i ids) (fun k _ a b hab ⟨h1, h2⟩ => ⟨h1.trans hab, by
        rcases h2 with h2 | ⟨h2, h3⟩
        · exact Or.inl (h2.trans_le (execution_prog H E hN i hi hab))
        · rcases (execution_mono H E hN i hi hab).2.2 with h | ⟨h, h'⟩
          · exact Or.inl (h2 ▸ h)
          · exact Or.inr ⟨h ▸ h2, h' k h3⟩⟩) fun k hk => fair_hears H E hN F (by omega) hall hi hk
    obtain ⟨p, hp, ord, c, o, he⟩ := F.processes i hi (max n l)
    have hnp : n ≤ p := (le_max_left _ _).trans hp
    have hlp : l ≤ p := (le_max_right _ _).trans hp
    by_cases hgt : r < prog ((net p).state i)
    · exact ⟨p, hgt⟩
    have hge := (hall i hi).trans (execution_prog H E hN i hi hnp)
    have hpp : prog ((net p).state i) = r := by omega
    obtain ⟨hd, hrn⟩ := prog_lt hpp (by omega)
    have hfull : Full impl ((net p).state i) := by
      refine full_of_keys (inv_hist H.stable ((hN p).hist i hi)) (by rw [H.parties i hi]; exact H.nodup) (by rw [H.parties i hi, H.self i hi]; exact hi) ?_
      rw [H.parties i hi, H.self i hi]
      intro k hk
      obtain ⟨_, h2⟩ := hl k hk
      have hmono := execution_mono H E hN i hi hlp
      rcases h2 with h2 | ⟨h2, h3⟩
      · have := execution_prog H E hN i hi hlp
        omega
      · rcases hmono.2.2 with h | ⟨_, h'⟩
        · omega
        · exact h' k h3
    obtain ⟨_, ha, s, h3, h4⟩ := E.step p i _ _ he
    refine ⟨p + 1, ?_⟩
    have hst : (net (p + 1)).state i = s := by rw [h4]; simp [Net.after]
    rw [hst]
    obtain ⟨t, o', h5, _, h6⟩ := (hN p).process H hi ord c ha
    have h7 : s = t := by
      simp only [State.step, h5, Option.map_some, Option.some.injEq, Prod.mk.injEq] at h3
      exact h3.1.symm
    subst h7
    rcases h6 with ⟨h6 | h6, _⟩ | ⟨_, _, h6, _⟩
    · rw [hd] at h6; cases h6
    · exact absurd hfull h6
    · omega

theorem fair_finishes (H : Honest impl ids r₀ coins M out Good tys) (E : Execution impl ids coins init event net)
    (hN : ∀ n, NetInv impl ids r₀ out Good timeout now (net n)) (F : Fair ids event net) :
    ∃ n, ∀ k, n ≤ k → ∀ i ∈ ids, ((net k).state i).done = true := by
  obtain ⟨n, hn⟩ := fair_reaches H E hN F 3 (le_refl 3)
  refine ⟨n, fun k hk i hi => ?_⟩
  have h := (hn i hi).trans (execution_prog H E hN i hi hk)
  by_contra hd
  rw [Bool.not_eq_true] at hd
  have := ((hN k).good i hi hd).1
  simp only [prog, hd] at h
  simp at h
  omega

/-- What happens at moment `n` in the execution that does everything again and again. -/
def roundRobin (ids : List ID) (coins : ID → Coins) (n : Nat) (N : Net G R) : Option (ID × Op G) :=
  match ids[n.unpair.1.unpair.1]? with
  | none => none
  | some i =>
    match n.unpair.1.unpair.2 with
    | 0 => some (i, .processAll .insertion (coins i))
    | j + 1 => N.sent[j]?.map fun m => (i, .handle m)

/-- What a call returns and the network afterwards. -/
def perform (impl : RoundImpl G R) (N : Net G R) : Option (ID × Op G) → Option (Event G) × Net G R
  | none => (none, N)
  | some (i, op) =>
    match State.step impl (N.state i) op with
    | none => (none, N)
    | some (s, ret) => (some (i, op, ret), N.after i op ret s)

/-- The network when `sched` says what happens next. -/
def schedNet (impl : RoundImpl G R) (sched : Nat → Net G R → Option (ID × Op G)) (init : ID → State G R) : Nat → Net G R
  | 0 => Net.start init
  | n + 1 => (perform impl (schedNet impl sched init n) (sched n (schedNet impl sched init n))).2

/-- The events of that execution. -/
def schedEvent (impl : RoundImpl G R) (sched : Nat → Net G R → Option (ID × Op G)) (init : ID → State G R) (n : Nat) : Option (Event G) :=
  (perform impl (schedNet impl sched init n) (sched n (schedNet impl sched init n))).1

theorem roundRobin_allowed {n : Nat} {i : ID} {op : Op G} (h : roundRobin ids coins n N = some (i, op)) : i ∈ ids ∧ Allowed coins N i op := by
  unfold roundRobin at h
  split at h
  · cases h
  · rename_i j hj
    have hj := List.mem_of_getElem? hj
    split at h
    · obtain ⟨rfl, rfl⟩ := Prod.mk.inj (Option.some.inj h)
      exact ⟨hj, fun _ => rfl⟩
    · rw [Option.map_eq_some_iff] at h
      obtain ⟨m, hm, h⟩ := h
      obtain ⟨rfl, rfl⟩ := Prod.mk.inj h
      exact ⟨hj, List.mem_of_getElem? hm⟩

theorem sched_execution {sched : Nat → Net G R → Option (ID × Op G)}
    (ha : ∀ n i op, sched n (schedNet impl sched init n) = some (i, op) → i ∈ ids ∧ Allowed coins (schedNet impl sched init n) i op) :
    Execution impl ids coins init (schedEvent impl sched init) (schedNet impl sched init) where
  start := rfl
  rest n h := by
    unfold schedEvent at h
    show (perform impl _ _).2 = _
    cases hr : sched n (schedNet impl sched init n) with
    | none => rfl
    | some x =>
      obtain ⟨i, op⟩ := x
      rw [hr] at h
      simp only [perform] at h ⊢
      cases hs : State.step impl ((schedNet impl sched init n).state i) op with
      | none => rfl
      | some y => rw [hs] at h; cases h
  step n i op ret h := by
    unfold schedEvent at h
    cases hr : sched n (schedNet impl sched init n) with
    | none => rw [hr] at h; cases h
    | some x =>
      obtain ⟨j, op'⟩ := x
      rw [hr] at h
      simp only [perform] at h
      cases hs : State.step impl ((schedNet impl sched init n).state j) op' with
      | none => rw [hs] at h; cases h
      | some y =>
        rw [hs] at h
        obtain ⟨s, ret'⟩ := y
        simp only [Option.some.injEq, Prod.mk.injEq] at h
        obtain ⟨rfl, rfl, rfl⟩ := h
        obtain ⟨h1, h2⟩ := ha n _ _ hr
        refine ⟨h1, h2, s, hs, ?_⟩
        show (perform impl _ _).2 = _
        rw [hr]
        simp only [perform, hs]

theorem moment (a b n : Nat) : ∃ k, n ≤ k ∧ k.unpair.1.unpair = (a, b) :=
  ⟨Nat.pair (Nat.pair a b) n, Nat.right_le_pair _ _, by rw [Nat.unpair_pair, Nat.unpair_pair]⟩

/-- The list of messages sent only grows at its end. -/
theorem sent_index (E : Execution impl ids coins init event net) {j n k : Nat} {m : Message G} (hj : (net n).sent[j]? = some m) (hk : n ≤ k) :
    (net k).sent[j]? = some m := by
  induction k, hk using Nat.le_induction with
  | base => exact hj
  | succ k _ ih =>
    cases he : event k with
    | none => rw [E.rest k he]; exact ih
    | some x =>
      obtain ⟨i', op, ret⟩ := x
      obtain ⟨_, _, s, _, h4⟩ := E.step k i' op ret he
      rw [h4]
      show ((net k).sent ++ returned ret)[j]? = some m
      rw [List.getElem?_append_left (List.getElem?_eq_some_iff.mp ih).1]
      exact ih

theorem robin_processes {i : ID} (hi : i ∈ ids) (n : Nat) :
    ∃ k, n ≤ k ∧ ∀ N : Net G R, roundRobin ids coins k N = some (i, .processAll .insertion (coins i)) := by
  obtain ⟨a, ha⟩ := List.getElem?_of_mem hi
  obtain ⟨k, hk, hu⟩ := moment a 0 n
  refine ⟨k, hk, fun N => ?_⟩
  unfold roundRobin
  rw [hu]
  simp only [ha]

theorem robin_delivers (E : Execution impl ids coins init event net) {i : ID} (hi : i ∈ ids) {n : Nat} {m : Message G} (hm : m ∈ (net n).sent) (n' : Nat) :
    ∃ k, n' ≤ k ∧ roundRobin ids coins k (net k) = some (i, .handle m) := by
  obtain ⟨a, ha⟩ := List.getElem?_of_mem hi
  obtain ⟨j, hj⟩ := List.getElem?_of_mem hm
  obtain ⟨k, hk, hu⟩ := moment a (j + 1) (max n n')
  refine ⟨k, (le_max_right _ _).trans hk, ?_⟩
  unfold roundRobin
  rw [hu]
  simp only [ha, sent_index E hj ((le_max_left _ _).trans hk), Option.map_some]

theorem sched_event {sched : Nat → Net G R → Option (ID × Op G)} {n : Nat} {i : ID} {op : Op G} {s : State G R} {ret : Ret G}
    (h : sched n (schedNet impl sched init n) = some (i, op)) (hs : State.step impl ((schedNet impl sched init n).state i) op = some (s, ret)) :
    schedEvent impl sched init n = some (i, op, ret) := by
  unfold schedEvent
  rw [h]
  simp only [perform, hs]

theorem robin_execution (impl : RoundImpl G R) (ids : List ID) (coins : ID → Coins) (init : ID → State G R) :
    Execution impl ids coins init (schedEvent impl (roundRobin ids coins) init) (schedNet impl (roundRobin ids coins) init) :=
  sched_execution fun _ _ _ h => roundRobin_allowed h

/-- There are fair executions. -/
theorem robin_fair (H : Honest impl ids r₀ coins M out Good tys)
    (hN : ∀ n, NetInv impl ids r₀ out Good timeout now (schedNet impl (roundRobin ids coins) init n)) :
    Fair ids (schedEvent impl (roundRobin ids coins) init) (schedNet impl (roundRobin ids coins) init) where
  processes i hi n := by
    obtain ⟨k, hk, hr⟩ := robin_processes (R := R) (coins := coins) hi n
    obtain ⟨t, o, h1, _⟩ := (hN k).process H hi .insertion (coins i) (fun _ => rfl)
    exact ⟨k, hk, .insertion, coins i, o, sched_event (hr _) (s := t) (by simp [State.step, h1])⟩
  delivers i hi n m hm _ _ := by
    refine Or.inr fun n' => ?_
    obtain ⟨k, hk, hr⟩ := robin_delivers (robin_execution impl ids coins init) hi hm n'
    exact ⟨k, hk, _, sched_event hr rfl⟩

open Classical in
/-- Everything happens again and again, but the first message of `a` is handed over to `b` only once, before `b` has begun. -/
noncomputable def tooEarly (ids : List ID) (coins : ID → Coins) (a b : ID) (m : Message G) : Nat → Net G R → Option (ID × Op G)
  | 0, _ => some (a, .processAll .insertion (coins a))
  | 1, _ => some (b, .handle m)
  | n + 2, N => (roundRobin ids coins (n + 2) N).filter fun x => ¬ (x.1 = b ∧ x.2 = .handle m)

/-- A message handed over before the session has begun is refused, so when it is not handed over again, the session never ends. -/
theorem tooEarly_hangs (H : Honest impl ids r₀ coins M out Good tys)
    (hN : ∀ N, Path impl ids coins (Net.start init) N → NetInv impl ids r₀ out Good timeout now N) {a b : ID} (ha : a ∈ ids) (hb : b ∈ ids) (hab : a ≠ b) :
    ∃ event net, Execution impl ids coins init event net ∧
      (∀ i ∈ ids, ∀ n, ∃ k, n ≤ k ∧ ∃ ord c o, event k = some (i, .processAll ord c, .messages o)) ∧
      (∀ i ∈ ids, ∀ n, ∀ m ∈ (net n).sent, m.header.fromID ≠ i → m.header.toID = 0 ∨ m.header.toID = i → ∃ k e, event k = some (i, .handle m, .handled e)) ∧
      ∀ n, ((net n).state b).done = false := by
  let m₀ := M 1 a b
  let net := schedNet impl (tooEarly ids coins a b m₀) init
  obtain ⟨hmem, hto⟩ := H.out_mem a ha b hb (Ne.symm hab) 0 (by omega)
  obtain ⟨hfrom, hty, _⟩ := H.out_spec a ha 0 (by omega) _ hmem
  -- the first two steps
  have hN0 := hN _ (Path.refl (Net.start init))
  obtain ⟨t₀, o₀, hp0, _, hp1⟩ := hN0.process H ha .insertion (coins a) (fun _ => rfl)
  have hs0 : State.step impl ((net 0).state a) (.processAll .insertion (coins a)) = some (t₀, .messages o₀) := by
    show (processAll impl .insertion (coins a) ((Net.start init).state a)).map _ = _
    rw [hp0]
    rfl
  have hnet1 : net 1 = (Net.start init).after a (.processAll .insertion (coins a)) (.messages o₀) t₀ := by
    show (perform impl (net 0) (some (a, Op.processAll .insertion (coins a)))).2 = _
    simp only [perform, hs0]
    rfl
  have hstart : ∀ i ∈ ids, init i = newBaseState impl (r₀ i) (timeout i) (now i) := by
    intro i hi
    have aux : ∀ s₀ h s, Hist impl s₀ h s → h = [] → s = s₀ := by
      intro s₀ h s hh he
      cases hh with
      | nil => rfl
      | snoc => simp at he
    exact aux _ _ _ (hN0.hist i hi) rfl
  have hsent1 : m₀ ∈ (net 1).sent := by
    rw [hnet1]
    show m₀ ∈ [] ++ o₀
    rw [List.nil_append]
    have hda : ((Net.start init).state a).done = false := by show (init a).done = false; rw [hstart a ha]; rfl
    have hra : ((Net.start init).state a).roundNumber = 0 := by show (init a).roundNumber = 0; rw [hstart a ha]; rfl
    rcases hp1 with ⟨h1 | h1, _⟩ | ⟨_, h1, _⟩
    · rw [hda] at h1; cases h1
    · refine absurd ?_ h1
      refine full_of_keys (inv_hist H.stable (hN0.hist a ha)) (by rw [H.parties a ha]; exact H.nodup) (by rw [H.parties a ha, H.self a ha]; exact ha) ?_
      rw [H.parties a ha, H.self a ha]
      intro k hk
      rw [((inv_hist H.stable (hN0.hist a ha)).round0 hra hda).1, H.self a ha, H.parties a ha, mem_initReceived]
      exact Or.inr (mem_others.mp hk)
    · rw [h1, hra]; exact hmem
  have E : Execution impl ids coins init (schedEvent impl (tooEarly ids coins a b m₀) init) net := by
    refine sched_execution fun n i op h => ?_
    match n, h with
    | 0, h =>
      obtain ⟨rfl, rfl⟩ := Prod.mk.inj (Option.some.inj h)
      exact ⟨ha, fun _ => rfl⟩
    | 1, h =>
      obtain ⟨rfl, rfl⟩ := Prod.mk.inj (Option.some.inj h)
      exact ⟨hb, hsent1⟩
    | n + 2, h =>
      simp only [tooEarly, Option.filter_eq_some_iff] at h
      exact roundRobin_allowed h.1
  have hNn : ∀ n, NetInv impl ids r₀ out Good timeout now (net n) := fun n => hN _ (execution_path E n)
  refine ⟨_, net, E, ?_, ?_, ?_⟩
  · intro i hi n
    obtain ⟨k, hk, hr⟩ := robin_processes (R := R) (coins := coins) hi (n + 2)
    obtain ⟨t, o, h1, _⟩ := (hNn k).process H hi .insertion (coins i) (fun _ => rfl)
    refine ⟨k, by omega, .insertion, coins i, o, sched_event (s := t) ?_ (by
      show (processAll impl .insertion (coins i) ((net k).state i)).map _ = _
      rw [h1]; rfl)⟩
    obtain ⟨k, rfl⟩ : ∃ k', k = k' + 2 := ⟨k - 2, by omega⟩
    simp only [tooEarly, Option.filter_eq_some_iff]
    exact ⟨hr _, by simp⟩
  · intro i hi n m hm _ _
    by_cases him : i = b ∧ m = m₀
    · obtain ⟨rfl, rfl⟩ := him
      exact ⟨1, _, sched_event rfl rfl⟩
    · obtain ⟨k, hk, hr⟩ := robin_delivers E hi hm 2
      refine ⟨k, _, sched_event (op := .handle m) (i := i) ?_ rfl⟩
      obtain ⟨k, rfl⟩ : ∃ k', k = k' + 2 := ⟨k - 2, by omega⟩
      simp only [tooEarly]
      rw [show schedNet impl (tooEarly ids coins a b m₀) init (k + 2) = net (k + 2) from rfl, hr, Option.filter_eq_some_iff]
      refine ⟨rfl, ?_⟩
      simp only [Op.handle.injEq, decide_eq_true_eq]
      exact him
  · suffices h : ∀ n, ((net n).state b).done = false ∧ (((net n).state b).roundNumber = 0 ∨
        (((net n).state b).roundNumber = 1 ∧ a ∉ ((net n).state b).received.keys)) from fun n => (h n).1
    intro n
    induction n with
    | zero =>
      show (init b).done = false ∧ ((init b).roundNumber = 0 ∨ _)
      rw [hstart b hb]
      exact ⟨rfl, Or.inl rfl⟩
    | succ n ih =>
      cases he : schedEvent impl (tooEarly ids coins a b m₀) init n with
      | none => rw [E.rest n he]; exact ih
      | some x =>
        obtain ⟨i, op, ret⟩ := x
        obtain ⟨hi, hal, s, hs, hn⟩ := E.step n i op ret he
        rw [hn]
        refine update_mem (f := (net n).state) (i := i) (j := b)
          (P := fun t : State G R => t.done = false ∧ (t.roundNumber = 0 ∨ (t.roundNumber = 1 ∧ a ∉ t.received.keys))) (fun h => ?_) (fun _ => ih)
        subst h
        obtain ⟨hd, hrd⟩ := ih
        have hinv := inv_hist H.stable ((hNn n).hist b hb)
        rcases step_cases hs with ⟨m, e, rfl, rfl, h5⟩ | ⟨ord, c, o, rfl, rfl, h5⟩ | ⟨dt, rfl, rfl, rfl⟩ |
          ⟨rfl, rfl, rfl | ⟨t, _, _, rfl⟩⟩ | ⟨rfl, rfl, ⟨_, rfl⟩ | ⟨_, _, rfl⟩ | ⟨r, hfr, _⟩⟩
        · cases handle_cases _ h5 with
          | stored _ hrel _ hhead =>
            refine ⟨hd, hrd.imp id fun ⟨h1, h2⟩ => ⟨h1, fun hin => ?_⟩⟩
            rcases GoMap.mem_keys_set.mp hin with hin | hin
            swap
            · exact h2 hin
            -- `m` is the first message of `a`
            have hmm : m = m₀ := by
              obtain ⟨j, hj, n', hn', hm'⟩ := (hNn n).sentOnly m hal
              obtain ⟨g1, g2, g3⟩ := H.out_spec j hj n' hn' m hm'
              have hja : j = a := g1.symm.trans hin.symm
              subst hja
              rw [hinv.types, H.types b hb, show ((net n).state b).used = ((net n).state b).roundNumber by simp [used, hd], List.head?_drop, h1] at hhead
              have hn0 := index_inj H.tys_nodup hhead g2
              obtain rfl : n' = 0 := by omega
              rw [hinv.self, H.self b hb] at hrel
              exact g3 b hb (Ne.symm hab) hrel.2.1
            subst hmm
            -- and it is not handed over again
            match n, he, h1 with
            | 0, he, h1 =>
              have h1 : (init b).roundNumber = 1 := h1
              rw [hstart b hb] at h1
              cases h1
            | 1, he, h1 =>
              rw [hnet1] at h1
              simp only [Net.after, Function.update_of_ne (Ne.symm hab)] at h1
              have h1 : (init b).roundNumber = 1 := h1
              rw [hstart b hb] at h1
              cases h1
            | n + 2, he, _ =>
              unfold schedEvent at he
              cases hr : tooEarly ids coins a b m₀ (n + 2) (schedNet impl (tooEarly ids coins a b m₀) init (n + 2)) with
              | none => rw [hr] at he; cases he
              | some y =>
                obtain ⟨j, op⟩ := y
                rw [hr] at he
                simp only [perform] at he
                cases hs' : State.step impl ((schedNet impl (tooEarly ids coins a b m₀) init (n + 2)).state j) op with
                | none => rw [hs'] at he; cases he
                | some z =>
                  rw [hs'] at he
                  simp only [Option.some.injEq, Prod.mk.injEq] at he
                  obtain ⟨rfl, rfl, _⟩ := he
                  simp only [tooEarly, Option.filter_eq_some_iff] at hr
                  simp at hr
          | _ => exact ⟨hd, hrd⟩
        · have hnotfull : ((net n).state b).roundNumber = 1 → a ∉ ((net n).state b).received.keys → ¬ Full impl ((net n).state b) := by
            intro _ h2 hf
            obtain ⟨hk, _⟩ := (hNn n).stored H hb hd hf .insertion
            have := hk.mem_iff.mpr (mem_others.mpr ⟨ha, hab⟩)
            exact h2 this
          have hproc := (hNn n).process H hb ord c hal
          obtain ⟨t, o', h6, _, h7⟩ := hproc
          rw [(processAll_iff impl).mpr h5] at h6
          obtain ⟨rfl, rfl⟩ := Prod.mk.inj (Option.some.inj h6)
          rcases h7 with ⟨_, rfl, _⟩ | ⟨_, _, h7, h8⟩
          · exact ⟨hd, hrd⟩
          · cases h5 with
            | idle _ => exact ⟨hd, hrd⟩
            | next ty types r₁ r r' _ _ hf _ _ _ _ =>
              rcases hrd with hrd | ⟨h1, h2⟩
              · refine ⟨hd, Or.inr ⟨by show _ + 1 = 1; rw [hrd], ?_⟩⟩
                show a ∉ (movedReceived types ((net n).state b).queue).keys
                rw [(hinv.round0 hrd hd).2]
                cases types <;> simp [movedReceived, GoMap.keys]
              · exact absurd hf (hnotfull h1 h2)
            | _ =>
              rcases hrd with hrd | ⟨h1, h2⟩
              · rw [hrd] at h7; simp [prog] at h7
              · exact absurd ‹Full impl _› (hnotfull h1 h2)
        · exact ⟨hd, hrd⟩
        · exact ⟨hd, hrd⟩
        · exact ⟨hd, hrd⟩
        · exact ⟨hd, hrd⟩
        · exact ⟨hd, hrd⟩
        · rcases hal with hal | hal
          · exact absurd hal hfr
          · rw [hd] at hal; cases hal

end

end Verif.State
