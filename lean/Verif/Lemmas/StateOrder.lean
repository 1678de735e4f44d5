import Verif.Lemmas.Forward
import Verif.Lemmas.SignInv

/-!
Two runs of `ProcessAll` that differ in the order of deliveries and of map iteration.
-/

namespace Verif

namespace GoMap

variable {V : Type}

theorem set_comm {m : GoMap V} {k k' : ID} (v v' : V) (h : k ≠ k') (hk : k ∈ m.keys) (hk' : k' ∈ m.keys) :
    (m.set k v).set k' v' = (m.set k' v').set k v := by
  induction m with
  | nil => cases hk
  | cons a m ih =>
    obtain ⟨x, y⟩ := a
    simp only [keys, List.map_cons, List.mem_cons] at hk hk'
    by_cases h1 : x = k
    · have h2 : x ≠ k' := fun h2 => h (h1.symm.trans h2)
      simp [set, h1, h2, h, Ne.symm h]
    · by_cases h2 : x = k'
      · simp [set, h1, h2, h, Ne.symm h]
      · simp only [set, h1, h2, if_false]
        rw [ih (hk.resolve_left fun e => h1 e.symm) (hk'.resolve_left fun e => h2 e.symm)]

theorem ext_keys {m m' : GoMap V} (h : GoMap.WF m) (hk : GoMap.keys m = GoMap.keys m') (hg : ∀ k, m.get? k = m'.get? k) : m = m' := by
  induction m generalizing m' with
  | nil =>
    cases m' with
    | nil => rfl
    | cons a m' => simp [keys] at hk
  | cons a m ih =>
    cases m' with
    | nil => simp [keys] at hk
    | cons b m' =>
      obtain ⟨x, y⟩ := a
      obtain ⟨x', y'⟩ := b
      simp only [keys, List.map_cons, List.cons.injEq] at hk
      obtain ⟨rfl, hk⟩ := hk
      have h1 := hg x
      simp [get?] at h1
      subst h1
      simp only [WF, keys, List.map_cons, List.nodup_cons] at h
      rw [ih h.2 hk]
      intro k
      have h2 := hg k
      by_cases hkx : x = k
      · subst hkx
        have e1 : GoMap.get? m x = none := get?_eq_none.mpr h.1
        have e2 : GoMap.get? m' x = none := get?_eq_none.mpr (by unfold keys; rw [← hk]; exact h.1)
        rw [e1, e2]
      · simpa [get?, hkx] using h2

end GoMap

namespace State

variable {G R : Type} {impl : RoundImpl G R}

/-- Handing messages over one after the other. -/
def deliver (impl : RoundImpl G R) (s : State G R) (ms : List (Message G)) : State G R :=
  ms.foldl (fun s m => (handleMessage impl s m).1) s

theorem deliver_eq {t : MsgType} {ts : List MsgType} (ms : List (Message G)) {s : State G R} (hd : s.done = false)
    (ht : s.acceptedTypes = t :: ts)
    (hr : ∀ m ∈ ms, Relevant (impl.selfID s.round) (impl.partyIDs s.round) m ∧ m.header.type = t)
    (hnd : (ms.map fun m => m.header.fromID).Nodup) (hn : ∀ m ∈ ms, m.header.fromID ∉ s.received.keys) :
    deliver impl s ms = { s with timer := Timer.ackMessage^[ms.length] s.timer, received := s.received ++ ms.map fun m => (m.header.fromID, some m) } := by
  induction ms generalizing s with
  | nil => simp [deliver]
  | cons m ms ih =>
    have h1 := handle_stores hd ht (hr m List.mem_cons_self).1 (hn m List.mem_cons_self) (hr m List.mem_cons_self).2
    rw [GoMap.set_of_not_mem _ (hn m List.mem_cons_self)] at h1
    rw [List.map_cons, List.nodup_cons] at hnd
    have h2 := ih (s := { s with timer := s.timer.ackMessage, received := s.received ++ [(m.header.fromID, some m)] }) hd ht
      (fun m' hm' => hr m' (List.mem_cons_of_mem _ hm')) hnd.2 (by
        intro m' hm'
        simp only [GoMap.keys, List.map_append, List.map_cons, List.map_nil, List.mem_append, List.mem_singleton, not_or]
        refine ⟨hn m' (List.mem_cons_of_mem _ hm'), ?_⟩
        intro he
        exact hnd.1 (List.mem_map.mpr ⟨m', hm', he⟩))
    unfold deliver at h2 ⊢
    rw [List.foldl_cons, h1]
    simp only []
    rw [h2]
    simp [Function.iterate_succ_apply]

/-- Two states equal but for the order of the stored messages and, in the round object, up to `E`. -/
structure Alike (E : R → R → Prop) (s s' : State G R) : Prop where
  rest : s' = { s with received := s'.received, round := s'.round }
  received : s.received.Perm s'.received
  round : E s.round s'.round

/-- `E` relates round objects that behave in the same way. -/
structure Congr (impl : RoundImpl G R) (E : R → R → Prop) : Prop where
  ids : ∀ r r', E r r' → impl.partyIDs r = impl.partyIDs r'
  nextNone : ∀ r r', E r r' → impl.nextRound r = none → impl.nextRound r' = none
  next : ∀ r r' a, E r r' → impl.nextRound r = some a → ∃ b, impl.nextRound r' = some b ∧ E a b
  reset : ∀ r r' a, E r r' → impl.reset r = some a → ∃ b, impl.reset r' = some b ∧ E a b

theorem processAll_alike {E : R → R → Prop} (hE : Congr impl E) {s s' : State G R} (ha : Alike E s s')
    {ord ord' : MapOrder} {coins : Coins}
    (hcore : s.done = false → Full impl s → ∀ r₁ r₂ out, processLoop impl (ord.order _ s.received) s.round = .ok r₁ →
      impl.generateMessages ord coins r₁ = .ok (r₂, out) → ∃ r₁' r₂', processLoop impl (ord'.order _ s'.received) s'.round = .ok r₁' ∧
        impl.generateMessages ord' coins r₁' = .ok (r₂', out) ∧ E r₂ r₂')
    {t : State G R} {out : List (Message G)} (h : processAll impl ord coins s = some (t, out)) (he : t.err = none) :
    ∃ t', processAll impl ord' coins s' = some (t', out) ∧ Alike E t t' := by
  have hids := hE.ids _ _ ha.round
  obtain ⟨h1, h2, h3⟩ := ha
  obtain ⟨rec', hrec⟩ : ∃ x, x = s'.received := ⟨_, rfl⟩
  obtain ⟨rnd', hrnd⟩ : ∃ x, x = s'.round := ⟨_, rfl⟩
  rw [← hrec, ← hrnd] at h1
  subst h1
  have hfull : Full impl s → Full impl { s with received := rec', round := rnd' } := by
    intro hf
    show rec'.length = (IDSlice.N (impl.partyIDs rnd') - 1).toNat
    rw [← show impl.partyIDs s.round = impl.partyIDs rnd' from hids, ← show s.received.length = rec'.length from h2.length_eq]
    exact hf
  have hfull' : Full impl { s with received := rec', round := rnd' } → Full impl s := by
    intro hf
    show s.received.length = (IDSlice.N (impl.partyIDs s.round) - 1).toNat
    rw [show impl.partyIDs s.round = impl.partyIDs rnd' from hids, show s.received.length = rec'.length from h2.length_eq]
    exact hf
  have hcases := (processAll_iff impl).mp h
  cases hcases with
  | idle hi =>
    refine ⟨_, (processAll_iff impl).mpr (.idle ?_), ⟨rfl, h2, h3⟩⟩
    rcases hi with hi | hi
    · exact Or.inl hi
    · exact Or.inr fun hf => hi (hfull' hf)
  | processErr => cases he
  | generateErr => cases he
  | last ty types r₁ r r' _ hd hf hpl hg ht hn hr hc =>
    obtain ⟨r₁', r₂', g1, g2, g3⟩ := hcore hd hf r₁ r out hpl hg
    obtain ⟨b, g4, g5⟩ := hE.reset _ _ _ g3 hr
    exact ⟨_, (processAll_iff impl).mpr (.last (s := { s with received := rec', round := rnd' }) ty types r₁' r₂' b out hd (hfull hf) g1 g2 ht (hE.nextNone _ _ g3 hn) g4 hc),
      ⟨rfl, List.Perm.refl _, g5⟩⟩
  | next ty types r₁ r r' _ hd hf hpl hg ht hn =>
    obtain ⟨r₁', r₂', g1, g2, g3⟩ := hcore hd hf r₁ r out hpl hg
    obtain ⟨b, g4, g5⟩ := hE.next _ _ _ g3 hn
    exact ⟨_, (processAll_iff impl).mpr (.next (s := { s with received := rec', round := rnd' }) ty types r₁' r₂' b out hd (hfull hf) g1 g2 ht g4),
      ⟨rfl, List.Perm.refl _, g5⟩⟩

end State

namespace Keygen

open State Outcome

variable {G : Type} [RGroup G] {sha : Sha512}

/-- Equal but for the order of the entries in the map of commitments. -/
def Same (r r' : Round G) : Prop := r' = { r with commitments := r'.commitments } ∧ ∀ k, r.commitments.get? k = r'.commitments.get? k

theorem Same.refl (r : Round G) : Same r r := ⟨rfl, fun _ => rfl⟩

theorem get?_map_reset (m : GoMap (Exponent G)) (k : ID) :
    GoMap.get? (m.map fun (id, e) => (id, Exponent.reset e)) k = (m.get? k).map Exponent.reset := by
  induction m with
  | nil => rfl
  | cons a m ih =>
    obtain ⟨x, y⟩ := a
    by_cases h : x = k
    · simp [GoMap.get?, h]
    · simp [GoMap.get?, h, ih]

theorem congr_same (sha : Sha512) : Congr (impl sha) (Same (G := G)) where
  ids r r' h := by show r.partyIDs = r'.partyIDs; rw [h.1]
  nextNone r r' h hn := by
    simp only [impl] at hn ⊢
    have hst : r'.stage = r.stage := by rw [h.1]
    rw [hst]
    cases hs : r.stage <;> rw [hs] at hn <;> simp at hn ⊢
  next r r' a h hn := by
    simp only [impl] at hn ⊢
    have hst : r'.stage = r.stage := by rw [h.1]
    rw [hst]
    cases hs : r.stage <;> rw [hs] at hn <;> simp only [Option.some.injEq, reduceCtorEq] at hn ⊢
    · subst hn; exact ⟨_, rfl, by rw [h.1], h.2⟩
    · subst hn; exact ⟨_, rfl, by rw [h.1], h.2⟩
  reset r r' a h hr := by
    obtain ⟨p, c, h1, h2, rfl⟩ := reset_eq.mp (show reset r = some a from hr)
    have e1 : r'.polynomial = some p := by rw [h.1]; exact h1
    have e2 : r'.commitmentsSum = some c := by rw [h.1]; exact h2
    refine ⟨_, reset_eq.mpr ⟨p, c, e1, e2, rfl⟩, by rw [h.1], ?_⟩
    intro k
    simp only []
    rw [get?_map_reset, get?_map_reset, h.2]

theorem find?_perm {W : Type} {l l' : List (ID × W)} (h : l.Perm l') (hnd : (l.map Prod.fst).Nodup) (k : ID) :
    l.find? (fun e => e.1 = k) = l'.find? (fun e => e.1 = k) := by
  have hnd' : (l'.map Prod.fst).Nodup := (h.map _).nodup_iff.mp hnd
  by_cases hk : k ∈ l.map Prod.fst
  · obtain ⟨⟨k', w⟩, h1, rfl⟩ := List.mem_map.mp hk
    rw [find?_of_mem hnd h1, find?_of_mem hnd' (h.mem_iff.mp h1)]
  · rw [find?_of_not_mem hk, find?_of_not_mem (fun h' => hk ((h.map _).mem_iff.mpr h'))]

theorem gen0 {ord : MapOrder} {coins : Coins} {r r' : Round G} {out : List (Message G)} (hs : r.stage = .r0)
    (h : generate0 sha coins r = .ok (r', out)) : (impl sha).generateMessages ord coins r = .ok (r', out) := by
  simp only [impl, hs]; exact h

theorem gen1 {ord : MapOrder} {coins : Coins} {r r' : Round G} {out : List (Message G)} (hs : r.stage = .r1)
    (h : generate1 r = .ok (r', out)) : (impl sha).generateMessages ord coins r = .ok (r', out) := by
  simp only [impl, hs]; exact h

theorem gen2 {ord : MapOrder} {coins : Coins} {r r' : Round G} {out : List (Message G)} (hs : r.stage = .r2)
    (h : generate2 r = .ok (r', out)) : (impl sha).generateMessages ord coins r = .ok (r', out) := by
  simp only [impl, hs]; exact h

/-- The messages of a round in two orders. -/
theorem core {r r' : Round G} {l l' : List (ID × Option (Message G))} {ord ord' : MapOrder} {coins : Coins} (hsame : Same r r')
    (hperm : l.Perm l') (hl : r.stage ≠ .r0 → ∀ k v, (k, v) ∈ l → ∃ m, v = some m ∧ m.header.fromID = k)
    (hnd : (l.map Prod.fst).Nodup) (hsum : r.stage = .r1 → r.commitmentsSum ≠ none) (h0 : r.stage = .r2 → r.selfID ≠ 0)
    {r₁ r₂ : Round G} {out : List (Message G)} (h1 : processLoop (impl sha) l r = .ok r₁)
    (h2 : (impl sha).generateMessages ord coins r₁ = .ok (r₂, out)) :
    ∃ r₁' r₂', processLoop (impl sha) l' r' = .ok r₁' ∧ (impl sha).generateMessages ord' coins r₁' = .ok (r₂', out) ∧ Same r₂ r₂' := by
  obtain ⟨hr', hget⟩ := hsame
  obtain ⟨cm, hcm⟩ : ∃ x, x = r'.commitments := ⟨_, rfl⟩
  rw [← hcm] at hr' hget
  clear hcm
  subst hr'
  have hl' : r.stage ≠ .r0 → ∀ k v, (k, v) ∈ l' → ∃ m, v = some m ∧ m.header.fromID = k :=
    fun hr k v hk => hl hr k v (hperm.mem_iff.mpr hk)
  have hcases : r.stage = .r0 ∨ r.stage = .r1 ∨ r.stage = .r2 := by cases r.stage <;> simp
  rcases hcases with hs | hs | hs
  · rw [loop0 hs] at h1
    cases h1
    simp only [impl, hs] at h2
    obtain ⟨h3, h4, rfl, rfl⟩ := generate0_ok.mp h2
    exact ⟨_, _, loop0 hs, gen0 hs (generate0_ok.mpr ⟨h3, h4, rfl, rfl⟩), rfl, hget⟩
  · obtain ⟨sum, hsum⟩ := Option.ne_none_iff_exists'.mp (hsum hs)
    have hl := hl (by simp [hs])
    have hl' := hl' (by simp [hs])
    obtain ⟨hv, rfl⟩ := (loop1 hs hsum hl).mp h1
    simp only [impl, hs] at h2
    obtain ⟨poly, h3, h4, rfl, rfl⟩ := generate1_ok.mp h2
    have hloop := (loop1 (r := { r with commitments := cm }) (sha := sha) hs hsum hl').mpr ⟨fun k v hk => hv k v (hperm.mem_iff.mpr hk), rfl⟩
    refine ⟨_, _, hloop, gen1 hs (generate1_ok.mpr ⟨poly, h3, h4, rfl, rfl⟩), ?_, ?_⟩
    · simp only []
      rw [← foldl_addOrKeep_perm (fun e : ID × Option (Message G) => commOf e.2) hperm sum, hs]
    · intro k
      simp only []
      rw [get?_foldl_set commOf l _ hnd, get?_foldl_set commOf l' _ ((hperm.map _).nodup_iff.mp hnd), find?_perm hperm hnd, hget]
  · have hl := hl (by simp [hs])
    have hl' := hl' (by simp [hs])
    obtain ⟨hv, rfl⟩ := (loop2 hs (h0 hs) hl).mp h1
    simp only [impl, hs] at h2
    obtain ⟨sum, shares, gk, g1, g2, g3, g4, g5, rfl, rfl⟩ := generate2_ok.mp h2
    have hloop := (loop2 (r := { r with commitments := cm }) (sha := sha) hs (h0 hs) hl').mpr ⟨fun k v hk => by
      obtain ⟨m, kg, c, a1, a2, a3, a4⟩ := hv k v (hperm.mem_iff.mpr hk)
      exact ⟨m, kg, c, a1, a2, by rw [← hget]; exact a3, a4⟩, rfl⟩
    refine ⟨_, _, hloop, gen2 hs (generate2_ok.mpr ⟨sum, shares, gk, g1, g2, g3, g4, g5, rfl, rfl⟩), ?_, hget⟩
    simp only []
    rw [← (hperm.map fun e : ID × Option (Message G) => shareOf e.2).sum_eq, hs]

end Keygen

namespace Sign

open State Outcome

variable {G : Type} [RGroup G] {sha : Sha512}

theorem congr_eq {R : Type} (impl : RoundImpl G R) : Congr impl (Eq : R → R → Prop) where
  ids := by rintro r _ rfl; rfl
  nextNone := by rintro r _ rfl h; exact h
  next := by rintro r _ a rfl h; exact ⟨a, h, rfl⟩
  reset := by rintro r _ a rfl h; exact ⟨a, h, rfl⟩

theorem process_swap {r r₁ r₂ : Round G} {m m' : Message G} (hne : m.header.fromID ≠ m'.header.fromID)
    (h1 : (impl sha).processMessage r (some m) = .ok r₁) (h2 : (impl sha).processMessage r₁ (some m') = .ok r₂) :
    ∃ r₁', (impl sha).processMessage r (some m') = .ok r₁' ∧ (impl sha).processMessage r₁' (some m) = .ok r₂ := by
  simp only [impl] at h1 h2 ⊢
  cases hs : r.stage with
  | r0 =>
    rw [hs] at h1
    cases h1
    rw [hs] at h2
    cases h2
    exact ⟨r, rfl, by rw [hs]⟩
  | r1 =>
    rw [hs] at h1
    obtain ⟨x, k, p, e1, h3, h4, h5, h6, rfl⟩ := process1_ok.mp h1
    cases e1
    rw [show ({ r with parties := r.parties.set m.header.fromID { p with Di := some k.Di, Ei := some k.Ei } } : Round G).stage = .r1 from hs] at h2
    obtain ⟨x, k', p', e1, g3, g4, g5, g6, rfl⟩ := process1_ok.mp h2
    cases e1
    simp only [] at g6
    rw [GoMap.get?_set_ne _ _ (Ne.symm hne)] at g6
    refine ⟨_, process1_ok.mpr ⟨m', k', p', rfl, g3, g4, g5, g6, rfl⟩, ?_⟩
    simp only [hs]
    refine process1_ok.mpr ⟨m, k, p, rfl, h3, h4, h5, ?_, ?_⟩
    · simp only []
      rw [GoMap.get?_set_ne _ _ hne]
      exact h6
    · simp only []
      rw [GoMap.set_comm _ _ hne (GoMap.mem_keys_iff.mpr ⟨_, h6⟩) (GoMap.mem_keys_iff.mpr ⟨_, g6⟩)]
  | r2 =>
    rw [hs] at h1
    obtain ⟨x, k, p, Ri, e1, h6, h3, h4, h5, rfl⟩ := process2_ok.mp h1
    cases e1
    rw [show ({ r with parties := r.parties.set m.header.fromID { p with Zi := k.Zi } } : Round G).stage = .r2 from hs] at h2
    obtain ⟨x, k', p', Ri', e1, g6, g3, g4, g5, rfl⟩ := process2_ok.mp h2
    cases e1
    simp only [] at g6
    rw [GoMap.get?_set_ne _ _ (Ne.symm hne)] at g6
    refine ⟨_, process2_ok.mpr ⟨m', k', p', Ri', rfl, g6, g3, g4, g5, rfl⟩, ?_⟩
    simp only [hs]
    refine process2_ok.mpr ⟨m, k, p, Ri, rfl, ?_, h3, h4, h5, ?_⟩
    · simp only []
      rw [GoMap.get?_set_ne _ _ hne]
      exact h6
    · simp only []
      rw [GoMap.set_comm _ _ hne (GoMap.mem_keys_iff.mpr ⟨_, h6⟩) (GoMap.mem_keys_iff.mpr ⟨_, g6⟩)]

theorem loop_cons {R : Type} {impl : RoundImpl G R} {a : ID × Option (Message G)} {l : List (ID × Option (Message G))} {r r' : R} :
    processLoop impl (a :: l) r = .ok r' ↔ ∃ r₁, impl.processMessage r a.2 = .ok r₁ ∧ processLoop impl l r₁ = .ok r' := by
  obtain ⟨k, v⟩ := a
  conv_lhs => unfold processLoop
  cases h : impl.processMessage r v <;> simp

theorem loop_perm {l l' : List (ID × Option (Message G))} (hperm : l.Perm l')
    (hl : ∀ k v, (k, v) ∈ l → ∃ m, v = some m ∧ m.header.fromID = k) (hnd : (l.map Prod.fst).Nodup) {r r' : Round G}
    (h : processLoop (impl sha) l r = .ok r') : processLoop (impl sha) l' r = .ok r' := by
  induction hperm generalizing r with
  | nil => exact h
  | cons a _ ih =>
    rw [loop_cons] at h ⊢
    obtain ⟨r₁, h1, h2⟩ := h
    rw [List.map_cons, List.nodup_cons] at hnd
    exact ⟨r₁, h1, ih (fun k v hk => hl k v (List.mem_cons_of_mem _ hk)) hnd.2 h2⟩
  | swap a b l =>
    rw [loop_cons] at h
    obtain ⟨r₁, h1, h2⟩ := h
    rw [loop_cons] at h2
    obtain ⟨r₂, h2, h3⟩ := h2
    obtain ⟨kb, vb⟩ := b
    obtain ⟨ka, va⟩ := a
    obtain ⟨mb, rfl, hb⟩ := hl kb vb List.mem_cons_self
    obtain ⟨ma, rfl, ha⟩ := hl ka va (List.mem_cons_of_mem _ List.mem_cons_self)
    simp only [List.map_cons, List.nodup_cons, List.mem_cons, not_or] at hnd
    obtain ⟨r₁', h4, h5⟩ := process_swap (by rw [ha, hb]; exact hnd.1.1) h1 h2
    rw [loop_cons]
    refine ⟨r₁', h4, ?_⟩
    rw [loop_cons]
    exact ⟨r₂, h5, h3⟩
  | trans h1 _ ih1 ih2 =>
    exact ih2 (fun k v hk => hl k v (h1.mem_iff.mpr hk)) ((h1.map _).nodup_iff.mp hnd) (ih1 hl hnd h)

theorem nonceLoop_ok {l : List (ID × Signer G)} {parties parties' : GoMap (Signer G)} {R R' : G} :
    nonceLoop l parties R = .ok (parties', R') ↔ (∀ e ∈ l, e.2.Ei.isSome ∧ e.2.Di.isSome) ∧
      parties' = l.foldl (fun a e => a.set e.1 { e.2 with Ri := some (e.2.Pi • e.2.Ei.getD 0 + e.2.Di.getD 0) }) parties ∧
      R' = R + (l.map fun e => e.2.Pi • e.2.Ei.getD 0 + e.2.Di.getD 0).sum := by
  induction l generalizing parties R with
  | nil =>
    simp only [nonceLoop, Outcome.ok.injEq, Prod.mk.injEq, List.not_mem_nil, false_imp_iff, implies_true, true_and, List.foldl_nil,
      List.map_nil, List.sum_nil, add_zero]
    exact ⟨fun h => ⟨h.1.symm, h.2.symm⟩, fun h => ⟨h.1.symm, h.2.symm⟩⟩
  | cons a l ih =>
    obtain ⟨id, pub, Di, Ei, Ri, Pi, Zi⟩ := a
    rw [List.foldl_cons, List.map_cons, List.sum_cons, ← add_assoc, List.forall_mem_cons]
    unfold nonceLoop
    cases Ei with
    | none => simp
    | some E =>
      cases Di with
      | none => simp
      | some D =>
        simp only [deref_some, ok_bind, Option.isSome_some, and_self, true_and, Option.getD_some]
        exact ih

theorem keys_foldl_set {V W : Type} (f : W → V) (l : List (ID × W)) (m : GoMap V) (h : ∀ e ∈ l, e.1 ∈ m.keys) :
    GoMap.keys (l.foldl (fun a e => a.set e.1 (f e.2)) m) = m.keys := by
  induction l generalizing m with
  | nil => rfl
  | cons a l ih =>
    have h1 := GoMap.keys_set_of_mem (f a.2) (h a List.mem_cons_self)
    rw [List.foldl_cons, ih _ (fun e he => by rw [h1]; exact h e (List.mem_cons_of_mem _ he)), h1]

theorem nonceLoop_perm {ps : GoMap (Signer G)} (hwf : ps.WF) {l l' : List (ID × Signer G)} (h1 : l.Perm ps) (h2 : l'.Perm ps)
    {x : GoMap (Signer G) × G} {R : G} (h : nonceLoop l ps R = .ok x) : nonceLoop l' ps R = .ok x := by
  obtain ⟨ps', R'⟩ := x
  obtain ⟨g1, rfl, rfl⟩ := nonceLoop_ok.mp h
  have hp : l.Perm l' := h1.trans h2.symm
  have hnd : (l.map Prod.fst).Nodup := (h1.map _).nodup_iff.mpr hwf
  have hnd' : (l'.map Prod.fst).Nodup := (h2.map _).nodup_iff.mpr hwf
  have hmem : ∀ {l : List (ID × Signer G)}, l.Perm ps → ∀ e ∈ l, e.1 ∈ ps.keys :=
    fun hl e he => List.mem_map.mpr ⟨e, hl.mem_iff.mp he, rfl⟩
  let f : Signer G → Signer G := fun p => { p with Ri := some (p.Pi • p.Ei.getD 0 + p.Di.getD 0) }
  have k1 := keys_foldl_set f l ps (hmem h1)
  have k2 := keys_foldl_set f l' ps (hmem h2)
  refine nonceLoop_ok.mpr ⟨fun e he => g1 e (hp.mem_iff.mpr he), ?_, by rw [(hp.map _).sum_eq]⟩
  refine GoMap.ext_keys (wf_of_keys k1 hwf) (k1.trans k2.symm) fun k => ?_
  have e1 := Keygen.get?_foldl_set f l ps hnd k
  have e2 := Keygen.get?_foldl_set f l' ps hnd' k
  rw [← Keygen.find?_perm hp hnd k] at e2
  exact e1.trans e2.symm

theorem keys_rhoLoop {sha : Sha512} {ids : List ID} {buffer : Bytes} {ps ps' : GoMap (Signer G)} (h : rhoLoop sha ids buffer ps = .ok ps') :
    ps'.keys = ps.keys := by
  induction ids generalizing buffer ps with
  | nil => cases h; rfl
  | cons id ids ih =>
    unfold rhoLoop at h
    simp only [bind_eq_ok, deref_eq_ok] at h
    obtain ⟨p, h1, h2⟩ := h
    rw [ih h2, GoMap.keys_set_of_mem _ (GoMap.mem_keys_iff.mpr ⟨_, h1⟩)]

theorem keys_computeRhos {sha : Sha512} {r : Round G} {ps : GoMap (Signer G)} (h : computeRhos sha r = .ok ps) : ps.keys = r.parties.keys := by
  unfold computeRhos at h
  simp only [bind_eq_ok] at h
  obtain ⟨b, _, h⟩ := h
  exact keys_rhoLoop h

theorem generate1_order {ord ord' : MapOrder} {r : Round G} (hwf : r.parties.WF) {x : Round G × List (Message G)}
    (h : generate1 sha ord r = .ok x) : generate1 sha ord' r = .ok x := by
  unfold generate1 at h ⊢
  cases h1 : computeRhos sha r with
  | panic => rw [h1] at h; cases h
  | err e => rw [h1] at h; cases h
  | ok ps =>
    rw [h1] at h
    simp only [] at h ⊢
    cases h2 : nonceLoop (ord.order _ ps) ps 0 with
    | panic => rw [h2] at h; cases h
    | err e => rw [h2] at h; cases h
    | ok y =>
      rw [h2] at h
      rw [nonceLoop_perm (wf_of_keys (keys_computeRhos h1) hwf) (ord.perm _ ps) (ord'.perm _ ps) h2]
      exact h

/-- The messages of a round in two orders. -/
theorem core {r : Round G} {l l' : List (ID × Option (Message G))} {ord ord' : MapOrder} {coins : Coins}
    (hperm : l.Perm l') (hl : r.stage ≠ .r0 → ∀ k v, (k, v) ∈ l → ∃ m, v = some m ∧ m.header.fromID = k)
    (hnd : (l.map Prod.fst).Nodup) (hwf : r.stage = .r1 → r.parties.WF)
    {r₁ r₂ : Round G} {out : List (Message G)} (h1 : processLoop (impl sha) l r = .ok r₁)
    (h2 : (impl sha).generateMessages ord coins r₁ = .ok (r₂, out)) :
    ∃ r₁' r₂', processLoop (impl sha) l' r = .ok r₁' ∧ (impl sha).generateMessages ord' coins r₁' = .ok (r₂', out) ∧ r₂ = r₂' := by
  have hcases : r.stage = .r0 ∨ r.stage = .r1 ∨ r.stage = .r2 := by cases r.stage <;> simp
  rcases hcases with hs | hs | hs
  · rw [loop0 hs] at h1
    cases h1
    refine ⟨r, r₂, loop0 hs, ?_, rfl⟩
    simp only [impl, hs] at h2 ⊢
    exact h2
  · have hl := hl (by simp [hs])
    obtain ⟨_, g2, g3, _⟩ := loop1 (sha := sha) hs hl hnd h1
    refine ⟨r₁, r₂, loop_perm hperm hl hnd h1, ?_, rfl⟩
    have hs1 : r₁.stage = .r1 := by rw [g2]; exact hs
    simp only [impl, hs1] at h2 ⊢
    exact generate1_order (wf_of_keys g3 (hwf hs)) h2
  · have hl := hl (by simp [hs])
    obtain ⟨_, g2, g3, _⟩ := loop2 (sha := sha) hs hl hnd h1
    refine ⟨r₁, r₂, loop_perm hperm hl hnd h1, ?_, rfl⟩
    have hs1 : r₁.stage = .r2 := by rw [g2]; exact hs
    simp only [impl, hs1] at h2 ⊢
    rw [generate2_eq] at h2 ⊢
    exact h2

end Sign

end Verif
