import Verif.Props.Alias
import Verif.Props.Keygen

/-!
C94 for the list of parties: a session keeps the list of its caller.
-/

namespace Verif.Props

open Verif State Outcome

variable {G : Type} [RGroup G] {sha : Sha512}

theorem step_stable {R : Type} {impl : RoundImpl G R} (hst : impl.Stable) {s s' : State G R} {op : Op G} {ret : Ret G}
    (h : step impl s op = some (s', ret)) : impl.selfID s'.round = impl.selfID s.round ∧ impl.partyIDs s'.round = impl.partyIDs s.round := by
  rcases step_cases h with ⟨msg, e, rfl, rfl, h5⟩ | ⟨ord, coins, out, rfl, rfl, h5⟩ | ⟨dt, rfl, rfl, rfl⟩ |
    ⟨rfl, rfl, rfl | ⟨t, ht, hle, rfl⟩⟩ | ⟨rfl, rfl, ⟨hf, rfl⟩ | ⟨_, hd', rfl⟩ | ⟨r, hf, hd', hc, hr, rfl⟩⟩
  · cases handle_cases impl h5 <;> exact ⟨rfl, rfl⟩
  · cases h5 with
    | idle => exact ⟨rfl, rfl⟩
    | processErr e r r' _ hf hp hr hc =>
      exact stable_trans ((processLoop_stable hst).2 _ _ hp) (hst.reset _ _ hr)
    | generateErr e r₁ r r' _ hf hp hge hr hc =>
      exact stable_trans ((processLoop_stable hst).1 _ hp) (stable_trans (hst.generateErr _ _ _ _ _ hge) (hst.reset _ _ hr))
    | last t types r₁ r r' out _ hf hp hge ht hnx hr hc =>
      exact stable_trans ((processLoop_stable hst).1 _ hp) (stable_trans (hst.generate _ _ _ _ _ hge) (hst.reset _ _ hr))
    | next t types r₁ r r' out _ hf hp hge ht hnx =>
      exact stable_trans ((processLoop_stable hst).1 _ hp) (stable_trans (hst.generate _ _ _ _ _ hge) (hst.next _ _ hnx))
  all_goals first | exact ⟨rfl, rfl⟩ | exact hst.reset _ _ hr

theorem step_shut {R : Type} {impl : RoundImpl G R} {s s' : State G R} {op : Op G} {ret : Ret G} (hd : s.done = true)
    (h : step impl s op = some (s', ret)) : s'.done = true ∧ s'.round = s.round ∧ s'.err = s.err := by
  rcases step_cases h with ⟨msg, e, rfl, rfl, h5⟩ | ⟨ord, coins, out, rfl, rfl, h5⟩ | ⟨dt, rfl, rfl, rfl⟩ |
    ⟨rfl, rfl, rfl | ⟨t, ht, hle, rfl⟩⟩ | ⟨rfl, rfl, ⟨hf, rfl⟩ | ⟨_, hd', rfl⟩ | ⟨r, hf, hd', hc, hr, rfl⟩⟩
  · cases handle_cases impl h5 <;> exact ⟨hd, rfl, rfl⟩
  · cases h5 with
    | idle => exact ⟨hd, rfl, rfl⟩
    | _ => simp_all
  all_goals first | exact ⟨hd, rfl, rfl⟩ | (rw [hd] at hd'; cases hd')

theorem step_noErr {R : Type} {impl : RoundImpl G R} {s s' : State G R} {op : Op G} {ret : Ret G} (h : step impl s op = some (s', ret))
    (hd : s'.done = false) : s'.err = s.err := by
  rcases step_cases h with ⟨msg, e, rfl, rfl, h5⟩ | ⟨ord, coins, out, rfl, rfl, h5⟩ | ⟨dt, rfl, rfl, rfl⟩ |
    ⟨rfl, rfl, rfl | ⟨t, ht, hle, rfl⟩⟩ | ⟨rfl, rfl, ⟨hf, rfl⟩ | ⟨_, hd', rfl⟩ | ⟨r, hf, hd', hc, hr, rfl⟩⟩
  · cases handle_cases impl h5 <;> rfl
  · cases h5 with
    | idle => rfl
    | next => rfl
    | _ => cases hd
  all_goals first | rfl | cases hd

/-! ### Key generation -/

section

open Keygen

/-- The list in the round is the one in the memory. -/
theorem keygen_sees {me : ID} {ids : IDSlice} {s₀ s : State G (Keygen.Round G)} (h1 : s₀.round.selfID = me) (h2 : s₀.round.partyIDs = ids)
    {h : List (Act G (List ID) × Ret G)} (hh : Acts (Keygen.impl sha) Keygen.seeIDs s₀ h s) :
    s.round.selfID = me ∧ s.round.partyIDs = Spec.contents ids h := by
  induction hh with
  | nil => exact ⟨h1, h2⟩
  | snoc _ hs ih =>
    rename_i h s₁ s₂ a ret _
    rw [contents_snoc]
    cases a with
    | op o =>
      obtain ⟨g1, g2⟩ := step_stable (Keygen.impl_stable sha) (show step (Keygen.impl sha) s₁ o = some (s₂, ret) from hs)
      exact ⟨g1.trans ih.1, g2.trans ih.2⟩
    | write w =>
      obtain ⟨rfl, rfl⟩ := Prod.mk.inj (Option.some.inj hs)
      exact ⟨ih.1, rfl⟩

theorem keygen_new {me : ID} {ids : IDSlice} {t : UInt16} {timeout now : Nat} {s₀ : State G (Keygen.Round G)}
    (h₀ : newKeygenState sha me ids t timeout now = .ok s₀) :
    s₀ = newBaseState (Keygen.impl sha) { stage := .r0, selfID := me, partyIDs := ids, threshold := t, secret := 0, polynomial := none, commitmentsSum := none, commitments := [], hasOutput := true, output := {} } timeout now ∧
      me ∈ ids := by
  obtain ⟨r₀, h1, rfl⟩ := newKeygenState_ok.mp h₀
  unfold newRound newBaseRound at h1
  simp only [bind_eq_ok, failIf_eq_ok, pure_def, Outcome.ok.injEq] at h1
  obtain ⟨_, _, _, _, _, h3, rfl⟩ := h1
  exact ⟨rfl, IDSlice.contains_sound (by simpa using h3)⟩

theorem keygen_process_fields {r r' : Keygen.Round G} {msg : Option (Message G)} (h : (Keygen.impl sha).processMessage r msg = .ok r') :
    r'.stage = r.stage ∧ r'.output = r.output := by
  simp only [Keygen.impl] at h
  split at h
  · cases h; exact ⟨rfl, rfl⟩
  · obtain ⟨_, _, _, _, _, _, _, _, _, rfl⟩ := Keygen.process1_ok.mp h; exact ⟨rfl, rfl⟩
  · obtain ⟨_, _, _, _, _, _, _, _, rfl⟩ := Keygen.process2_ok.mp h; exact ⟨rfl, rfl⟩

theorem keygen_processErr_fields {r r' : Keygen.Round G} {msg : Option (Message G)} {e : StateErr}
    (h : (Keygen.impl sha).processMessage r msg = .err (e, r')) : r' = r := by
  simp only [Keygen.impl] at h
  split at h
  · cases h
  · obtain ⟨_, _, _, _, _, _, _, _, rfl⟩ := Keygen.process1_err.mp h; rfl
  · obtain ⟨_, _, _, _, _, _, _, _, _, rfl⟩ := Keygen.process2_err.mp h; rfl

theorem keygen_loop_fields {l : List (ID × Option (Message G))} {r : Keygen.Round G} :
    (∀ r', processLoop (Keygen.impl sha) l r = .ok r' → r'.stage = r.stage ∧ r'.output = r.output) ∧
    (∀ e r', processLoop (Keygen.impl sha) l r = .err (e, r') → r'.output = r.output) := by
  induction l generalizing r with
  | nil => exact ⟨fun r' h => (by cases h; exact ⟨rfl, rfl⟩), fun e r' h => (nomatch h)⟩
  | cons x l ih =>
    obtain ⟨_, msg⟩ := x
    unfold processLoop
    cases hp : (Keygen.impl sha).processMessage r msg with
    | panic => exact ⟨fun r' h => (nomatch h), fun e r' h => (nomatch h)⟩
    | err y =>
      obtain ⟨e', r₁⟩ := y
      refine ⟨fun r' h => (nomatch h), fun e r' h => ?_⟩
      cases h
      rw [keygen_processErr_fields hp]
    | ok r₁ =>
      obtain ⟨h1, h2⟩ := keygen_process_fields hp
      refine ⟨fun r' h => ?_, fun e r' h => ?_⟩
      · obtain ⟨h3, h4⟩ := ih.1 r' h
        exact ⟨h3.trans h1, h4.trans h2⟩
      · exact (ih.2 e r' h).trans h2

theorem keygen_step_output {s s' : State G (Keygen.Round G)} {op : Op G} {ret : Ret G} (h : step (Keygen.impl sha) s op = some (s', ret))
    (hn : s.round.output.pub = none) (P : Public G) (hP : s'.round.output.pub = some P) :
    (∃ ord coins, op = .processAll ord coins) ∧ s'.done = true ∧ s'.err = s.err ∧ P.partyIDs = s.round.partyIDs ∧
      ∀ id, id ∈ P.shares.keys ↔ id ∈ s.round.partyIDs := by
  have no : ∀ {r : Keygen.Round G}, r.output = s.round.output → r.output.pub ≠ some P := by
    intro r hr hc
    rw [hr, hn] at hc
    cases hc
  have reset_out : ∀ {r r' : Keygen.Round G}, Keygen.reset r = some r' → r'.output = r.output := by
    intro r r' hr
    obtain ⟨_, _, _, _, rfl⟩ := Keygen.reset_eq.mp hr
    rfl
  rcases step_cases h with ⟨msg, e, rfl, rfl, h5⟩ | ⟨ord, coins, out, rfl, rfl, h5⟩ | ⟨dt, rfl, rfl, rfl⟩ |
    ⟨rfl, rfl, rfl | ⟨t, ht, hle, rfl⟩⟩ | ⟨rfl, rfl, ⟨hf, rfl⟩ | ⟨_, hd', rfl⟩ | ⟨r, hf, hd', hc, hr, rfl⟩⟩
  · exfalso
    cases handle_cases (Keygen.impl sha) h5 <;> exact no rfl hP
  · cases h5 with
    | idle => exact absurd hP (no rfl)
    | processErr e r r' _ hf hp hr hc =>
      exact absurd hP (no ((reset_out hr).trans (keygen_loop_fields.2 _ _ hp)))
    | generateErr e r₁ r r' _ hf hp hge hr hc =>
      exfalso
      simp only [Keygen.impl] at hge
      split at hge
      · exact Keygen.noErr_generate0 _ _ _ _ hge
      · exact Keygen.noErr_generate1 _ _ hge
      · exact Keygen.noErr_generate2 _ _ hge
    | last t types r₁ r r' out _ hf hp hge ht hnx hr hc =>
      obtain ⟨hst, hout⟩ := keygen_loop_fields.1 _ hp
      have hids := ((processLoop_stable (Keygen.impl_stable sha)).1 _ hp).2
      have hids' : r₁.partyIDs = s.round.partyIDs := hids
      have hP' : r'.output.pub = some P := hP
      rw [reset_out hr] at hP'
      simp only [Keygen.impl] at hge
      split at hge
      · obtain ⟨_, _, rfl, _⟩ := Keygen.generate0_ok.mp hge
        exact absurd hP' (no hout)
      · obtain ⟨_, _, _, rfl, _⟩ := Keygen.generate1_ok.mp hge
        exact absurd hP' (no hout)
      · obtain ⟨sum, sh, gk, _, h0, hev, _, _, rfl, _⟩ := Keygen.generate2_ok.mp hge
        simp only [Option.some.injEq] at hP'
        subst hP'
        refine ⟨⟨ord, coins, rfl⟩, rfl, rfl, hids', ?_⟩
        rw [← hids']
        intro id
        obtain ⟨m', h6, h7⟩ := evaluateMulti_eq sum r₁.partyIDs h0 []
        rw [h6] at hev
        cases hev
        rw [GoMap.mem_keys_iff, h7]
        by_cases h8 : id ∈ r₁.partyIDs <;> simp [h8]
    | next t types r₁ r r' out _ hf hp hge ht hnx =>
      exfalso
      obtain ⟨hst, hout⟩ := keygen_loop_fields.1 _ hp
      simp only [Keygen.impl] at hge hnx
      split at hge
      · obtain ⟨_, _, rfl, _⟩ := Keygen.generate0_ok.mp hge
        split at hnx <;> cases hnx <;> exact no hout hP
      · obtain ⟨_, _, _, rfl, _⟩ := Keygen.generate1_ok.mp hge
        split at hnx <;> cases hnx <;> exact no hout hP
      · rename_i hs
        obtain ⟨_, _, _, _, _, _, _, _, rfl, _⟩ := Keygen.generate2_ok.mp hge
        simp [hs] at hnx
  · exact absurd hP (no rfl)
  · exact absurd hP (no rfl)
  · exact absurd hP (no rfl)
  · exact absurd hP (no rfl)
  · exact absurd hP (no rfl)
  · exact absurd hP (no (reset_out hr))

end

/-- Against "a session generates a key for the parties it was given": whatever a session given `ids'` can do that starts with `ProcessAll`, a
session given `ids` does if its caller first writes `ids'`, a list of the same length, where `ids` was. -/
theorem C94_keygen_other_parties (me : ID) (ids ids' : IDSlice) (t : UInt16) (timeout now : Nat) (s₀ s₁ : State G (Keygen.Round G))
    (h₀ : Keygen.newKeygenState sha me ids t timeout now = .ok s₀) (h₁ : Keygen.newKeygenState sha me ids' t timeout now = .ok s₁)
    (hnd : ids.Nodup) (hnd' : ids'.Nodup) (hl : ids'.length = ids.length) (ord : MapOrder) (coins : Coins) (ret : Ret G)
    {h : List (Op G × Ret G)} {s : State G (Keygen.Round G)} (hh : Hist (Keygen.impl sha) s₁ ((.processAll ord coins, ret) :: h) s) :
    Acts (Keygen.impl sha) Keygen.seeIDs s₀
      ((.write ids', .nothing) :: (.op (.processAll ord coins), ret) :: h.map fun x => (.op x.1, x.2)) s := by
  obtain ⟨rfl, hm⟩ := keygen_new h₀
  obtain ⟨rfl, hm'⟩ := keygen_new h₁
  obtain ⟨s₂, h2, h3⟩ := hist_cons.mp hh
  refine acts_trans (h := [(.write ids', .nothing), (.op (.processAll ord coins), ret)]) (Acts.snoc (h := [(.write ids', .nothing)]) (Acts.snoc (h := []) .nil rfl) ?_)
    (acts_of_hist h3)
  simp only [act]
  have hlen : ∀ l : List ID, l.Nodup → me ∈ l → (initReceived (G := G) me l []).length = l.length - 1 := by
    intro l hn hme
    have h4 : (initReceived (G := G) me l []).keys.Perm (l.filter (· ≠ me)) := by
      refine (List.perm_ext_iff_of_nodup (wf_initReceived me l [] GoMap.wf_nil) (hn.filter _)).mpr fun k => ?_
      rw [mem_initReceived]
      simp [GoMap.keys]
    have h5 := h4.length_eq
    rw [GoMap.keys, List.length_map] at h5
    rw [h5]
    have h6 : l.filter (· ≠ me) = l.erase me := by
      rw [hn.erase_eq_filter]
      congr 1
      funext x
      by_cases hx : x = me <;> simp [hx]
    rw [h6, List.length_erase_of_mem hme]
  rcases step_cases h2 with ⟨_, _, h4, _⟩ | ⟨ord', coins', out, h4, rfl, h5⟩ | ⟨_, h4, _⟩ | ⟨h4, _⟩ | ⟨h4, _⟩
  all_goals cases h4
  have h65 : ids.length ≤ 65536 := by
    have h6 := (hnd.map (f := UInt16.toNat) (fun a b h => UInt16.toNat_inj.mp h)).subperm (l₂ := List.range 65536) fun x hx => by
      obtain ⟨y, _, rfl⟩ := List.mem_map.mp hx
      exact List.mem_range.mpr y.toNat_lt
    simpa using h6.length_le
  have hfull : (initReceived (G := G) me ids []).length = (IDSlice.N ids' - 1).toNat := by
    rw [hlen _ hnd hm, N_pred_eq (List.ne_nil_of_mem hm') (hl ▸ h65), hl]
  have hfull' : (initReceived (G := G) me ids' []).length = (IDSlice.N ids' - 1).toNat := by
    rw [hlen _ hnd' hm', N_pred_eq (List.ne_nil_of_mem hm') (hl ▸ h65)]
  simp only [step]
  rw [(processAll_iff (Keygen.impl sha) (s' := s₂) (out := out)).mpr]
  · rfl
  cases h5 with
  | idle h6 =>
    exact h6.elim (fun h => nomatch h) (fun h => absurd hfull' h)
  | processErr e r r' _ hf hp hr hc =>
    rw [Keygen.loop0 rfl] at hp
    cases hp
  | generateErr e r₁ r r' _ hf hp hge hr hc =>
    rw [Keygen.loop0 rfl] at hp
    cases hp
    exact absurd hge (Keygen.noErr_generate0 _ _ _ _)
  | last t types r₁ r r' out _ hf hp hge ht hnx hr hc =>
    rw [Keygen.loop0 rfl] at hp
    cases hp
    obtain ⟨_, _, rfl, _⟩ := Keygen.generate0_ok.mp (show Keygen.generate0 sha coins _ = _ from hge)
    cases hnx
  | next t types r₁ r r' out _ hf hp hge ht hnx =>
    rw [Keygen.loop0 rfl] at hp
    cases hp
    exact .next t types _ r r' out rfl hfull (Keygen.loop0 rfl) hge ht hnx

/-- What a key generation outputs is for the list that is in the memory at its last `ProcessAll`. -/
theorem C94_keygen_output (me : ID) (ids : IDSlice) (t : UInt16) (timeout now : Nat) (s₀ : State G (Keygen.Round G))
    (h₀ : Keygen.newKeygenState sha me ids t timeout now = .ok s₀) {h : List (Act G (List ID) × Ret G)} {s : State G (Keygen.Round G)}
    (hh : Acts (Keygen.impl sha) Keygen.seeIDs s₀ h s) (P : Public G) (hP : s.round.output.pub = some P) :
    s.done = true ∧ s.err = none ∧ ∃ h₁ ord coins ret h₂, h = h₁ ++ (.op (.processAll ord coins), ret) :: h₂ ∧
      P.partyIDs = Spec.contents ids h₁ ∧ ∀ id, id ∈ P.shares.keys ↔ id ∈ Spec.contents ids h₁ := by
  have sees : ∀ {h : List (Act G (List ID) × Ret G)} {s : State G (Keygen.Round G)}, Acts (Keygen.impl sha) Keygen.seeIDs s₀ h s →
      s.round.partyIDs = Spec.contents ids h := fun hh =>
    (keygen_sees (me := me) (ids := ids) (by rw [(keygen_new h₀).1]; rfl) (by rw [(keygen_new h₀).1]; rfl) hh).2
  have hinv : ∀ {h : List (Act G (List ID) × Ret G)} {s : State G (Keygen.Round G)}, Acts (Keygen.impl sha) Keygen.seeIDs s₀ h s →
      s.done = false → s.err = none ∧ s.round.output.pub = none := by
    intro h s hh
    induction hh with
    | nil => intro _; rw [(keygen_new h₀).1]; exact ⟨rfl, rfl⟩
    | snoc hh₁ hs ih =>
      rename_i h s₁ s₂ a ret
      intro hd
      cases a with
      | op o =>
        have hs' : step (Keygen.impl sha) s₁ o = some (s₂, ret) := hs
        rcases Bool.eq_false_or_eq_true s₁.done with hd' | hd'
        · have := (step_shut hd' hs').1
          rw [hd] at this
          cases this
        · obtain ⟨h1, h2⟩ := ih hd'
          refine ⟨(step_noErr hs' hd).trans h1, ?_⟩
          cases hp : s₂.round.output.pub with
          | none => rfl
          | some P =>
            have := (keygen_step_output hs' h2 P hp).2.1
            rw [hd] at this
            cases this
      | write w =>
        obtain ⟨rfl, rfl⟩ := Prod.mk.inj (Option.some.inj hs)
        exact ih hd
  induction hh with
  | nil =>
    rw [(keygen_new h₀).1] at hP
    cases hP
  | snoc hh₁ hs ih =>
    rename_i h s₁ s₂ a ret
    have again : s₁.round.output = s₂.round.output → s₂.done = s₁.done → s₂.err = s₁.err →
        s₂.done = true ∧ s₂.err = none ∧ ∃ p ord coins r q, h ++ [(a, ret)] = p ++ (.op (.processAll ord coins), r) :: q ∧
          P.partyIDs = Spec.contents ids p ∧ ∀ id, id ∈ P.shares.keys ↔ id ∈ Spec.contents ids p := fun hr hd' he' => by
      rw [← hr] at hP
      obtain ⟨h1, h2, p, ord, coins, r, q, h3, h4⟩ := ih hP
      exact ⟨by rw [hd', h1], by rw [he', h2], p, ord, coins, r, q ++ [(a, ret)], by rw [h3]; simp, h4⟩
    cases a with
    | op o =>
      have hs' : step (Keygen.impl sha) s₁ o = some (s₂, ret) := hs
      rcases Bool.eq_false_or_eq_true s₁.done with hd | hd
      · obtain ⟨h1, h2, h3⟩ := step_shut hd hs'
        exact again (by rw [h2]) (by rw [h1, hd]) h3
      · obtain ⟨h1, h2⟩ := hinv hh₁ hd
        obtain ⟨⟨ord, coins, rfl⟩, h3, h4, h5, h6⟩ := keygen_step_output hs' h2 P hP
        rw [sees hh₁] at h5 h6
        exact ⟨h3, h4.trans h1, h, ord, coins, ret, [], rfl, h5, h6⟩
    | write w =>
      obtain ⟨rfl, rfl⟩ := Prod.mk.inj (Option.some.inj hs)
      exact again rfl rfl rfl

/-- The shares of a key generation are sent to the list that is in the memory when it deals them. -/
theorem C94_keygen_dealt (me : ID) (ids : IDSlice) (t : UInt16) (timeout now : Nat) (s₀ : State G (Keygen.Round G))
    (h₀ : Keygen.newKeygenState sha me ids t timeout now = .ok s₀) {h : List (Act G (List ID) × Ret G)} {s : State G (Keygen.Round G)}
    (hh : Acts (Keygen.impl sha) Keygen.seeIDs s₀ h s) (op : Op G) (s' : State G (Keygen.Round G)) (out : List (Message G))
    (hs : step (Keygen.impl sha) s op = some (s', .messages out)) (m : Message G) (hm : m ∈ out) (hm2 : m.keyGen2 ≠ none) :
    ∃ poly, out = ((Spec.contents ids h).filter (· ≠ me)).map fun id => Message.newKeyGen2 me id (Spec.evalAt poly id.val) := by
  obtain ⟨h1, h2⟩ := keygen_sees (me := me) (ids := ids) (by rw [(keygen_new h₀).1]; rfl) (by rw [(keygen_new h₀).1]; rfl) hh
  have key : ∀ {r₁ r : Keygen.Round G} {ord : MapOrder} {coins : Coins}, processLoop (Keygen.impl sha) (ord.order _ s.received) s.round = .ok r₁ →
      (Keygen.impl sha).generateMessages ord coins r₁ = .ok (r, out) →
      ∃ poly, out = ((Spec.contents ids h).filter (· ≠ me)).map fun id => Message.newKeyGen2 me id (Spec.evalAt poly id.val) := by
    intro r₁ r ord coins hp hge
    obtain ⟨h3, h4⟩ := (processLoop_stable (Keygen.impl_stable sha)).1 _ hp
    simp only [Keygen.impl] at hge
    split at hge
    · obtain ⟨_, _, _, rfl⟩ := Keygen.generate0_ok.mp hge
      rw [List.mem_singleton.mp hm] at hm2
      exact absurd rfl hm2
    · obtain ⟨poly, _, _, _, rfl⟩ := Keygen.generate1_ok.mp hge
      refine ⟨poly, ?_⟩
      rw [Keygen.dealt, show r₁.selfID = me from h3.trans h1, show r₁.partyIDs = _ from h4.trans h2]
    · obtain ⟨_, _, _, _, _, _, _, _, _, rfl⟩ := Keygen.generate2_ok.mp hge
      cases hm
  rcases step_cases hs with ⟨_, _, rfl, h3, _⟩ | ⟨ord, coins, out', rfl, h3, h5⟩ | ⟨_, rfl, h3, _⟩ | ⟨rfl, h3, _⟩ | ⟨rfl, h3, _⟩
  all_goals cases h3
  cases h5 with
  | idle => cases hm
  | processErr => cases hm
  | generateErr => cases hm
  | last t types r₁ r r' out _ hf hp hge ht hnx hr hc => exact key hp hge
  | next t types r₁ r r' out _ hf hp hge ht hnx => exact key hp hge

/-! ### Signing -/

section

open Sign

theorem rhoBuffer_keys {parties : GoMap (Signer G)} {ids : List ID} {buffer b : Bytes} (h : rhoBufferLoop parties ids buffer = .ok b) :
    ∀ id ∈ ids, id ∈ parties.keys := by
  induction ids generalizing buffer with
  | nil => intro id hi; cases hi
  | cons a ids ih =>
    simp only [rhoBufferLoop, bind_eq_ok, deref_eq_ok] at h
    obtain ⟨p, h1, _, _, _, _, h2⟩ := h
    intro id hi
    rcases List.mem_cons.mp hi with rfl | hi
    · exact GoMap.mem_keys_iff.mpr ⟨p, h1⟩
    · exact ih h2 id hi

theorem generate1_keys {ord : MapOrder} {r r' : Sign.Round G} {out : List (Message G)} (h : generate1 sha ord r = .ok (r', out)) :
    ∀ id ∈ r.partyIDs, id ∈ r.parties.keys := by
  unfold generate1 at h
  cases hc : computeRhos sha r with
  | panic => rw [hc] at h; cases h
  | err e => rw [hc] at h; cases h
  | ok ps =>
    simp only [computeRhos, bind_eq_ok] at hc
    obtain ⟨b, h1, _⟩ := hc
    exact rhoBuffer_keys h1

theorem process1_keys {l : List (ID × Option (Message G))} {r r' : Sign.Round G} (hs : r.stage = .r1)
    (h : processLoop (Sign.impl sha) l r = .ok r') : r'.stage = .r1 ∧ ∀ id, id ∈ r'.parties.keys → id ∈ r.parties.keys := by
  induction l generalizing r with
  | nil => cases h; exact ⟨hs, fun _ h => h⟩
  | cons x l ih =>
    obtain ⟨_, msg⟩ := x
    unfold processLoop at h
    rw [process_r1 hs] at h
    cases hp : process1 r msg with
    | panic => rw [hp] at h; cases h
    | err e => rw [hp] at h; cases h
    | ok r₁ =>
      rw [hp] at h
      obtain ⟨m, k, p, h1, h2, h3, h4, h5, rfl⟩ := process1_ok.mp hp
      obtain ⟨h6, h7⟩ := ih (r := { r with parties := r.parties.set m.header.fromID { p with Di := some k.Di, Ei := some k.Ei } }) hs h
      refine ⟨h6, fun id hi => ?_⟩
      rcases GoMap.mem_keys_set.mp (h7 id hi) with rfl | hi
      · exact GoMap.mem_keys_iff.mpr ⟨p, h5⟩
      · exact hi

theorem loop_r0 {l : List (ID × Option (Message G))} {r : Sign.Round G} (hs : r.stage = .r0) : processLoop (Sign.impl sha) l r = .ok r := by
  induction l with
  | nil => rfl
  | cons x l ih =>
    obtain ⟨_, msg⟩ := x
    unfold processLoop
    rw [process_r0 hs]
    exact ih

/-- What holds of a session up to its second round, whatever list is written. -/
structure Early (ids : List ID) (s : State G (Sign.Round G)) : Prop where
  stage : s.round.stage = match s.roundNumber with | 0 => .r0 | _ => .r1
  keys : ∀ id ∈ s.round.parties.keys, id ∈ ids

theorem Early.step {ids : List ID} {s s' : State G (Sign.Round G)} {op : Op G} {ret : Ret G} (he : s.done = false → s.roundNumber ≤ 1 → Early ids s)
    (h : State.step (Sign.impl sha) s op = some (s', ret)) : s'.done = false → s'.roundNumber ≤ 1 → Early ids s' := by
  intro hd hn
  have same : ∀ {x : State G (Sign.Round G)}, x.round = s.round → x.roundNumber = s.roundNumber → x.done = s.done → x.done = false → x.roundNumber ≤ 1 →
      Early ids x := by
    intro x h1 h2 h3 h4 h5
    obtain ⟨h6, h7⟩ := he (h3 ▸ h4) (h2 ▸ h5)
    exact ⟨by rw [h1, h2]; exact h6, by rw [h1]; exact h7⟩
  rcases step_cases h with ⟨msg, e, rfl, rfl, h5⟩ | ⟨ord, coins, out, rfl, rfl, h5⟩ | ⟨dt, rfl, rfl, rfl⟩ |
    ⟨rfl, rfl, rfl | ⟨t, ht, hle, rfl⟩⟩ | ⟨rfl, rfl, ⟨hf, rfl⟩ | ⟨_, hd', rfl⟩ | ⟨r, hf, hd', hc, hr, rfl⟩⟩
  · cases handle_cases (Sign.impl sha) h5 <;> exact same rfl rfl rfl hd hn
  · cases h5 with
    | idle => exact same rfl rfl rfl hd hn
    | next t types r₁ r r' out hd' hf hp hge ht hnx =>
      have h0 : s.roundNumber = 0 := by simp only [] at hn; omega
      obtain ⟨h6, h7⟩ := he hd' (by omega)
      rw [h0] at h6
      simp only [] at h6
      rw [loop_r0 h6] at hp
      cases hp
      simp only [Sign.impl, h6] at hge
      obtain ⟨p, h8, rfl, _⟩ := generate0_ok.mp hge
      simp only [Sign.impl, h6, Option.some.injEq] at hnx
      subst hnx
      refine ⟨by simp [h0], fun id hi => ?_⟩
      rcases GoMap.mem_keys_set.mp hi with rfl | hi
      · exact h7 _ (GoMap.mem_keys_iff.mpr ⟨p, h8⟩)
      · exact h7 _ hi
    | _ => cases hd
  all_goals first | exact same rfl rfl rfl hd hn | cases hd

theorem sign_sees {me : ID} {ids : IDSlice} {s₀ s : State G (Sign.Round G)} (h1 : s₀.round.selfID = me) (h2 : s₀.round.partyIDs = ids)
    {h : List (Act G (List ID) × Ret G)} (hh : Acts (Sign.impl sha) Sign.seeIDs s₀ h s) :
    s.round.selfID = me ∧ s.round.partyIDs = Spec.contents ids h := by
  induction hh with
  | nil => exact ⟨h1, h2⟩
  | snoc _ hs ih =>
    rename_i h s₁ s₂ a ret _
    rw [contents_snoc]
    cases a with
    | op o =>
      obtain ⟨g1, g2⟩ := step_stable (Sign.impl_stable sha) (show State.step (Sign.impl sha) s₁ o = some (s₂, ret) from hs)
      exact ⟨g1.trans ih.1, g2.trans ih.2⟩
    | write w =>
      obtain ⟨rfl, rfl⟩ := Prod.mk.inj (Option.some.inj hs)
      exact ⟨ih.1, rfl⟩

/-- A signer in whose list someone is written that was not there sends no share: when it would compute it, it fails, or crashes. -/
theorem C94_sign_no_share (secret : SecretShare G) (shares : Public G) (ids : IDSlice) (m₀ : Bytes) (timeout now : Nat)
    (s₀ : State G (Sign.Round G)) (h₀ : newSignState sha ids secret shares m₀ timeout now = .ok s₀)
    {h : List (Act G (List ID) × Ret G)} {s : State G (Sign.Round G)} (hh : Acts (Sign.impl sha) Sign.seeIDs s₀ h s)
    (hd : s.done = false) (hn : s.roundNumber = 1) (id : ID) (hi : id ∈ Spec.contents ids h) (hni : id ∉ ids)
    (ord : MapOrder) (coins : Coins) (s' : State G (Sign.Round G)) (out : List (Message G))
    (hs : processAll (Sign.impl sha) ord coins s = some (s', out)) : out = [] ∧ (s' = s ∨ s'.done = true ∧ s'.err ≠ none) := by
  obtain ⟨r₀, h1, rfl⟩ := newSignState_ok.mp h₀
  obtain ⟨h2, h3, ps, h4, rfl⟩ := newRound_ok.mp h1
  have hids := (sign_sees (me := secret.id) (ids := ids) rfl rfl hh).2
  have he : s.done = false → s.roundNumber ≤ 1 → Early ids s := by
    clear hids hs hi hn hd
    induction hh with
    | nil =>
      refine fun _ _ => ⟨rfl, fun k hk => ?_⟩
      rcases ((setupLoop_ok h4).2.2.1 k).mp hk with hk | hk
      · cases hk
      · exact hk
    | snoc _ hs ih =>
      rename_i h s₁ s₂ a ret _
      cases a with
      | op o => exact Early.step ih hs
      | write w =>
        obtain ⟨rfl, rfl⟩ := Prod.mk.inj (Option.some.inj hs)
        exact fun hd hn => ⟨(ih hd hn).stage, (ih hd hn).keys⟩
  obtain ⟨h5, h6⟩ := he hd (by omega)
  rw [hn] at h5
  simp only [] at h5
  have no : ∀ {r₁ r : Sign.Round G} {o : List (Message G)}, processLoop (Sign.impl sha) (ord.order _ s.received) s.round = .ok r₁ →
      (Sign.impl sha).generateMessages ord coins r₁ ≠ .ok (r, o) := by
    intro r₁ r o hp hge
    obtain ⟨h7, h8⟩ := process1_keys h5 hp
    simp only [Sign.impl, h7] at hge
    have h9 := generate1_keys hge id (by
      rw [show r₁.partyIDs = s.round.partyIDs from ((processLoop_stable (Sign.impl_stable sha)).1 _ hp).2, hids]
      exact hi)
    exact hni (h6 _ (h8 _ h9))
  cases (processAll_iff (Sign.impl sha)).mp hs with
  | idle => exact ⟨rfl, Or.inl rfl⟩
  | processErr e r r' _ hf hp hr hc => exact ⟨rfl, Or.inr ⟨rfl, by simp⟩⟩
  | generateErr e r₁ r r' _ hf hp hge hr hc => exact ⟨rfl, Or.inr ⟨rfl, by simp⟩⟩
  | last t types r₁ r r' out _ hf hp hge ht hnx hr hc => exact absurd hge (no hp)
  | next t types r₁ r r' out _ hf hp hge ht hnx => exact absurd hge (no hp)

end

end Verif.Props
