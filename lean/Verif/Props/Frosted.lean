import Verif.Model.Frosted
import Verif.Props.Udp
import Verif.Props.EndToEnd
import Verif.Props.Ristretto

/-!
C79: the program `test/frosted.go`.
-/

namespace Verif

open State Spec

namespace Chan

variable {G R : Type} [RGroup G] {impl : RoundImpl G R} {ids : IDSlice} {r₀ : ID → R} {coins : ID → Coins} {M : Nat → ID → ID → Message G}
  {out : ID → Nat → List (Message G)} {Good : ID → Nat → R → Prop} {timeout now : ID → Nat} {N : Net G R} {tys : List MsgType}
  {init : ID → State G R} {S : Sys G R}

theorem no_crash (P : Protocol impl ids r₀ coins M out Good tys timeout now init) (r : Run impl ids coins M init S N) :
    ¬ Crash impl ids coins S := by
  intro h
  cases h with
  | @start i ord hi hs hp =>
    obtain ⟨s, ret, h1⟩ := (P.netInv r.path).no_crash P.honest hi (op := .processAll ord (coins i)) fun _ => rfl
    rw [r.state i hi] at hp
    simp [State.step, hp] at h1
  | @recv i m rest ord c hi hs he ho hin hp =>
    have hsent := (r.sent P hi (m := m) (by simp [pipe, hin])).1
    have hpath : Path impl ids coins (Net.start init)
        (N.after i (.handle m) (.handled (handleMessage impl (N.state i) m).2) (handleMessage impl (N.state i) m).1) :=
      r.path.tail (op := .handle m) hi hsent rfl
    have hrn : (handleMessage impl (N.state i) m).1.roundNumber = (N.state i).roundNumber := by
      have := handle_cases impl (Prod.mk.eta (p := handleMessage impl (N.state i) m)).symm
      generalize (handleMessage impl (N.state i) m).1 = t at *
      generalize (handleMessage impl (N.state i) m).2 = e at *
      cases this <;> rfl
    obtain ⟨s, ret, h1⟩ := (P.netInv hpath).no_crash P.honest hi (op := .processAll ord c) (by
      intro h0
      simp only [Net.after, Function.update_self] at h0
      exact absurd (hrn.symm.trans h0) (r.begun i hi hs))
    rw [r.state i hi] at hp
    simp [State.step, Net.after, hp] at h1

end Chan

namespace Udp

variable {G R : Type} [RGroup G] {impl : RoundImpl G R} {ids : List ID} {coins : ID → Coins} {init : ID → State G R} {S : Sys G R} {N : Net G R}

theorem crash_callback (hstep : ∀ N, PathT impl ids coins (Net.start init) N → ∀ i ∈ ids, ∀ op, AllowedT coins N i op → op ≠ .callback →
    ∃ s ret, State.step impl (N.state i) op = some (s, ret)) (r : Run impl ids coins init S N) (h : Crash impl ids coins S) :
    ∃ i ∈ ids, State.step impl (N.state i) .callback = none := by
  cases h with
  | @start i ord hi hs hp =>
    obtain ⟨s, ret, h1⟩ := hstep N r.path i hi (.processAll ord (coins i)) (Or.inr fun _ => rfl) (by simp)
    rw [r.state i hi] at hp
    simp [State.step, hp] at h1
  | @recv i m rest ord c hi hs he ho hin hc hp =>
    rw [r.state i hi] at hp hc
    have hm := r.incoming i hi m (by rw [hin]; exact List.mem_cons_self)
    have hpath : PathT impl ids coins (Net.start init)
        (N.after i (.handle m) (.handled (handleMessage impl (N.state i) m).2) (handleMessage impl (N.state i) m).1) :=
      r.path.tail (op := .handle m) hi (Or.inr (r.sent hi hm)) rfl
    obtain ⟨s, ret, h1⟩ := hstep _ hpath i hi (.processAll ord c) (Or.inr (by
      intro h0
      simp only [Net.after, Function.update_self] at h0
      exact hc h0)) (by simp)
    simp [State.step, Net.after, hp] at h1
  | @time i op hi hop hp =>
    rw [r.state i hi] at hp
    by_cases h : op = .callback
    · subst h; exact ⟨i, hi, hp⟩
    · have ha : AllowedT coins N i op := by
        rcases hop with ⟨dt, rfl⟩ | rfl | rfl
        · exact Or.inr trivial
        · exact Or.inr trivial
        · exact absurd rfl h
      obtain ⟨s, ret, h1⟩ := hstep N r.path i hi op ha h
      rw [hp] at h1
      cases h1

end Udp

namespace Frosted

variable {G R : Type} [RGroup G] {impl : RoundImpl G R} {ids : List ID} {coins : ID → Coins}

theorem steps_trans (k : Kind) {S S' S'' : k.Sys G R} (h : k.steps impl ids coins S S') (h' : k.steps impl ids coins S' S'') :
    k.steps impl ids coins S S'' := by
  cases k with
  | channel => exact Chan.Steps.trans h h'
  | udp => exact Udp.Steps.trans h h'

theorem steps_refl (k : Kind) (S : k.Sys G R) : k.steps impl ids coins S S := by
  cases k with
  | channel => exact .refl _
  | udp => exact .refl _

omit [RGroup G] in
theorem newHandlers_ok {mk : ID → GoRes (State G R)} {l : List ID} {h0 h : GoMap (State G R)} (hnd : l.Nodup)
    (hh : newHandlers mk l h0 = .ok h) :
    (∀ id ∈ l, ∃ s, mk id = .ok s ∧ h.get? id = some s) ∧ (∀ id, id ∉ l → h.get? id = h0.get? id) ∧ (h0.WF → h.WF) := by
  induction l generalizing h0 with
  | nil => cases hh; exact ⟨by simp, fun _ _ => rfl, id⟩
  | cons a l ih =>
    obtain ⟨ha, hl⟩ := List.nodup_cons.mp hnd
    simp only [newHandlers, Outcome.bind_eq_ok] at hh
    obtain ⟨s, h1, h2⟩ := hh
    obtain ⟨g1, g2, g3⟩ := ih hl h2
    refine ⟨fun id hid => ?_, fun id hid => ?_, fun hw => g3 (hw.set a s)⟩
    · rcases List.mem_cons.mp hid with rfl | hid
      · exact ⟨s, h1, by rw [g2 id ha, GoMap.get?_set_same]⟩
      · exact g1 id hid
    · rw [g2 id (fun h => hid (List.mem_cons_of_mem _ h)), GoMap.get?_set_ne]
      rintro rfl
      exact hid List.mem_cons_self

omit [RGroup G] in
theorem newHandlers_of {mk : ID → GoRes (State G R)} {l : List ID} (h0 : GoMap (State G R)) (h : ∀ id ∈ l, ∃ s, mk id = .ok s) :
    ∃ h, newHandlers mk l h0 = .ok h := by
  induction l generalizing h0 with
  | nil => exact ⟨h0, rfl⟩
  | cons a l ih =>
    obtain ⟨s, hs⟩ := h a List.mem_cons_self
    obtain ⟨h', hh⟩ := ih (h0.set a s) fun id hid => h id (List.mem_cons_of_mem _ hid)
    exact ⟨h', by simp only [newHandlers, hs, Outcome.ok_bind, hh]⟩

/-- The keys over which the waiting loops go: all parties, once each. -/
theorem mem_keys_order {l : List ID} {h : GoMap (State G R)} (hw : h.WF) (h1 : ∀ id ∈ l, ∃ s, h.get? id = some s)
    (h2 : ∀ id, id ∉ l → h.get? id = none) (ord : MapOrder) :
    ∀ id, id ∈ (ord.order _ h).keys ↔ id ∈ l := by
  intro id
  rw [GoMap.mem_keys_iff]
  constructor
  · rintro ⟨v, hv⟩
    rw [GoMap.get?_perm hw (ord.perm _ h)] at hv
    by_contra hl
    rw [h2 id hl] at hv
    cases hv
  · intro hid
    obtain ⟨s, hs⟩ := h1 id hid
    exact ⟨s, by rw [GoMap.get?_perm hw (ord.perm _ h), hs]⟩

/-- What the waiting loop of key generation returns, if everything that can happen is known to be good. -/
theorem keygenWait {impl : RoundImpl G (Keygen.Round G)} {k : Kind} {S₀ : k.Sys G (Keygen.Round G)} {C : Prop} {E : StateErr → Prop}
    {share : ID → SecretShare G} {P : Public G → Prop}
    (hsafe : ∀ S, k.steps impl ids coins S₀ S → (k.crash impl ids coins S → C) ∧ ∀ i ∈ ids,
      ((k.session S i).waitForError = some none → (k.session S i).round.output.secretKey = some (share i) ∧
        ∃ p, (k.session S i).round.output.pub = some p ∧ P p) ∧
      ∀ e, (k.session S i).waitForError = some (some e) → E e)
    {S : k.Sys G (Keygen.Round G)} {l : List ID} {pub : Option (Public G)} {secrets : GoMap (Option (SecretShare G))}
    {r : Outcome Err (Option (Public G) × GoMap (Option (SecretShare G)))} (h : KeygenWait impl ids coins k S l pub secrets r)
    (hS : k.steps impl ids coins S₀ S) (hl : ∀ i ∈ l, i ∈ ids) :
    (r = .panic ∧ C) ∨ (∃ e, r = .err (.session e) ∧ E e) ∨
      ∃ pub' secrets', r = .ok (pub', secrets') ∧ (∀ i, i ∈ l ∨ secrets.get? i = some (some (share i)) → secrets'.get? i = some (some (share i))) ∧
        ((l ≠ [] ∨ ∃ p, pub = some p ∧ P p) → ∃ p, pub' = some p ∧ P p) := by
  induction h with
  | done => exact .inr (.inr ⟨_, _, rfl, fun i hi => hi.resolve_left (by simp), fun h => h.resolve_left (by simp)⟩)
  | @next S S' id rest pub secrets r h1 h2 _ ih =>
    have hS' := steps_trans k hS h1
    obtain ⟨hsec, hpub⟩ := ((hsafe S' hS').2 id (hl id List.mem_cons_self)).1 h2
    rcases ih hS' (fun i hi => hl i (List.mem_cons_of_mem _ hi)) with h | h | ⟨pub', secrets', h1, h2, h3⟩
    · exact .inl h
    · exact .inr (.inl h)
    · refine .inr (.inr ⟨pub', secrets', h1, fun i hi => h2 i ?_, fun _ => h3 (.inr hpub)⟩)
      by_cases hid : i = id
      · subst hid
        right
        rw [GoMap.get?_set_same, hsec]
      · rcases hi with hi | hi
        · exact .inl ((List.mem_cons.mp hi).resolve_left hid)
        · right
          rw [GoMap.get?_set_ne _ _ hid, hi]
  | @error S S' id rest pub secrets e h1 h2 =>
    exact .inr (.inl ⟨e, rfl, ((hsafe S' (steps_trans k hS h1)).2 id (hl id List.mem_cons_self)).2 e h2⟩)
  | @crash S S' id rest pub secrets h1 h2 => exact .inl ⟨rfl, (hsafe S' (steps_trans k hS h1)).1 h2⟩

/-- What the waiting loop of signing returns, if everything that can happen is known to be good. -/
theorem signWait {impl : RoundImpl G (Sign.Round G)} {sha : Sha512} {key : G} {message : Bytes} {k : Kind}
    {S₀ : k.Sys G (Sign.Round G)} {C : Prop} {E : StateErr → Prop} {sig : Signature G}
    (hv : verdict sha key message none (some sig) = .ok 0)
    (hsafe : ∀ S, k.steps impl ids coins S₀ S → (k.crash impl ids coins S → C) ∧ ∀ i ∈ ids,
      ((k.session S i).waitForError = some none → (k.session S i).round.output.signature = some sig) ∧
      ∀ e, (k.session S i).waitForError = some (some e) → E e)
    {S : k.Sys G (Sign.Round G)} {l : List ID} {n : Nat} {r : Outcome Err Nat}
    (h : SignWait impl sha key message ids coins k S l n r) (hS : k.steps impl ids coins S₀ S) (hl : ∀ i ∈ l, i ∈ ids) :
    (r = .panic ∧ C) ∨ ∃ m, r = .ok m ∧ n ≤ m ∧ m ≤ n + l.length ∧ (m = n ∨ ∃ e, E e) := by
  induction h with
  | done => exact .inr ⟨_, rfl, le_refl _, by simp, .inl rfl⟩
  | @next S S' id rest n e d r h1 h2 h3 _ ih =>
    have hS' := steps_trans k hS h1
    obtain ⟨hsig, herr⟩ := (hsafe S' hS').2 id (hl id List.mem_cons_self)
    have hd : d ≤ 1 ∧ (d = 0 ∨ ∃ e, E e) := by
      cases e with
      | none => rw [hsig h2, hv] at h3; cases h3; exact ⟨by omega, .inl rfl⟩
      | some e => cases h3; exact ⟨le_refl _, .inr ⟨e, herr e h2⟩⟩
    rcases ih hS' (fun i hi => hl i (List.mem_cons_of_mem _ hi)) with h | ⟨m, h4, h5, h6, h7⟩
    · exact .inl h
    · refine .inr ⟨m, h4, by omega, by rw [List.length_cons]; omega, ?_⟩
      rcases hd.2 with rfl | h
      · simpa using h7
      · exact .inr h
  | @panic S S' id rest n e h1 h2 h3 =>
    obtain ⟨hsig, herr⟩ := (hsafe S' (steps_trans k hS h1)).2 id (hl id List.mem_cons_self)
    cases e with
    | none => rw [hsig h2, hv] at h3; cases h3
    | some e => cases h3
  | @crash S S' id rest n h1 h2 => exact .inl ⟨rfl, (hsafe S' (steps_trans k hS h1)).1 h2⟩

theorem setup_keygenIDs {N : UInt16} (T : UInt16) (hN : N.toNat ≤ 65494) :
    (setup N T).2.1.Pairwise (· < ·) ∧ (0 : ID) ∉ (setup N T).2.1 ∧ (setup N T).2.1.length = N.toNat := by
  have hv : ∀ i < N.toNat, ((42 : UInt16) + UInt16.ofNat i).toNat = 42 + i := by
    intro i hi
    rw [UInt16.toNat_add, UInt16.toNat_ofNat']
    have : (42 : UInt16).toNat = 42 := rfl
    rw [this]
    omega
  refine ⟨?_, ?_, by simp [setup]⟩
  · simp only [setup, List.pairwise_map]
    refine List.Pairwise.imp_of_mem (fun {a b} ha hb hab => ?_) List.pairwise_lt_range
    rw [UInt16.lt_iff_toNat_lt, hv a (List.mem_range.mp ha), hv b (List.mem_range.mp hb)]
    omega
  · simp only [setup, List.mem_map, List.mem_range, not_exists, not_and]
    intro i hi h
    have := congrArg UInt16.toNat h
    rw [hv i hi] at this
    simp at this

theorem setup_signIDs {N T : UInt16} (h : T < N) : (setup N T).2.2 = (setup N T).2.1.take (T.toNat + 1) := by
  have h' := UInt16.lt_iff_toNat_lt.mp h
  have hT : (T + 1).toNat = T.toNat + 1 := by
    rw [UInt16.toNat_add]
    have : (1 : UInt16).toNat = 1 := rfl
    have := N.toNat_lt
    omega
  simp only [setup, hT, List.length_map, List.length_range]
  rw [Nat.sub_eq_zero_of_le (by omega), List.replicate_zero, List.append_nil]

theorem new_sorted {l : List ID} (h : l.Pairwise (· < ·)) : IDSlice.new l = l :=
  ((Props.C04_newIDSlice_sorted_perm l).2.2 l (h.imp UInt16.le_of_lt) (List.Perm.refl l)).symm

section waits

variable {ids : IDSlice} {r₀ : ID → R} {M : Nat → ID → ID → Message G} {out : ID → Nat → List (Message G)} {Good : ID → Nat → R → Prop}
  {timeout now : ID → Nat} {tys : List MsgType} {init : ID → State G R}

omit [RGroup G] in
theorem wait_done {r : R} {timeout now : Nat} (hst : impl.Stable) {h : List (Op G × Ret G)} {s : State G R} {e : Option StateErr}
    (hh : Hist impl (newBaseState impl r timeout now) h s) (hw : s.waitForError = some e) : s.done = true ∧ s.err = e := by
  obtain ⟨_, h2, h3⟩ := Props.C29_done_iff_closed hst hh
  have hd : s.isFinished = true := by
    rw [← Bool.not_eq_false]
    intro h
    rw [h2.mpr h] at hw
    cases hw
  rw [h3 hd] at hw
  exact ⟨hd, Option.some.inj hw⟩

theorem chan_wait (P : Chan.Protocol impl ids r₀ coins M out Good tys timeout now init) (hst : impl.Stable) {S : Chan.Sys G R}
    (h : Chan.Steps impl ids coins (Chan.start init) S) :
    ¬ Chan.Crash impl ids coins S ∧ ∀ i ∈ ids, ∀ e, (S i).state.waitForError = some e → (S i).state.done = true ∧ e = none := by
  obtain ⟨N, r, _⟩ := (Chan.run_start P).steps P h
  refine ⟨Chan.no_crash P r, fun i hi e he => ?_⟩
  rw [r.state i hi] at he ⊢
  obtain ⟨h1, h2⟩ := wait_done hst ((P.netInv r.path).hist i hi) he
  exact ⟨h1, by rw [← h2, (P.netInv r.path).err i hi]⟩

theorem udp_wait (P : Chan.Protocol impl ids r₀ coins M out Good tys timeout now init) (hst : impl.Stable)
    (hout : ∀ i ∈ ids, ∀ n, n < 2 → ∀ m ∈ out i n, Udp.Fits ids m) {S : Udp.Sys G R}
    (h : Udp.Steps impl ids coins (Udp.start init fun _ => []) S) :
    (∃ N, Udp.Run impl ids coins init S N) ∧
    ∀ i ∈ ids, ∀ e, (S.node i).state.waitForError = some e → (S.node i).state.done = true ∧ (S.node i).state.err = e := by
  obtain ⟨N, r⟩ := Udp.Run.ofSteps (Props.fits_of_path P hout) h
  refine ⟨⟨N, r⟩, fun i hi e he => ?_⟩
  rw [r.state i hi] at he ⊢
  have hh := r.hist i hi
  rw [P.init i hi] at hh
  exact wait_done hst hh he

end waits

open Polynomial in
/-- What the signing needs to know of a `Public`. -/
def GoodPub (ids : List ID) (t : UInt16) (F : Scalar[X]) (p : Public G) : Prop :=
  p.partyIDs = ids ∧ p.threshold = t ∧ p.groupKey = F.eval 0 • (RGroup.base : G) ∧
    ∀ k ∈ ids, p.shares.get? k = some (F.eval (k.toNat : Scalar) • (RGroup.base : G))

open Polynomial in
/-- The share of a party. -/
def goodShare (F : Scalar[X]) (i : ID) : SecretShare G := ⟨i, F.eval (i.toNat : Scalar), F.eval (i.toNat : Scalar) • RGroup.base⟩

variable {sha : Sha512}

theorem keygenSetup_of {k : Kind} {ids : IDSlice} {T : UInt16} {now : ID → Nat} {handlers : GoMap (State G (Keygen.Round G))}
    {init : ID → State G (Keygen.Round G)} (hsort : ids.Pairwise (· < ·)) (h0 : (0 : ID) ∉ ids)
    (h : newHandlers (fun id => Keygen.newKeygenState (G := G) sha id (IDSlice.new ids) T k.timeout (now id)) ids [] = .ok handlers)
    (hinit : ∀ id s, handlers.get? id = some s → init id = s) :
    Props.Spec.KeygenSetup sha ids T (fun _ => k.timeout) now init ∧ ∀ ord : MapOrder, ∀ id, id ∈ (ord.order _ handlers).keys ↔ id ∈ ids := by
  have hnd : ids.Nodup := hsort.imp fun h => UInt16.ne_of_lt h
  obtain ⟨h1, h2, h3⟩ := newHandlers_ok hnd h
  rw [new_sorted hsort] at h1
  refine ⟨⟨hsort.imp UInt16.le_of_lt, hnd, h0, fun i hi => ?_⟩, mem_keys_order (h3 List.nodup_nil) (fun i hi => ?_) h2⟩
  · obtain ⟨s, g1, g2⟩ := h1 i hi
    rw [g1, hinit i s g2]
  · obtain ⟨s, _, g2⟩ := h1 i hi
    exact ⟨s, g2⟩

theorem keygen_crash {ids : IDSlice} {T : UInt16} {timeout now : ID → Nat} {init : ID → State G (Keygen.Round G)}
    (hs : Props.Spec.KeygenSetup sha ids T timeout now init) (coins : ID → Coins) {S : Udp.Sys G (Keygen.Round G)}
    (hp : Udp.Steps (Keygen.impl sha) ids coins (Udp.start init fun _ => []) S) (h : Udp.Crash (Keygen.impl sha) ids coins S) :
    ∃ i ∈ ids, (S.node i).state.roundNumber = 0 ∧ (S.node i).state.timer.fired ≠ 0 := by
  have hne : ids ≠ [] := by
    rintro rfl
    cases h with
    | start h => cases h
    | recv h => cases h
    | time h => cases h
  obtain ⟨j, hj⟩ := List.exists_mem_of_ne_nil _ hne
  obtain ⟨r₀, P⟩ := Props.keygen_protocol hs coins hj
  obtain ⟨⟨N, r⟩, _⟩ := udp_wait P (Keygen.impl_stable sha) (Props.keygen_fits hs coins) hp
  obtain ⟨i, hi, hc⟩ := Udp.crash_callback
    (fun N hN i hi op ha hop => (Props.C76_keygen hs coins N hN i hi).2.2 op ha (.inl hop)) r h
  refine ⟨i, hi, ?_⟩
  rw [r.state i hi]
  constructor
  · by_contra hn
    obtain ⟨s, ret, h'⟩ := (Props.C76_keygen hs coins N r.path i hi).2.2 .callback (Or.inl rfl) (.inr hn)
    rw [hc] at h'
    cases h'
  · intro hf
    simp [State.step, hf] at hc

theorem doKeygen {k : Kind} {ids : IDSlice} {T : UInt16} {coins : ID → Coins}
    {r : Outcome Err (Option (Public G) × GoMap (Option (SecretShare G)))} (hsort : ids.Pairwise (· < ·)) (h0 : (0 : ID) ∉ ids)
    (h1 : 1 ≤ T.toNat) (h2 : T.toNat < ids.length) (h : DoKeygen sha coins k T ids r) :
    (k = .udp ∧ r = .panic) ∨ (k = .udp ∧ ∃ rn, r = .err (.session ⟨0, rn, .timeout⟩)) ∨
      ∃ pub secrets, r = .ok (some pub, secrets) ∧ GoodPub ids T (Props.Spec.jointPoly ids T.toNat coins) pub ∧
        ∀ i ∈ ids, secrets.get? i = some (some (goodShare (Props.Spec.jointPoly ids T.toNat coins) i)) := by
  have hnd : ids.Nodup := hsort.imp fun h => UInt16.ne_of_lt h
  have hacc : ∀ now : ID → Nat, ∃ handlers, newHandlers (fun id => Keygen.newKeygenState (G := G) sha id (IDSlice.new ids) T k.timeout (now id)) ids [] =
      .ok handlers := by
    intro now
    apply newHandlers_of
    intro id hid
    rw [new_sorted hsort]
    exact Props.C34_accepts id ids T k.timeout (now id) (hsort.imp UInt16.le_of_lt) hnd hid h1 (by omega)
  cases h with
  | @noHandler now e h => obtain ⟨_, h'⟩ := hacc now; rw [h] at h'; cases h'
  | @crash now h => obtain ⟨_, h'⟩ := hacc now; rw [h] at h'; cases h'
  | @waited now handlers init ord r hh hi hw =>
    obtain ⟨hs, hk⟩ := keygenSetup_of hsort h0 hh hi
    have hne : ids ≠ [] := by rintro rfl; simp at h2
    obtain ⟨j, hj⟩ := List.exists_mem_of_ne_nil _ hne
    obtain ⟨r₀, P⟩ := Props.keygen_protocol hs coins hj
    have hsafe : ∀ S, k.steps (Keygen.impl sha) ids coins (k.start init) S → (k.crash (Keygen.impl sha) ids coins S → k = .udp) ∧ ∀ i ∈ ids,
        ((k.session S i).waitForError = some none →
          (k.session S i).round.output.secretKey = some (goodShare (Props.Spec.jointPoly ids T.toNat coins) i) ∧
          ∃ p, (k.session S i).round.output.pub = some p ∧ GoodPub ids T (Props.Spec.jointPoly ids T.toNat coins) p) ∧
        ∀ e, (k.session S i).waitForError = some (some e) → k = .udp ∧ ∃ rn, e = ⟨0, rn, .timeout⟩ := by
      have hconv : ∀ (i : ID) (r : Keygen.Round G), Props.Spec.KeygenResult ids T (Props.Spec.jointPoly ids T.toNat coins) i r →
          r.output.secretKey = some (goodShare (Props.Spec.jointPoly ids T.toNat coins) i) ∧
          ∃ p, r.output.pub = some p ∧ GoodPub ids T (Props.Spec.jointPoly ids T.toNat coins) p := by
        rintro i r ⟨g1, p, g2, g3, g4, g5, g6, _⟩
        exact ⟨g1, p, g2, g3, g4, g5, g6⟩
      intro S hS
      cases k with
      | channel =>
        obtain ⟨h3, h4⟩ := chan_wait P (Keygen.impl_stable sha) hS
        refine ⟨fun h => absurd h h3, fun i hi => ⟨fun hw => ?_, fun e he => ?_⟩⟩
        · exact hconv i _ ((Props.C72_keygen_safe hs coins S hS i hi).2.2 (h4 i hi none hw).1).1
        · exact absurd (h4 i hi _ he).2 (by simp)
      | udp =>
        obtain ⟨_, h4⟩ := udp_wait P (Keygen.impl_stable sha) (Props.keygen_fits hs coins) hS
        refine ⟨fun _ => rfl, fun i hi => ⟨fun hw => ?_, fun e he => ⟨rfl, ?_⟩⟩⟩
        · obtain ⟨h5, h6⟩ := h4 i hi _ hw
          exact hconv i _ ((Props.C77_keygen_safe hs coins S hS i hi).2.1 h5 h6)
        · obtain ⟨h5, h6⟩ := h4 i hi _ he
          rcases (Props.C77_keygen_safe hs coins S hS i hi).1 with ⟨_, h7⟩ | h7
          · rw [h6] at h7
            exact ⟨_, Option.some.inj h7⟩
          · rw [h6] at h7
            cases h7
    rcases keygenWait (C := k = .udp) (E := fun e => k = .udp ∧ ∃ rn, e = ⟨0, rn, .timeout⟩)
      (share := goodShare (Props.Spec.jointPoly ids T.toNat coins)) (P := GoodPub ids T (Props.Spec.jointPoly ids T.toNat coins)) hsafe hw
      (steps_refl k _) (fun i hi => (hk ord i).mp hi) with ⟨rfl, h⟩ | ⟨e, rfl, h, rn, rfl⟩ | ⟨pub, secrets, rfl, g1, g2⟩
    · exact .inl ⟨h, rfl⟩
    · exact .inr (.inl ⟨h, rn, rfl⟩)
    · obtain ⟨p, rfl, hp⟩ := g2 (.inl (List.ne_nil_of_mem ((hk ord j).mpr hj)))
      exact .inr (.inr ⟨p, secrets, rfl, hp, fun i hi => g1 i (.inl ((hk ord i).mpr hi))⟩)

open Polynomial in
theorem newSign_ok {k : Kind} {ids sids : IDSlice} {T : UInt16} {F : Scalar[X]} {pub : Public G} {secrets : GoMap (Option (SecretShare G))}
    {message : Bytes} (hsort : ids.Pairwise (· < ·)) (h0 : (0 : ID) ∉ ids) (hsub : List.Sublist sids ids) (hpub : GoodPub ids T F pub)
    (hsec : ∀ i ∈ ids, secrets.get? i = some (some (goodShare F i))) (now : ID → Nat) (i : ID) (hi : i ∈ sids) :
    (∃ s, newSign sha k sids pub secrets message now i = .ok s) ∧
    newSign sha k sids pub secrets message now i = Sign.newSignState sha sids (goodShare F i) pub message k.timeout (now i) := by
  have hs' : sids.Pairwise (· < ·) := hsort.sublist hsub
  have heq : newSign sha k sids pub secrets message now i = Sign.newSignState sha sids (goodShare F i) pub message k.timeout (now i) := by
    rw [newSign, hsec i (hsub.mem hi), new_sorted hs']
    rfl
  refine ⟨?_, heq⟩
  rw [heq]
  obtain ⟨g1, g2, g3, g4⟩ := hpub
  refine Props.C42_accepts _ _ _ _ _ _ (hs'.imp UInt16.le_of_lt) (by rw [g1]; exact hsort.imp UInt16.le_of_lt) hi fun id hid => ?_
  refine ⟨by rw [g1]; exact hsub.mem hid, fun h => h0 (h ▸ hsub.mem hid), ?_⟩
  rw [g4 id (hsub.mem hid)]
  simp

open Polynomial in
theorem signSetup_of {k : Kind} {ids sids : IDSlice} {T : UInt16} {F : Scalar[X]} {pub : Public G} {secrets : GoMap (Option (SecretShare G))}
    {message : Bytes} {now : ID → Nat} {handlers : GoMap (State G (Sign.Round G))} {init : ID → State G (Sign.Round G)}
    (hsort : ids.Pairwise (· < ·)) (h0 : (0 : ID) ∉ ids) (hsub : List.Sublist sids ids) (hlen : T.toNat < sids.length) (hF : F.natDegree ≤ T.toNat)
    (hpub : GoodPub ids T F pub) (hsec : ∀ i ∈ ids, secrets.get? i = some (some (goodShare F i)))
    (h : newHandlers (newSign sha k sids pub secrets message now) sids [] = .ok handlers)
    (hinit : ∀ id s, handlers.get? id = some s → init id = s) :
    Props.Spec.SignSetup sha sids T F message (goodShare F) (fun _ => pub) (fun _ => k.timeout) now init ∧
      ∀ ord : MapOrder, (∀ id, id ∈ (ord.order _ handlers).keys ↔ id ∈ sids) ∧ (ord.order _ handlers).keys.length = sids.length := by
  have hs' : sids.Pairwise (· < ·) := hsort.sublist hsub
  have hnd : sids.Nodup := hs'.imp fun h => UInt16.ne_of_lt h
  obtain ⟨h1, h2, h3⟩ := newHandlers_ok hnd h
  have hk := mem_keys_order (h3 List.nodup_nil) (fun i hi => (h1 i hi).imp fun s hs => hs.2) h2
  refine ⟨⟨hs'.imp UInt16.le_of_lt, hnd, hF, hlen, fun _ _ => rfl, fun _ _ => rfl, fun _ _ => hpub.2.2.1,
    fun _ _ k hk => hpub.2.2.2 k (hsub.mem hk), fun i hi => ?_⟩, fun ord => ⟨hk ord, ?_⟩⟩
  · obtain ⟨s, g1, g2⟩ := h1 i hi
    rw [(newSign_ok hsort h0 hsub hpub hsec now i hi).2] at g1
    rw [g1, hinit i s g2]
  · apply List.Perm.length_eq
    refine (List.perm_ext_iff_of_nodup ?_ hnd).mpr (hk ord)
    exact (h3 List.nodup_nil).perm (ord.perm _ handlers)

open Curve Polynomial

theorem verdict_ok {sha : Sha512} {key : RG} {message : Bytes} {sig : Signature RG} (h : PublicKey.verify sha key message sig = .ok true) :
    verdict sha key message none (some sig) = .ok 0 := by
  simp [verdict, h, Props.C51_crypto_ed25519]

theorem sign_safe {k : Kind} {ids : IDSlice} {T : UInt16} {F : Scalar[X]} {message : Bytes} {secret : ID → SecretShare RG}
    {pub : ID → Public RG} {timeout now : ID → Nat} {init : ID → State RG (Sign.Round RG)} {coins : ID → Coins}
    (hs : Props.Spec.SignSetup sha ids T F message secret pub timeout now init) (hcoins : ∀ i ∈ ids, coins i 0 ≠ 0 ∧ coins i 1 ≠ 0) :
    ∃ sig, PublicKey.verify sha (F.eval 0 • (RGroup.base : RG)) message sig = .ok true ∧
      ∀ S, k.steps (Sign.impl sha) ids coins (k.start init) S → (k.crash (Sign.impl sha) ids coins S → False) ∧ ∀ i ∈ ids,
        ((k.session S i).waitForError = some none → (k.session S i).round.output.signature = some sig) ∧
        ∀ e, (k.session S i).waitForError = some (some e) → k = .udp := by
  obtain ⟨r₀, P⟩ := Props.sign_protocol hs coins hcoins
  cases k with
  | channel =>
    obtain ⟨sig, hv, hsig⟩ := Props.C72_sign_safe hs coins hcoins
    refine ⟨sig, hv, fun S hS => ?_⟩
    obtain ⟨h3, h4⟩ := chan_wait P (Sign.impl_stable sha) hS
    refine ⟨fun h => h3 h, fun i hi => ⟨fun hw => ?_, fun e he => ?_⟩⟩
    · exact ((hsig S hS i hi).2.2 (h4 i hi none hw).1).1
    · exact absurd (h4 i hi _ he).2 (by simp)
  | udp =>
    obtain ⟨sig, hv, hsig⟩ := Props.C76_sign hs coins hcoins
    refine ⟨sig, hv, fun S hS => ?_⟩
    obtain ⟨⟨N, r⟩, h4⟩ := udp_wait P (Sign.impl_stable sha) (Props.sign_fits hs.zero message F coins) hS
    refine ⟨fun h => ?_, fun i hi => ⟨fun hw => ?_, fun e he => rfl⟩⟩
    · obtain ⟨i, hi, hc⟩ := Udp.crash_callback (fun N hN i hi op ha _ => (hsig N hN i hi).2.2 op ha) r h
      obtain ⟨s, ret, h'⟩ := (hsig N r.path i hi).2.2 .callback (Or.inl rfl)
      rw [hc] at h'
      cases h'
    · obtain ⟨h5, h6⟩ := h4 i hi _ hw
      have := (hsig N r.path i hi).2.1
      rw [← r.state i hi] at this
      exact this h5 h6

theorem doSign {k : Kind} {ids sids : IDSlice} {T : UInt16} {F : Scalar[X]} {pub : Public RG} {secrets : GoMap (Option (SecretShare RG))}
    {message : Bytes} {coins : ID → Coins} {r : Outcome Err Unit} (hsort : ids.Pairwise (· < ·)) (h0 : (0 : ID) ∉ ids)
    (hsub : List.Sublist sids ids) (hlen : T.toNat < sids.length) (hF : F.natDegree ≤ T.toNat) (hpub : GoodPub ids T F pub)
    (hsec : ∀ i ∈ ids, secrets.get? i = some (some (goodShare F i))) (hcoins : ∀ i ∈ sids, coins i 0 ≠ 0 ∧ coins i 1 ≠ 0)
    (h : DoSign sha coins k sids secrets message (some pub) r) :
    r = .ok () ∨ k = .udp ∧ ∃ n, 1 ≤ n ∧ n ≤ sids.length ∧ r = .err (.failures n) := by
  have hacc : ∀ now : ID → Nat, ∃ handlers, newHandlers (newSign sha k sids pub secrets message now) sids [] = .ok handlers := by
    intro now
    apply newHandlers_of
    intro id hid
    exact (newSign_ok hsort h0 hsub hpub hsec now id hid).1
  cases h with
  | @noHandler _ now e h => obtain ⟨_, h'⟩ := hacc now; rw [h] at h'; cases h'
  | @panic _ now h => obtain ⟨_, h'⟩ := hacc now; rw [h] at h'; cases h'
  | @waited _ now handlers init ord r hh hi hw =>
    obtain ⟨hs, hk⟩ := signSetup_of hsort h0 hsub hlen hF hpub hsec hh hi
    obtain ⟨sig, hv, hsafe⟩ := sign_safe (k := k) hs hcoins
    rw [← hpub.2.2.1] at hv
    rcases signWait (C := False) (E := fun _ => k = .udp) (verdict_ok hv) hsafe hw (steps_refl k _) (fun i hi => ((hk ord).1 i).mp hi) with
      ⟨_, h⟩ | ⟨m, rfl, h1, h2, h3⟩
    · exact h.elim
    · rcases Nat.eq_zero_or_pos m with rfl | hm
      · exact .inl rfl
      · obtain ⟨_, h3⟩ := h3.resolve_left (by omega)
        refine .inr ⟨h3, m, hm, by rw [(hk ord).2] at h2; omega, ?_⟩
        rw [Outcome.ok_bind, if_pos (by omega)]

omit [RGroup G] in
/-- Making the handlers in the two programs. -/
theorem init_exists {R : Type} {l : List ID} {handlers : GoMap (State G R)} (hne : l ≠ []) (h : ∀ i ∈ l, ∃ s, handlers.get? i = some s) :
    ∃ init : ID → State G R, ∀ id s, handlers.get? id = some s → init id = s := by
  obtain ⟨j, hj⟩ := List.exists_mem_of_ne_nil _ hne
  obtain ⟨s, _⟩ := h j hj
  exact ⟨fun id => (handlers.get? id).getD s, fun id s h => by simp [h]⟩

theorem keygenWait_all {impl : RoundImpl G (Keygen.Round G)} {k : Kind} {S₀ S : k.Sys G (Keygen.Round G)}
    (hS : k.steps impl ids coins S₀ S) {l : List ID} (hl : ∀ i ∈ l, (k.session S i).done = true ∧ (k.session S i).err = none)
    (pub : Option (Public G)) (secrets : GoMap (Option (SecretShare G))) :
    ∃ pub' secrets', KeygenWait impl ids coins k S₀ l pub secrets (.ok (pub', secrets')) := by
  induction l generalizing S₀ pub secrets with
  | nil => exact ⟨pub, secrets, .done⟩
  | cons a l ih =>
    obtain ⟨h1, h2⟩ := hl a List.mem_cons_self
    obtain ⟨pub', secrets', h⟩ := ih (steps_refl k S) (fun i hi => hl i (List.mem_cons_of_mem _ hi)) (k.session S a).round.output.pub
      (secrets.set a (k.session S a).round.output.secretKey)
    exact ⟨pub', secrets', .next hS (by simp [State.waitForError, h1, h2]) h⟩

theorem signWait_all {impl : RoundImpl G (Sign.Round G)} {key : G} {message : Bytes} {k : Kind} {S₀ S : k.Sys G (Sign.Round G)} {sig : Signature G}
    (hv : verdict sha key message none (some sig) = .ok 0) (hS : k.steps impl ids coins S₀ S) {l : List ID}
    (hl : ∀ i ∈ l, (k.session S i).done = true ∧ (k.session S i).err = none ∧ (k.session S i).round.output.signature = some sig) :
    SignWait impl sha key message ids coins k S₀ l 0 (.ok 0) := by
  induction l generalizing S₀ with
  | nil => exact .done
  | cons a l ih =>
    obtain ⟨h1, h2, h3⟩ := hl a List.mem_cons_self
    exact .next (d := 0) hS (by simp [State.waitForError, h1, h2]; rfl) (by rw [h3]; exact hv) (ih (steps_refl k S) fun i hi => hl i (List.mem_cons_of_mem _ hi))

theorem keygen_finish {k : Kind} {ids : IDSlice} {T : UInt16} {timeout now : ID → Nat} {init : ID → State G (Keygen.Round G)}
    (hs : Props.Spec.KeygenSetup sha ids T timeout now init) (coins : ID → Coins) (hne : ids ≠ []) :
    ∃ S, k.steps (Keygen.impl sha) ids coins (k.start init) S ∧ ∀ i ∈ ids, (k.session S i).done = true ∧ (k.session S i).err = none := by
  cases k with
  | channel =>
    obtain ⟨S, h1, h2⟩ := Props.C72_keygen_can_finish hs coins hne
    exact ⟨S, h1, fun i hi => ⟨(h2 i hi).1, (Props.C72_keygen_safe hs coins S h1 i hi).1⟩⟩
  | udp =>
    obtain ⟨S, h1, h2⟩ := Props.C77_keygen_can_finish hs coins hne
    exact ⟨S, h1, fun i hi => ⟨(h2 i hi).1, (h2 i hi).2.1⟩⟩

theorem sign_finish {k : Kind} {ids : IDSlice} {T : UInt16} {F : Scalar[X]} {message : Bytes} {secret : ID → SecretShare G}
    {pub : ID → Public G} {timeout now : ID → Nat} {init : ID → State G (Sign.Round G)} {coins : ID → Coins}
    (hs : Props.Spec.SignSetup sha ids T F message secret pub timeout now init) (hcoins : ∀ i ∈ ids, coins i 0 ≠ 0 ∧ coins i 1 ≠ 0)
    (h2 : 2 ≤ ids.length) :
    ∃ S, k.steps (Sign.impl sha) ids coins (k.start init) S ∧ ∀ i ∈ ids, (k.session S i).done = true ∧ (k.session S i).err = none := by
  cases k with
  | channel =>
    obtain ⟨S, h1, h2⟩ := Props.C72_sign_can_finish hs coins hcoins h2
    obtain ⟨_, _, h3⟩ := Props.C72_sign_safe hs coins hcoins
    exact ⟨S, h1, fun i hi => ⟨(h2 i hi).1, (h3 S h1 i hi).1⟩⟩
  | udp =>
    obtain ⟨S, h1, h2⟩ := Props.C77_sign_can_finish hs coins hcoins h2
    exact ⟨S, h1, fun i hi => ⟨(h2 i hi).1, (h2 i hi).2.1⟩⟩

end Frosted

namespace Props

open Frosted Curve

section

variable {sha : Sha512} {N T : UInt16} {kcoins coins : ID → Coins}

theorem frosted_ids (hT : T < N) (hN : N.toNat ≤ 65494) :
    (setup N T).2.1.Pairwise (· < ·) ∧ (0 : ID) ∉ (setup N T).2.1 ∧ T.toNat < (setup N T).2.1.length ∧
      List.Sublist (setup N T).2.2 (setup N T).2.1 ∧ (setup N T).2.2.length = T.toNat + 1 := by
  obtain ⟨h1, h2, h3⟩ := setup_keygenIDs T hN
  have h' := UInt16.lt_iff_toNat_lt.mp hT
  rw [setup_signIDs hT]
  exact ⟨h1, h2, by omega, List.take_sublist _ _, by rw [List.length_take]; omega⟩

theorem frosted_cases {k : Kind} {r : Outcome Err Unit} (h0 : T ≠ 0) (hT : T < N) (hN : N.toNat ≤ 65494)
    (hcoins : ∀ i ∈ (setup N T).2.2, coins i 0 ≠ 0 ∧ coins i 1 ≠ 0) (h : Test RG sha kcoins coins k N T r) :
    r = .ok () ∨ k = .udp ∧ (r = .panic ∨ (∃ rn, r = .err (.session ⟨0, rn, .timeout⟩)) ∨
      ∃ n, 1 ≤ n ∧ n ≤ T.toNat + 1 ∧ r = .err (.failures n)) := by
  obtain ⟨g1, g2, g3, g4, g5⟩ := frosted_ids hT hN
  have h1 : 1 ≤ T.toNat := Nat.one_le_iff_ne_zero.mpr fun h => h0 (UInt16.toNat_inj.mp h)
  cases h with
  | @keygenFailed e h =>
    rcases doKeygen g1 g2 h1 g3 h with ⟨_, h⟩ | ⟨hk, rn, h⟩ | ⟨_, _, h, _⟩
    · cases h
    · cases h
      exact .inr ⟨hk, .inr (.inl ⟨rn, rfl⟩)⟩
    · cases h
  | keygenCrashed h =>
    rcases doKeygen g1 g2 h1 g3 h with ⟨hk, _⟩ | ⟨_, _, h⟩ | ⟨_, _, h, _⟩
    · exact .inr ⟨hk, .inl rfl⟩
    · cases h
    · cases h
  | @signed shares secrets r h h' =>
    rcases doKeygen g1 g2 h1 g3 h with ⟨_, h⟩ | ⟨_, _, h⟩ | ⟨pub, secrets', h, hp, hsec⟩
    · cases h
    · cases h
    · cases h
      rcases doSign g1 g2 g4 (by omega) (jointPoly_natDegree _ _ _) hp hsec hcoins h' with rfl | ⟨hk, n, h1, h2, h3⟩
      · exact .inl rfl
      · exact .inr ⟨hk, .inr (.inr ⟨n, h1, by omega, h3⟩)⟩

/-- What the loop of `DoSign` counts for one handler: nothing exactly if `WaitForError` returned nil and the signature, if there is one,
verifies, by the code and by crypto/ed25519; otherwise one failure.  A missing signature is not counted. -/
theorem C79_verdict (sha : Sha512) (key : RG) (message : Bytes) (err : Option StateErr) (sig : Option (Signature RG)) :
    (verdict sha key message err sig = .ok 0 ∨ verdict sha key message err sig = .ok 1) ∧
    (verdict sha key message err sig = .ok 0 ↔ err = none ∧ ∀ s, sig = some s →
      s.S • (base : RG) = s.R + Spec.challenge sha s.R key message • key ∧
      Ed25519.verify sha (PublicKey.toEd25519 key) message (Signature.toEd25519 s) = .ok true) := by
  unfold verdict
  cases err with
  | some e => simp
  | none =>
    cases sig with
    | none => simp
    | some s =>
      obtain ⟨b, h1, h2⟩ := C50_verify_iff sha key message s
      simp only [C51_crypto_ed25519, h1, Outcome.ok_bind, Option.some.injEq, forall_eq', ← h2]
      cases b <;> simp

/-- C79: over channels, `FROSTestChannel(N, T)` returns no error and does not panic, if it returns: for any number of parties below
65495 and any threshold that key generation accepts, in any execution, whatever the parties draw during key generation; signers must
not draw 0. -/
theorem C79_channel (h0 : T ≠ 0) (hT : T < N) (hN : N.toNat ≤ 65494) (hcoins : ∀ i ∈ (setup N T).2.2, coins i 0 ≠ 0 ∧ coins i 1 ≠ 0)
    {r : Outcome Err Unit} (h : Test RG sha kcoins coins .channel N T r) : r = .ok () := by
  rcases frosted_cases h0 hT hN hcoins h with h | ⟨h, _⟩
  · exact h
  · cases h

/-- C79: over UDP, `FROSTestUDP(N, T)` succeeds, or reports a time-out in key generation, or reports between 1 and `T + 1` failed
signers, or panics: nobody is ever blamed. -/
theorem C79_udp (h0 : T ≠ 0) (hT : T < N) (hN : N.toNat ≤ 65494) (hcoins : ∀ i ∈ (setup N T).2.2, coins i 0 ≠ 0 ∧ coins i 1 ≠ 0)
    {r : Outcome Err Unit} (h : Test RG sha kcoins coins .udp N T r) :
    r = .ok () ∨ r = .panic ∨ (∃ rn, r = .err (.session ⟨0, rn, .timeout⟩)) ∨ ∃ n, 1 ≤ n ∧ n ≤ T.toNat + 1 ∧ r = .err (.failures n) := by
  rcases frosted_cases h0 hT hN hcoins h with h | ⟨_, h⟩
  · exact .inl h
  · exact .inr h

/-- C79: the only panics of `FROSTestUDP` are those of a time-out before a session has begun: a handler about to panic in the key
generation means that a party is still in round 0 and its timer has run out. -/
theorem C79_udp_crash_only_early {G : Type} [RGroup G] {ids : IDSlice} {timeout now : ID → Nat} {init : ID → State G (Keygen.Round G)}
    (hs : Spec.KeygenSetup sha ids T timeout now init) (S : Udp.Sys G (Keygen.Round G))
    (hp : Udp.Steps (Keygen.impl sha) ids kcoins (Udp.start init fun _ => []) S) (h : Udp.Crash (Keygen.impl sha) ids kcoins S) :
    ∃ i ∈ ids, (S.node i).state.roundNumber = 0 ∧ (S.node i).state.timer.fired ≠ 0 :=
  keygen_crash hs kcoins hp h

/-- C79: such a panic can happen, for every number of parties and every threshold: a party's timer runs out before its handler gets to
call `ProcessAll` for the first time. -/
theorem C79_udp_can_crash {G : Type} [RGroup G] (h0 : T ≠ 0) (hT : T < N) (hN : N.toNat ≤ 65494) : Test G sha kcoins coins .udp N T .panic := by
  obtain ⟨g1, g2, g3, _⟩ := frosted_ids hT hN
  have h1 : 1 ≤ T.toNat := Nat.one_le_iff_ne_zero.mpr fun h => h0 (UInt16.toNat_inj.mp h)
  have hnd : (setup N T).2.1.Nodup := g1.imp fun h => UInt16.ne_of_lt h
  have hne : (setup N T).2.1 ≠ [] := fun h => by rw [h] at g3; simp at g3
  obtain ⟨handlers, hh⟩ := newHandlers_of (mk := fun id => Keygen.newKeygenState (G := G) sha id (IDSlice.new (setup N T).2.1) T Kind.udp.timeout 0)
    (l := (setup N T).2.1) [] (fun id hid => by
      rw [new_sorted g1]
      exact C34_accepts id _ T _ _ (g1.imp UInt16.le_of_lt) hnd hid h1 (by omega))
  obtain ⟨init, hi⟩ := init_exists hne fun i hi => ((newHandlers_ok hnd hh).1 i hi).imp fun s h => h.2
  obtain ⟨hs, hk⟩ := keygenSetup_of g1 g2 hh hi
  refine .keygenCrashed (.waited (ord := .insertion) hh hi ?_)
  obtain ⟨j, hj⟩ := List.exists_mem_of_ne_nil _ hne
  obtain ⟨a, l, hl⟩ := List.exists_cons_of_ne_nil (List.ne_nil_of_mem ((hk .insertion j).mpr hj))
  rw [hl]
  obtain ⟨r₀, hn, hinit⟩ := newKeygenState_ok.mp (hs.start j hj)
  have hpoly : r₀.polynomial = none := by
    unfold Keygen.newRound at hn
    simp only [Outcome.bind_eq_ok, Outcome.failIf_eq_ok, Outcome.pure_def, Outcome.ok.injEq] at hn
    obtain ⟨_, _, _, _, _, _, h4⟩ := hn
    rw [← h4]
  let d := Kind.udp.timeout
  let s₁ : State G (Keygen.Round G) := { State.newBaseState (Keygen.impl sha) r₀ d 0 with timer := ⟨d, 0 + d, some (0 + d), 0⟩ }
  let s₂ : State G (Keygen.Round G) := { State.newBaseState (Keygen.impl sha) r₀ d 0 with timer := ⟨d, 0 + d, none, 1⟩ }
  have e1 : State.step (Keygen.impl sha) (init j) (.advance d) = some (s₁, .nothing) := by
    rw [hinit]
    simp [State.step, State.newBaseState, Timer.new, s₁, d, Kind.timeout]
  have e2 : State.step (Keygen.impl sha) s₁ .fire = some (s₂, .nothing) := by
    simp [State.step, s₁, s₂, State.newBaseState]
  have e3 : State.step (Keygen.impl sha) s₂ .callback = none := by
    simp [State.step, s₂, State.newBaseState, State.timeoutCallback, State.reportError, State.finish, Keygen.impl, Keygen.reset, hpoly]
  let U : Udp.Sys G (Keygen.Round G) := Udp.start init fun _ => []
  have st1 : Udp.Step (Keygen.impl sha) (setup N T).2.1 kcoins U (U.set j { U.node j with state := s₁ }) :=
    .time hj (.inl ⟨_, rfl⟩) e1
  let U' := U.set j { U.node j with state := s₁ }
  have hU' : (U'.node j).state = s₁ := by simp [U', Udp.Sys.set]
  have st2 : Udp.Step (Keygen.impl sha) (setup N T).2.1 kcoins U' (U'.set j { U'.node j with state := s₂ }) :=
    .time hj (.inr (.inl rfl)) (by rw [hU']; exact e2)
  exact .crash (k := .udp) (S' := U'.set j { U'.node j with state := s₂ }) (Udp.Steps.tail (.tail (.refl _) st1) st2)
    (Udp.Crash.time hj (.inr (.inr rfl)) (by simpa [Udp.Sys.set] using e3))

/-- C79: there is a run of either test in which it returns nil. -/
theorem C79_runs (k : Kind) (h0 : T ≠ 0) (hT : T < N) (hN : N.toNat ≤ 65494) (hcoins : ∀ i ∈ (setup N T).2.2, coins i 0 ≠ 0 ∧ coins i 1 ≠ 0) :
    Test RG sha kcoins coins k N T (.ok ()) := by
  obtain ⟨g1, g2, g3, g4, g5⟩ := frosted_ids hT hN
  have h1 : 1 ≤ T.toNat := Nat.one_le_iff_ne_zero.mpr fun h => h0 (UInt16.toNat_inj.mp h)
  have hnd : (setup N T).2.1.Nodup := g1.imp fun h => UInt16.ne_of_lt h
  have hne : (setup N T).2.1 ≠ [] := fun h => by rw [h] at g3; simp at g3
  obtain ⟨handlers, hh⟩ := newHandlers_of (mk := fun id => Keygen.newKeygenState (G := RG) sha id (IDSlice.new (setup N T).2.1) T k.timeout 0)
    (l := (setup N T).2.1) [] (fun id hid => by
      rw [new_sorted g1]
      exact C34_accepts id _ T _ _ (g1.imp UInt16.le_of_lt) hnd hid h1 (by omega))
  obtain ⟨init, hi⟩ := init_exists hne fun i hi => ((newHandlers_ok hnd hh).1 i hi).imp fun s h => h.2
  obtain ⟨hs, hk⟩ := keygenSetup_of g1 g2 hh hi
  obtain ⟨S, h2, h3⟩ := keygen_finish (k := k) hs kcoins hne
  obtain ⟨pub, secrets, h4⟩ := keygenWait_all h2 (l := (MapOrder.insertion.order _ handlers).keys) (fun i hi => h3 i ((hk _ i).mp hi)) none []
  have hdk : DoKeygen sha kcoins k T (setup N T).2.1 (.ok (pub, secrets)) := .waited (now := fun _ => 0) hh hi h4
  refine .signed hdk ?_
  rcases doKeygen g1 g2 h1 g3 hdk with ⟨_, h⟩ | ⟨_, _, h⟩ | ⟨p, _, h, hp, hsec⟩
  · cases h
  · cases h
  cases h
  have hnd' := g4.nodup hnd
  have hne' : (setup N T).2.2 ≠ [] := fun h => by rw [h] at g5; simp at g5
  obtain ⟨handlers', hh'⟩ := newHandlers_of (mk := newSign sha k (setup N T).2.2 p secrets (setup N T).1 fun _ => 0) (l := (setup N T).2.2) []
    fun id hid => (newSign_ok g1 g2 g4 hp hsec _ id hid).1
  obtain ⟨init', hi'⟩ := init_exists hne' fun i hi => ((newHandlers_ok hnd' hh').1 i hi).imp fun s h => h.2
  obtain ⟨hs', hk'⟩ := signSetup_of g1 g2 g4 (by omega) (jointPoly_natDegree _ _ _) hp hsec hh' hi'
  obtain ⟨sig, hv, hsafe⟩ := sign_safe (k := k) hs' hcoins
  rw [← hp.2.2.1] at hv
  obtain ⟨S', h5, h6⟩ := sign_finish (k := k) hs' hcoins (by omega)
  have := signWait_all (verdict_ok hv) h5 (l := (MapOrder.insertion.order _ handlers').keys) fun i hi => by
    have hi := ((hk' _).1 i).mp hi
    refine ⟨(h6 i hi).1, (h6 i hi).2, ((hsafe S' h5).2 i hi).1 ?_⟩
    simp [State.waitForError, (h6 i hi).1, (h6 i hi).2]
  exact DoSign.waited (r := .ok 0) hh' hi' this

/-- C79: but with three or more parties `FROSTestChannel` may never return, since its sessions have no timer: for each party there are
runs of the key generation after which the loop that waits for it never ends. -/
theorem C79_channel_can_hang {G : Type} [RGroup G] {ids : IDSlice} {timeout now : ID → Nat} {init : ID → State G (Keygen.Round G)}
    (hs : Spec.KeygenSetup sha ids T timeout now init) (h3 : 3 ≤ ids.length) (a : ID) (ha : a ∈ ids) :
    ∃ S, Chan.Steps (Keygen.impl sha) ids kcoins (Chan.start init) S ∧
      ∀ l pub secrets r, a ∈ l → (∀ i ∈ l, i ∈ ids) → ¬ KeygenWait (Keygen.impl sha) ids kcoins .channel S l pub secrets r := by
  obtain ⟨S, h1, h2⟩ := C72_keygen_can_hang hs kcoins h3 a ha
  obtain ⟨r₀, P⟩ := keygen_protocol hs kcoins ha
  refine ⟨S, h1, ?_⟩
  have key : ∀ S' l pub secrets r, KeygenWait (Keygen.impl sha) ids kcoins .channel S' l pub secrets r →
      Chan.Steps (Keygen.impl sha) ids kcoins S S' → a ∈ l → (∀ i ∈ l, i ∈ ids) → False := by
    intro S' l pub secrets r hw
    induction hw with
    | done => intro _ h; cases h
    | @next S' S'' id rest pub secrets r g1 g2 _ ih =>
      intro hst hl hsub
      have hst' := Chan.Steps.trans hst g1
      refine ih hst' ?_ fun i hi => hsub i (List.mem_cons_of_mem _ hi)
      rcases List.mem_cons.mp hl with rfl | hl
      · have := ((chan_wait P (Keygen.impl_stable sha) (Chan.Steps.trans h1 hst')).2 _ ha _ g2).1
        rw [(h2 _ hst').1] at this
        cases this
      · exact hl
    | @error S' S'' id rest pub secrets e g1 g2 =>
      intro hst _ hsub
      have := ((chan_wait P (Keygen.impl_stable sha) (Chan.Steps.trans h1 (Chan.Steps.trans hst g1))).2 id (hsub id List.mem_cons_self) _ g2).2
      cases this
    | @crash S' S'' id rest pub secrets g1 g2 =>
      intro hst _ _
      exact (chan_wait P (Keygen.impl_stable sha) (Chan.Steps.trans h1 (Chan.Steps.trans hst g1))).1 g2
  intro l pub secrets r hl hsub hw
  exact key S l pub secrets r hw (.refl _) hl hsub

/-- What key generation says to a threshold. -/
def Spec.refusal (T : UInt16) : GoErr := if T = 0 then .thresholdZero else .thresholdTooLarge

/-- C79: with a threshold that is 0 or not below the number of parties both tests return an error, always the same, and do not
panic. -/
theorem C79_should_fail {G : Type} [RGroup G] (k : Kind) (h1 : N ≠ 0) (h : T = 0 ∨ N ≤ T) (r : Outcome Err Unit) :
    Test G sha kcoins coins k N T r ↔ r = .err (.new (Spec.refusal T)) := by
  have hlen : (setup N T).2.1.length = N.toNat := by simp [setup]
  have hN0 : N.toNat ≠ 0 := fun h => h1 (UInt16.toNat_inj.mp h)
  obtain ⟨a, l, hl⟩ := List.exists_cons_of_ne_nil (l := (setup N T).2.1) fun h => by rw [h] at hlen; simp at hlen; omega
  have hnew : IDSlice.N (IDSlice.new (setup N T).2.1) = N := by
    apply UInt16.toNat_inj.mp
    rw [IDSlice.N, (C04_newIDSlice_sorted_perm _).2.1.length_eq, hlen, UInt16.toNat_ofNat']
    exact Nat.mod_eq_of_lt N.toNat_lt
  have hall : ∀ now : ID → Nat, newHandlers (fun id => Keygen.newKeygenState (G := G) sha id (IDSlice.new (setup N T).2.1) T k.timeout (now id))
      (setup N T).2.1 [] = .err (Spec.refusal T) := by
    intro now
    rw [hl, newHandlers, ← hl, Keygen.newKeygenState, Keygen.newRound, hnew]
    by_cases hT : T = 0
    · simp [Outcome.failIf, hT, Spec.refusal]
    · have : T > N - 1 := by
        have h := UInt16.le_iff_toNat_le.mp (h.resolve_left hT)
        rw [gt_iff_lt, UInt16.lt_iff_toNat_lt, UInt16.toNat_sub_of_le _ _ (by
          rw [UInt16.le_iff_toNat_le]
          exact Nat.one_le_iff_ne_zero.mpr hN0)]
        have : (1 : UInt16).toNat = 1 := rfl
        omega
      simp [Outcome.failIf, hT, Spec.refusal, this]
  constructor
  · intro ht
    have key : ∀ {q}, DoKeygen (G := G) sha kcoins k T (setup N T).2.1 q → q = .err (.new (Spec.refusal T)) := by
      intro q hq
      cases hq with
      | @noHandler now e h => rw [hall now] at h; cases h; rfl
      | @crash now h => rw [hall now] at h; cases h
      | @waited now _ _ _ _ h => rw [hall now] at h; cases h
    cases ht with
    | keygenFailed h => cases key h; rfl
    | keygenCrashed h => cases key h
    | signed h => cases key h
  · rintro rfl
    exact .keygenFailed (.noHandler (hall fun _ => 0))

/-- C79: for no parties the tests panic: `DoKeygen` returns nil for the public key and no error. -/
theorem C79_no_parties {G : Type} [RGroup G] (k : Kind) (r : Outcome Err Unit) : Test G sha kcoins coins k 0 T r ↔ r = .panic := by
  have hids : (setup 0 T).2.1 = [] := rfl
  constructor
  · intro ht
    have key : ∀ {q}, DoKeygen (G := G) sha kcoins k T (setup 0 T).2.1 q → q = .ok (none, []) := by
      intro q hq
      rw [hids] at hq
      cases hq with
      | noHandler h => cases h
      | crash h => cases h
      | @waited now handlers init ord r h _ hw =>
        cases h
        have : (ord.order (State G (Keygen.Round G)) []) = [] := List.Perm.eq_nil (ord.perm _ _)
        rw [this] at hw
        cases hw
        rfl
    cases ht with
    | keygenFailed h => cases key h
    | keygenCrashed h => cases key h
    | signed h h' =>
      cases key h
      cases h'
      rfl
  · rintro rfl
    obtain ⟨s⟩ : Nonempty (State G (Keygen.Round G)) := by
      obtain ⟨s, _⟩ := C34_accepts (G := G) (sha := sha) 1 [1, 2] 1 0 0 (by decide) (by decide) (by decide) (by decide) (by decide)
      exact ⟨s⟩
    exact .signed (shares := none) (secrets := []) (.waited (now := fun _ => 0) (handlers := []) (init := fun _ => s) (ord := .insertion) rfl
      (fun _ _ h => by cases h) .done) .nilShares

/-- C79: the calls that `main` expects to succeed, over channels, and those that it expects to fail. -/
theorem C79_main (n : UInt16) (hn : n ∈ [5, 10, 50]) :
    (∀ t ∈ [n / 2, n - 1], ∀ r, (∀ i ∈ (setup n t).2.2, coins i 0 ≠ 0 ∧ coins i 1 ≠ 0) → Test RG sha kcoins coins .channel n t r → r = .ok ()) ∧
    ∀ t ∈ [n, 0, n * 10], ∀ r, Test RG sha kcoins coins .udp n t r → ∃ e, r = .err (.new e) := by
  constructor
  · intro t ht r hc h
    refine C79_channel ?_ ?_ ?_ hc h
    all_goals
      clear h hc
      revert t n
      decide
  · intro t ht r h
    refine ⟨_, (C79_should_fail .udp ?_ ?_ r).mp h⟩
    · clear h ht
      revert n
      decide
    · clear h
      revert t n
      decide

/-- C79: what `main` prints: never "failed to fail"; "ok" for every call over channels, and "ok (failed)" for every call that should
fail; for the calls over UDP that should work "ok", or an error that blames nobody.  Only these can crash it. -/
theorem C79_main_output (ls : List (Call × Line)) (b : Bool) (h : Frosted.Main RG sha mainCalls ls b) :
    (∀ c l, (c, l) ∈ ls → (c.should = false → l = .okFailed) ∧ (c.should = true → l = .ok ∨ c.kind = .udp ∧
      ((∃ rn, l = .error (.session ⟨0, rn, .timeout⟩)) ∨ ∃ n, 1 ≤ n ∧ n ≤ c.T.toNat + 1 ∧ l = .error (.failures n)))) ∧
    (b = true → ls.map (·.1) = mainCalls) ∧
    (b = false → ∃ c rest, mainCalls = ls.map (·.1) ++ c :: rest ∧ c.kind = .udp ∧ c.should = true) := by
  have hc : ∀ c ∈ mainCalls, (c.should = true → c.T ≠ 0 ∧ c.T < c.N ∧ c.N.toNat ≤ 65494) ∧ (c.should = false → c.N ≠ 0 ∧ (c.T = 0 ∨ c.N ≤ c.T)) := by
    simp only [mainCalls, List.flatMap_cons, List.flatMap_nil, List.append_nil, List.cons_append, List.nil_append, List.mem_cons, List.not_mem_nil, or_false]
    rintro c (rfl | rfl | rfl | rfl | rfl | rfl | rfl | rfl | rfl | rfl | rfl | rfl | rfl | rfl | rfl | rfl | rfl | rfl | rfl | rfl | rfl) <;> decide
  revert h hc
  generalize mainCalls = cs
  intro h hc
  induction h with
  | done => exact ⟨by simp, fun _ => rfl, fun h => by cases h⟩
  | @crash c cs kcoins coins r hcoins ht hl =>
    refine ⟨by simp, (fun h => by cases h), fun _ => ⟨c, cs, rfl, ?_⟩⟩
    cases r with
    | ok => cases hl
    | err => cases hl
    | panic =>
      obtain ⟨h1, h2⟩ := hc c List.mem_cons_self
      cases hs : c.should with
      | false =>
        obtain ⟨g1, g2⟩ := h2 hs
        cases (C79_should_fail _ g1 g2 _).mp ht
      | true =>
        obtain ⟨g1, g2, g3⟩ := h1 hs
        refine ⟨?_, rfl⟩
        rcases frosted_cases g1 g2 g3 hcoins ht with h | ⟨h, _⟩
        · cases h
        · exact h
  | @call c cs kcoins coins r l ls b hcoins ht hl _ ih =>
    obtain ⟨i1, i2, i3⟩ := ih fun c' h => hc c' (List.mem_cons_of_mem _ h)
    refine ⟨?_, fun hb => by rw [List.map_cons, i2 hb], fun hb => ?_⟩
    · intro c' l' hmem
      rcases List.mem_cons.mp hmem with h | h
      · cases h
        obtain ⟨h1, h2⟩ := hc c List.mem_cons_self
        constructor
        · intro hs
          obtain ⟨g1, g2⟩ := h2 hs
          rw [(C79_should_fail _ g1 g2 _).mp ht] at hl
          simp [Call.line, hs] at hl
          exact hl.symm
        · intro hs
          obtain ⟨g1, g2, g3⟩ := h1 hs
          rcases frosted_cases g1 g2 g3 hcoins ht with rfl | ⟨hk, rfl | ⟨rn, rfl⟩ | ⟨n, n1, n2, rfl⟩⟩
          · simp [Call.line, hs] at hl
            exact .inl hl.symm
          · cases hl
          · simp [Call.line, hs] at hl
            exact .inr ⟨hk, .inl ⟨rn, hl.symm⟩⟩
          · simp [Call.line, hs] at hl
            exact .inr ⟨hk, .inr ⟨n, n1, n2, hl.symm⟩⟩
      · exact i1 c' l' h
    · obtain ⟨c', rest, g1, g2⟩ := i3 hb
      exact ⟨c', rest, by simp [g1], g2⟩

/-- C79: `main` can get to its end with nothing but "ok" and "ok (failed)", and can crash in its first call. -/
theorem C79_main_runs : Frosted.Main RG sha mainCalls (mainCalls.map fun c => (c, if c.should then .ok else .okFailed)) true ∧
    Frosted.Main RG sha mainCalls [] false := by
  have hc : ∀ c ∈ mainCalls, (c.should = true → c.T ≠ 0 ∧ c.T < c.N ∧ c.N.toNat ≤ 65494) ∧ (c.should = false → c.N ≠ 0 ∧ (c.T = 0 ∨ c.N ≤ c.T)) := by
    simp only [mainCalls, List.flatMap_cons, List.flatMap_nil, List.append_nil, List.cons_append, List.nil_append, List.mem_cons, List.not_mem_nil, or_false]
    rintro c (rfl | rfl | rfl | rfl | rfl | rfl | rfl | rfl | rfl | rfl | rfl | rfl | rfl | rfl | rfl | rfl | rfl | rfl | rfl | rfl | rfl) <;> decide
  constructor
  · revert hc
    generalize mainCalls = cs
    intro hc
    induction cs with
    | nil => exact .done
    | cons c cs ih =>
      obtain ⟨h1, h2⟩ := hc c List.mem_cons_self
      rw [List.map_cons]
      cases hs : c.should with
      | true =>
        obtain ⟨g1, g2, g3⟩ := h1 hs
        exact .call (kcoins := fun _ _ => 1) (coins := fun _ _ => 1) (fun _ _ => ⟨one_ne_zero, one_ne_zero⟩)
          (C79_runs c.kind g1 g2 g3 fun _ _ => ⟨one_ne_zero, one_ne_zero⟩) (by simp [Call.line, hs]) (ih fun c' h => hc c' (List.mem_cons_of_mem _ h))
      | false =>
        obtain ⟨g1, g2⟩ := h2 hs
        exact .call (kcoins := fun _ _ => 1) (coins := fun _ _ => 1) (fun _ _ => ⟨one_ne_zero, one_ne_zero⟩)
          ((C79_should_fail c.kind g1 g2 _).mpr rfl) (by simp [Call.line, hs]) (ih fun c' h => hc c' (List.mem_cons_of_mem _ h))
  · exact .crash (kcoins := fun _ _ => 1) (coins := fun _ _ => 1) (fun _ _ => ⟨one_ne_zero, one_ne_zero⟩)
      (C79_udp_can_crash (by decide) (by decide) (by decide)) rfl

/-- The hypotheses of the theorems hold for the first call of `main`, for coins that are all 1, and there are runs to speak of. -/
example : Test RG sha (fun _ _ => 1) (fun _ _ => 1) .channel 5 2 (.ok ()) ∧ Test RG sha (fun _ _ => 1) (fun _ _ => 1) .udp 5 2 (.ok ()) ∧
    Test RG sha (fun _ _ => 1) (fun _ _ => 1) .udp 5 2 .panic ∧ Test RG sha (fun _ _ => 1) (fun _ _ => 1) .udp 5 50 (.err (.new .thresholdTooLarge)) :=
  ⟨C79_runs .channel (by decide) (by decide) (by decide) fun _ _ => ⟨one_ne_zero, one_ne_zero⟩,
    C79_runs .udp (by decide) (by decide) (by decide) fun _ _ => ⟨one_ne_zero, one_ne_zero⟩,
    C79_udp_can_crash (by decide) (by decide) (by decide), (C79_should_fail .udp (by decide) (by decide) _).mpr rfl⟩

end

end Props

end Verif
