import Verif.Lemmas.PointersEnv
import Verif.Props.Helpers

/-!
C117: message objects that are used by others than the session they were handed to.
-/

namespace Verif.Props

open Verif State Outcome Pointers

variable {G : Type} [RGroup G] {sha : Sha512}

/-- The session has not ended, and keeps a pointer to the object. -/
def Spec.Needed {R : Type} (s : PState G R) (p : Ptr) : Prop := s.rest.done = false ∧ ((∃ k, (k, some p) ∈ s.received) ∨ p ∈ s.queue)

/-- A message with a share says for whom it is. -/
def Spec.Addressed (m : Message G) : Prop := m.keyGen2 ≠ none → m.header.toID ≠ 0

/-- The events of session `i`. -/
def Spec.eventsOf {ι : Type} [DecidableEq ι] (i : ι) (h : List (ι × State.Op G × Ret G)) : List (State.Op G × Ret G) := (h.filter fun x => decide (x.1 = i)).map fun x => x.2

/-- What a program does that uses nothing but `PartyRoutine`, with values for the messages. -/
def Spec.program {R : Type} (impl : RoundImpl G R) : List Pointers.Item → State G R → Option (List (Except RoutineErr (List Bytes)) × State G R)
  | [], t => some ([], t)
  | .call input ord coins :: rest, t => match Verif.partyRoutine impl ord coins input t with
    | none => none
    | some (t, res) => (Spec.program impl rest t).map fun x => (res :: x.1, x.2)
  | .advance dt :: rest, t => match State.step impl t (.advance dt) with
    | none => none
    | some (t, _) => Spec.program impl rest t
  | .fire :: rest, t => match State.step impl t .fire with
    | none => none
    | some (t, _) => Spec.program impl rest t
  | .callback :: rest, t => match State.step impl t .callback with
    | none => none
    | some (t, _) => Spec.program impl rest t

theorem free_iff {R : Type} (s : PState G R) (p : Ptr) : Free s p ↔ ¬ Spec.Needed s p := by
  unfold Free Spec.Needed
  cases s.rest.done <;> simp [mem_ptrs]

theorem free_eq {R : Type} : (Free : PState G R → Ptr → Prop) = fun s p => ¬ Spec.Needed s p := by
  funext s p
  exact propext (free_iff s p)

theorem only_eq {ι : Type} [DecidableEq ι] (i : ι) (h : List (ι × State.Op G × Ret G)) : Spec.eventsOf i h = only i h := by
  induction h with
  | nil => rfl
  | cons x h ih =>
    unfold Spec.eventsOf only at *
    by_cases hx : x.1 = i <;> simp [hx, ih]

theorem keygen_sharesOnly : SharesOnly (keygenAfter (G := G)) where
  other r m h := by
    unfold keygenAfter
    cases r.stage <;> try rfl
    simp only [wipe, h, Option.map_none]
    rw [← h]
  header r m := by
    unfold keygenAfter
    cases r.stage <;> rfl

theorem sign_sharesOnly : SharesOnly (signAfter (G := G)) where
  other _ _ _ := rfl
  header _ _ := rfl

theorem sign_last (sha : Sha512) : ∀ r : Sign.Round G, (Sign.impl sha).nextRound r = none → r.stage = .r2 := by
  intro r h
  simp only [Sign.impl] at h
  cases hs : r.stage <;> rw [hs] at h <;> first | rfl | cases h

/-- A program may write what it likes into the messages that a key generation does not keep: the session goes as one that is handed what the messages are at the time of the call. -/
theorem C117_written_keygen (r : Keygen.Round G) (timeout now : Nat) (mem₀ mem : Ptr → Message G) (h : List (State.Op G × Ret G)) (s : PState G (Keygen.Round G))
    (hh : EnvHist (Keygen.impl sha) keygenAfter (fun s p => ¬ Spec.Needed s p) mem₀ (Pointers.newBaseState (Keygen.impl sha) r timeout now) h mem s) :
    ∃ t, State.Hist (Keygen.impl sha) (State.newBaseState (Keygen.impl sha) r timeout now) h t ∧ Spec.SameBut s.rest t := by
  rw [← free_eq] at hh
  obtain ⟨t, ht, S⟩ := envHist_sim (Keygen.impl_stable sha) (keygen_lastOnly sha) hh
  exact ⟨t, ht, sameBut_strip S.rest⟩

/-- The same for signing. -/
theorem C117_written_sign (r : Sign.Round G) (timeout now : Nat) (mem₀ mem : Ptr → Message G) (h : List (State.Op G × Ret G)) (s : PState G (Sign.Round G))
    (hh : EnvHist (Sign.impl sha) signAfter (fun s p => ¬ Spec.Needed s p) mem₀ (Pointers.newBaseState (Sign.impl sha) r timeout now) h mem s) :
    ∃ t, State.Hist (Sign.impl sha) (State.newBaseState (Sign.impl sha) r timeout now) h t ∧ Spec.SameBut s.rest t := by
  rw [← free_eq] at hh
  obtain ⟨t, ht, S⟩ := envHist_sim (Sign.impl_stable sha) (sign_lastOnly sha) hh
  exact ⟨t, ht, sameBut_strip S.rest⟩

section

variable {R : Type} {impl : RoundImpl G R} {after : After G R} {last : R → Prop}

theorem shared_same {ι : Type} [DecidableEq ι] (hst : impl.Stable) (L : LastOnly impl after last) (hlast : ∀ r, impl.nextRound r = none → last r) (A : SharesOnly after) {r : ι → R}
    (hself : ∀ i j, impl.selfID (r i) = impl.selfID (r j) → i = j) {timeout now : ι → Nat} {mem₀ mem : Mem G} (hprop : ∀ p, Spec.Addressed (mem₀ p))
    {h : List (ι × State.Op G × Ret G)} {σ : ι → PState G R}
    (hh : Shared impl after (fun σ p m => Spec.Addressed m ∧ ∀ i, ¬ Spec.Needed (σ i) p) mem₀ (fun i => Pointers.newBaseState impl (r i) (timeout i) (now i)) h mem σ) (i : ι) :
    ∃ t, State.Hist impl (State.newBaseState impl (r i) (timeout i) (now i)) (Spec.eventsOf i h) t ∧ Spec.SameBut (σ i).rest t := by
  have he : (fun (σ : ι → PState G R) p (m : Message G) => Spec.Addressed m ∧ ∀ i, ¬ Spec.Needed (σ i) p) = fun σ p m => Proper m ∧ ∀ i, Free (σ i) p := by
    rw [free_eq]; rfl
  rw [he] at hh
  obtain ⟨_, ht⟩ := shared_sim hst L hlast A hself (timeout := timeout) (now := now) hprop hh
  obtain ⟨t, ht, S⟩ := ht i
  exact ⟨t, by rw [only_eq]; exact ht, sameBut_strip S.rest⟩

theorem program_same (hst : impl.Stable) (L : LastOnly impl after last) (hlast : ∀ r, impl.nextRound r = none → last r) {r : R} {timeout now : Nat}
    {pick : MapOrder → Mem G → GoMap (Option Ptr) → GoMap (Option Ptr)} (hpick : ∀ ord mem m, (pick ord mem m).Perm m ∧ viewMap mem (pick ord mem m) = ord.order _ (viewMap mem m))
    (items : List Item) {next : Ptr} {mem : Mem G} {s : PState G R} {t : State G R}
    (ht : ∃ h, State.Hist impl (State.newBaseState impl r timeout now) h t) (S : Sim mem mem s t) (B : Below next s) :
    match Pointers.program impl after pick items next mem s with
    | none => Spec.program impl items t = none
    | some (res, s') => ∃ t', Spec.program impl items t = some (res, t') ∧ Spec.SameBut s'.rest t' := by
  have timer : ∀ {s : PState G R} {t : State G R} {mem : Mem G} {next : Ptr} {op : State.Op G}, (op = .fire ∨ op = .callback ∨ ∃ dt, op = .advance dt) →
      (∃ h, State.Hist impl (State.newBaseState impl r timeout now) h t) → Sim mem mem s t → Below next s →
      match timerStep impl s op with
      | none => State.step impl t op = none
      | some s' => ∃ t' ret, State.step impl t op = some (t', ret) ∧ (∃ h, State.Hist impl (State.newBaseState impl r timeout now) h t') ∧ Sim mem mem s' t' ∧ Below next s' := by
    intro s t mem next op hop ht S B
    have h1 := timer_sim (impl := impl) S op hop
    cases hx : timerStep impl s op with
    | none => rw [hx] at h1; exact h1
    | some s' =>
      rw [hx] at h1
      obtain ⟨t', h2, S'⟩ := h1
      obtain ⟨h, ht⟩ := ht
      refine ⟨t', _, h2, ⟨_, .snoc ht h2⟩, S', ?_⟩
      simp only [timerStep, Option.map_eq_some_iff] at hx
      obtain ⟨x, _, rfl⟩ := hx
      exact B
  induction items generalizing next mem s t with
  | nil => exact ⟨t, rfl, sameBut_strip S.rest⟩
  | cons item items ih =>
    cases item with
    | call input ord coins =>
      simp only [Pointers.program, Spec.program]
      have h1 := partyRoutine_sim hst L hlast (hpick ord) coins input ht S B
      cases hx : Pointers.partyRoutine impl after (pick ord) ord coins input next mem s with
      | none => rw [hx] at h1; simp only [h1]
      | some x =>
        obtain ⟨⟨next', mem', s'⟩, res⟩ := x
        rw [hx] at h1
        obtain ⟨t', h2, ht', S', B'⟩ := h1
        rw [h2]
        simp only
        have h3 := ih ht' S' B'
        cases hy : Pointers.program impl after pick items next' mem' s' with
        | none => rw [hy] at h3; simp only [h3, Option.map_none]
        | some y =>
          rw [hy] at h3
          obtain ⟨t'', h4, h5⟩ := h3
          exact ⟨t'', by rw [h4]; rfl, h5⟩
    | advance dt =>
      simp only [Pointers.program, Spec.program]
      have h1 := timer (.inr (.inr ⟨dt, rfl⟩)) ht S B
      cases hx : timerStep impl s (.advance dt) with
      | none => rw [hx] at h1; simp only [h1]
      | some s' =>
        rw [hx] at h1
        obtain ⟨t', _, h2, ht', S', B'⟩ := h1
        rw [h2]
        exact ih ht' S' B'
    | fire =>
      simp only [Pointers.program, Spec.program]
      have h1 := timer (.inl rfl) ht S B
      cases hx : timerStep impl s .fire with
      | none => rw [hx] at h1; simp only [h1]
      | some s' =>
        rw [hx] at h1
        obtain ⟨t', _, h2, ht', S', B'⟩ := h1
        rw [h2]
        exact ih ht' S' B'
    | callback =>
      simp only [Pointers.program, Spec.program]
      have h1 := timer (.inr (.inl rfl)) ht S B
      cases hx : timerStep impl s .callback with
      | none => rw [hx] at h1; simp only [h1]
      | some s' =>
        rw [hx] at h1
        obtain ⟨t', _, h2, ht', S', B'⟩ := h1
        rw [h2]
        exact ih ht' S' B'

omit [RGroup G] in
theorem start_below (impl : RoundImpl G R) (r : R) (timeout now : Nat) (next : Ptr) : Below next (Pointers.newBaseState impl r timeout now) := by
  intro p hp
  exfalso
  rcases hp with hp | hp
  · simp [Pointers.newBaseState, ptrs] at hp
  · cases hp

theorem program_iff (hst : impl.Stable) (L : LastOnly impl after last) (hlast : ∀ r, impl.nextRound r = none → last r) {r : R} {timeout now : Nat}
    {pick : MapOrder → Mem G → GoMap (Option Ptr) → GoMap (Option Ptr)} (hpick : ∀ ord mem m, (pick ord mem m).Perm m ∧ viewMap mem (pick ord mem m) = ord.order _ (viewMap mem m))
    (items : List Item) {next : Ptr} {mem : Mem G} :
    (Pointers.program impl after pick items next mem (Pointers.newBaseState impl r timeout now) = none ↔ Spec.program impl items (State.newBaseState impl r timeout now) = none) ∧
    ∀ res s, Pointers.program impl after pick items next mem (Pointers.newBaseState impl r timeout now) = some (res, s) →
      ∃ t, Spec.program impl items (State.newBaseState impl r timeout now) = some (res, t) ∧ Spec.SameBut s.rest t := by
  have h := program_same hst L hlast hpick items (next := next) ⟨_, .nil⟩ (start_sim impl r timeout now mem) (start_below impl r timeout now next)
  cases hx : Pointers.program impl after pick items next mem (Pointers.newBaseState impl r timeout now) with
  | none =>
    rw [hx] at h
    exact ⟨⟨fun _ => h, fun _ => rfl⟩, fun _ _ h => (by cases h)⟩
  | some x =>
    rw [hx] at h
    obtain ⟨t, h1, h2⟩ := h
    refine ⟨⟨fun h => (by cases h), fun h => (by rw [h] at h1; cases h1)⟩, fun res s h => ?_⟩
    cases h
    exact ⟨t, h1, h2⟩

end

/-- Key generations of different parties in one program, which are handed pointers to the same messages, do not disturb each other. -/
theorem C117_shared_keygen {ι : Type} [DecidableEq ι] (r : ι → Keygen.Round G) (hself : ∀ i j, (r i).selfID = (r j).selfID → i = j) (timeout now : ι → Nat)
    (mem₀ mem : Ptr → Message G) (haddr : ∀ p, Spec.Addressed (mem₀ p)) (h : List (ι × State.Op G × Ret G)) (σ : ι → PState G (Keygen.Round G))
    (hh : Shared (Keygen.impl sha) keygenAfter (fun σ p m => Spec.Addressed m ∧ ∀ i, ¬ Spec.Needed (σ i) p) mem₀
      (fun i => Pointers.newBaseState (Keygen.impl sha) (r i) (timeout i) (now i)) h mem σ) (i : ι) :
    ∃ t, State.Hist (Keygen.impl sha) (State.newBaseState (Keygen.impl sha) (r i) (timeout i) (now i)) (Spec.eventsOf i h) t ∧ Spec.SameBut (σ i).rest t :=
  shared_same (Keygen.impl_stable sha) (keygen_lastOnly sha) (keygen_last sha) keygen_sharesOnly hself haddr hh i

/-- The same for signing. -/
theorem C117_shared_sign {ι : Type} [DecidableEq ι] (r : ι → Sign.Round G) (hself : ∀ i j, (r i).selfID = (r j).selfID → i = j) (timeout now : ι → Nat)
    (mem₀ mem : Ptr → Message G) (haddr : ∀ p, Spec.Addressed (mem₀ p)) (h : List (ι × State.Op G × Ret G)) (σ : ι → PState G (Sign.Round G))
    (hh : Shared (Sign.impl sha) signAfter (fun σ p m => Spec.Addressed m ∧ ∀ i, ¬ Spec.Needed (σ i) p) mem₀
      (fun i => Pointers.newBaseState (Sign.impl sha) (r i) (timeout i) (now i)) h mem σ) (i : ι) :
    ∃ t, State.Hist (Sign.impl sha) (State.newBaseState (Sign.impl sha) (r i) (timeout i) (now i)) (Spec.eventsOf i h) t ∧ Spec.SameBut (σ i).rest t :=
  shared_same (Sign.impl_stable sha) (sign_lastOnly sha) (sign_last sha) sign_sharesOnly hself haddr hh i

/-- Messages that are decoded say for whom their share is. -/
theorem C117_decoded (b : Bytes) (m : Message G) (h : Message.unmarshalBinary Message.fresh b = .ok m) : Spec.Addressed m := by
  unfold Message.unmarshalBinary at h
  obtain ⟨hd, h1, h⟩ := bind_eq_ok.mp h
  obtain ⟨data, _, h⟩ := bind_eq_ok.mp h
  have hv := (Header.unmarshal_ok h1).1
  have other : ∀ {x : Message G}, x.keyGen2 = none → Spec.Addressed x := fun hx hk => absurd hx hk
  split_ifs at h with a1 a2 a3 a4
  · obtain ⟨p, _, h⟩ := bind_eq_ok.mp h
    cases h
    exact other rfl
  · obtain ⟨p, _, h⟩ := bind_eq_ok.mp h
    cases h
    intro _
    rcases hv.2 with ⟨h2, _⟩ | ⟨_, h2⟩
    · rw [a2] at h2; exact absurd h2 (by decide)
    · exact h2
  · obtain ⟨p, _, h⟩ := bind_eq_ok.mp h
    cases h
    exact other rfl
  · obtain ⟨p, _, h⟩ := bind_eq_ok.mp h
    cases h
    exact other rfl

/-- Messages that a key generation returns do, too. -/
theorem C117_returned (mem mem' : Ptr → Message G) (s s' : PState G (Keygen.Round G)) (ord : MapOrder) (coins : Coins) (out : List (Message G))
    (hs : Pointers.Step (Keygen.impl sha) keygenAfter mem s (.processAll ord coins) (.messages out) mem' s') : ∀ m ∈ out, Spec.Addressed m := by
  cases hs with
  | processAll _ _ h =>
    have key : out = [] ∨ ∃ r r', (Keygen.impl sha).generateMessages ord coins r = .ok (r', out) := by
      unfold Pointers.processAll at h
      split_ifs at h
      · cases h; exact .inl rfl
      · cases h; exact .inl rfl
      · split at h
        · cases h
        · obtain ⟨_, _, h⟩ := Option.bind_eq_some_iff.mp h
          cases h; exact .inl rfl
        · simp only at h
          split at h
          · cases h
          · obtain ⟨_, _, h⟩ := Option.bind_eq_some_iff.mp h
            cases h; exact .inl rfl
          · rename_i hg
            split at h
            · cases h
            · split at h
              · obtain ⟨_, _, h⟩ := Option.bind_eq_some_iff.mp h
                cases h; exact .inr ⟨_, _, hg⟩
              · cases h; exact .inr ⟨_, _, hg⟩
    rcases key with rfl | ⟨r, r', hg⟩
    · simp
    · simp only [Keygen.impl] at hg
      intro m hm hk
      cases hst : r.stage <;> rw [hst] at hg
      · obtain ⟨_, _, _, rfl⟩ := Keygen.generate0_ok.mp hg
        rw [List.mem_singleton.mp hm] at hk
        exact absurd rfl hk
      · obtain ⟨poly, _, h1, _, rfl⟩ := Keygen.generate1_ok.mp hg
        simp only [Keygen.dealt, List.mem_map, List.mem_filter, decide_eq_true_eq] at hm
        obtain ⟨id, ⟨hid, hne⟩, rfl⟩ := hm
        exact h1 id hid hne
      · obtain ⟨_, _, _, _, _, _, _, _, _, rfl⟩ := Keygen.generate2_ok.mp hg
        cases hm

/-- A program that uses nothing but `PartyRoutine`, which keeps every message in an object of its own, cannot tell that the sessions keep pointers.  `next` is the first object that is not in use,
`pick` the order in which the loop of `ProcessAll` finds the messages. -/
theorem C117_routine_keygen (r : Keygen.Round G) (timeout now : Nat) (next : Ptr) (mem₀ : Ptr → Message G) (items : List Pointers.Item)
    (pick : MapOrder → Mem G → GoMap (Option Ptr) → GoMap (Option Ptr)) (hpick : ∀ ord mem m, (pick ord mem m).Perm m ∧ viewMap mem (pick ord mem m) = ord.order _ (viewMap mem m)) :
    (Pointers.program (Keygen.impl sha) keygenAfter pick items next mem₀ (Pointers.newBaseState (Keygen.impl sha) r timeout now) = none ↔
      Spec.program (Keygen.impl sha) items (State.newBaseState (Keygen.impl sha) r timeout now) = none) ∧
    ∀ res s, Pointers.program (Keygen.impl sha) keygenAfter pick items next mem₀ (Pointers.newBaseState (Keygen.impl sha) r timeout now) = some (res, s) →
      ∃ t, Spec.program (Keygen.impl sha) items (State.newBaseState (Keygen.impl sha) r timeout now) = some (res, t) ∧ Spec.SameBut s.rest t :=
  program_iff (Keygen.impl_stable sha) (keygen_lastOnly sha) (keygen_last sha) hpick items

/-- The same for signing. -/
theorem C117_routine_sign (r : Sign.Round G) (timeout now : Nat) (next : Ptr) (mem₀ : Ptr → Message G) (items : List Pointers.Item)
    (pick : MapOrder → Mem G → GoMap (Option Ptr) → GoMap (Option Ptr)) (hpick : ∀ ord mem m, (pick ord mem m).Perm m ∧ viewMap mem (pick ord mem m) = ord.order _ (viewMap mem m)) :
    (Pointers.program (Sign.impl sha) signAfter pick items next mem₀ (Pointers.newBaseState (Sign.impl sha) r timeout now) = none ↔
      Spec.program (Sign.impl sha) items (State.newBaseState (Sign.impl sha) r timeout now) = none) ∧
    ∀ res s, Pointers.program (Sign.impl sha) signAfter pick items next mem₀ (Pointers.newBaseState (Sign.impl sha) r timeout now) = some (res, s) →
      ∃ t, Spec.program (Sign.impl sha) items (State.newBaseState (Sign.impl sha) r timeout now) = some (res, t) ∧ Spec.SameBut s.rest t :=
  program_iff (Sign.impl_stable sha) (sign_lastOnly sha) (sign_last sha) hpick items

namespace Demo

/-- Runs a session in a program that writes `mem p := m` for `some (p, m)` before the event, if `ok` allows it. -/
def runEnv (ok : PState Toy (Keygen.Round Toy) → Ptr → Bool) (mem : Mem Toy) (s : PState Toy (Keygen.Round Toy)) : List (Option (Ptr × Message Toy) × Pointers.Op) →
    Option (Mem Toy × PState Toy (Keygen.Round Toy) × List (State.Op Toy × Ret Toy))
  | [] => some (mem, s, [])
  | (none, op) :: ops => match stepPointers mem s op with
    | none => none
    | some (mem', s', ret) => match runEnv ok mem' s' ops with
      | none => none
      | some (mem'', s'', h) => some (mem'', s'', (seen mem (inOrder op), ret) :: h)
  | (some (p, m), op) :: ops => if ok s p then match stepPointers (Function.update mem p m) s op with
    | none => none
    | some (mem', s', ret) => match runEnv ok mem' s' ops with
      | none => none
      | some (mem'', s'', h) => some (mem'', s'', (seen (Function.update mem p m) (inOrder op), ret) :: h)
    else none

theorem step_of_stepPointers {mem mem' : Mem Toy} {s s' : PState Toy (Keygen.Round Toy)} {op : Pointers.Op} {ret : Ret Toy} (h1 : stepPointers mem s op = some (mem', s', ret)) :
    Pointers.Step (Keygen.impl toySha) keygenAfter mem s (inOrder op) ret mem' s' := by
  cases op with
  | handle p => cases h1; exact .handle p
  | processAll ord coins =>
    obtain ⟨⟨a, b, c⟩, hx, h1⟩ := Option.map_eq_some_iff.mp h1
    cases h1
    exact .processAll (.refl _) rfl hx
  | advance dt =>
    simp only [stepPointers] at h1
    obtain ⟨x, hx, h1⟩ := Option.map_eq_some_iff.mp h1
    cases h1
    exact .advance hx
  | fire =>
    simp only [stepPointers] at h1
    obtain ⟨x, hx, h1⟩ := Option.map_eq_some_iff.mp h1
    cases h1
    exact .fire hx
  | callback =>
    simp only [stepPointers] at h1
    obtain ⟨x, hx, h1⟩ := Option.map_eq_some_iff.mp h1
    cases h1
    exact .callback hx

theorem of_runEnv {ok : PState Toy (Keygen.Round Toy) → Ptr → Bool} {may : PState Toy (Keygen.Round Toy) → Ptr → Prop} (hok : ∀ s p, ok s p = true → may s p)
    {mem₀ mem₁ mem : Mem Toy} {s₀ s₁ s : PState Toy (Keygen.Round Toy)} {ops : List (Option (Ptr × Message Toy) × Pointers.Op)} {h₁ h : List (State.Op Toy × Ret Toy)}
    (h0 : EnvHist (Keygen.impl toySha) keygenAfter may mem₀ s₀ h₁ mem₁ s₁)
    (hr : runEnv ok mem₁ s₁ ops = some (mem, s, h)) : EnvHist (Keygen.impl toySha) keygenAfter may mem₀ s₀ (h₁ ++ h) mem s := by
  induction ops generalizing mem₁ s₁ h₁ h with
  | nil => cases hr; rw [List.append_nil]; exact h0
  | cons x ops ih =>
    obtain ⟨w, op⟩ := x
    cases w with
    | none =>
      simp only [runEnv] at hr
      split at hr
      · cases hr
      rename_i mem₂ s₂ ret h1
      split at hr
      · cases hr
      rename_i mem₃ s₃ h₃ h2
      cases hr
      rw [List.append_cons]
      exact ih (.step h0 (step_of_stepPointers h1)) h2
    | some w =>
      obtain ⟨p, m⟩ := w
      simp only [runEnv] at hr
      split at hr
      · rename_i hp
        split at hr
        · cases hr
        rename_i mem₂ s₂ ret h1
        split at hr
        · cases hr
        rename_i mem₃ s₃ h₃ h2
        cases hr
        rw [List.append_cons]
        exact ih (.step (.write p m h0 (hok _ _ hp)) (step_of_stepPointers h1)) h2
      · cases hr

/-- Runs two sessions. -/
def runTwo (mem : Mem Toy) (σ : Bool → PState Toy (Keygen.Round Toy)) : List (Bool × Pointers.Op) →
    Option (Mem Toy × (Bool → PState Toy (Keygen.Round Toy)) × List (Bool × State.Op Toy × Ret Toy))
  | [] => some (mem, σ, [])
  | (i, op) :: ops => match stepPointers mem (σ i) op with
    | none => none
    | some (mem', s', ret) => match runTwo mem' (Function.update σ i s') ops with
      | none => none
      | some (mem'', σ', h) => some (mem'', σ', (i, seen mem (inOrder op), ret) :: h)

theorem of_runTwo {may : (Bool → PState Toy (Keygen.Round Toy)) → Ptr → Message Toy → Prop} {mem₀ mem₁ mem : Mem Toy} {σ₀ σ₁ σ : Bool → PState Toy (Keygen.Round Toy)}
    {ops : List (Bool × Pointers.Op)} {h₁ h : List (Bool × State.Op Toy × Ret Toy)} (h0 : Shared (Keygen.impl toySha) keygenAfter may mem₀ σ₀ h₁ mem₁ σ₁)
    (hr : runTwo mem₁ σ₁ ops = some (mem, σ, h)) : Shared (Keygen.impl toySha) keygenAfter may mem₀ σ₀ (h₁ ++ h) mem σ := by
  induction ops generalizing mem₁ σ₁ h₁ h with
  | nil => cases hr; rw [List.append_nil]; exact h0
  | cons x ops ih =>
    obtain ⟨i, op⟩ := x
    simp only [runTwo] at hr
    split at hr
    · cases hr
    rename_i mem₂ s₂ ret h1
    split at hr
    · cases hr
    rename_i mem₃ s₃ h₃ h2
    cases hr
    rw [List.append_cons]
    exact ih (.step i h0 (step_of_stepPointers h1)) h2

/-- The messages that were handed over. -/
def handed (h : List (State.Op Toy × Ret Toy)) : List (Message Toy) := h.filterMap fun x => match x.1 with
  | .handle m => some m
  | _ => none

/-- The messages of two honest parties. -/
def honest : List (Message Toy) := [Message.newKeyGen1 2 ⟨0, 1⟩ [Toy.of 7, Toy.of 8], Message.newKeyGen1 3 ⟨0, 1⟩ [Toy.of 9, Toy.of 10], Message.newKeyGen2 2 1 15, Message.newKeyGen2 3 1 19]

end Demo

open Demo

/-- A program must not write into a message that a session keeps: one that decodes every message into the same object makes a key generation blame an honest party, although the session was
handed the same messages as one that succeeds. -/
theorem C117_reused_object : ∃ (r : Keygen.Round Toy) (mem₀ mem : Ptr → Message Toy) (h : List (State.Op Toy × Ret Toy)) (s : PState Toy (Keygen.Round Toy))
    (h' : List (State.Op Toy × Ret Toy)) (t : State Toy (Keygen.Round Toy)), Keygen.newRound 1 ids 1 = .ok r ∧
    EnvHist (Keygen.impl toySha) keygenAfter (fun _ _ => True) mem₀ (Pointers.newBaseState (Keygen.impl toySha) r 10 0) h mem s ∧ handed h = honest ∧
    s.rest.err = some ⟨3, 2, .vssFailed⟩ ∧
    State.Hist (Keygen.impl toySha) (State.newBaseState (Keygen.impl toySha) r 10 0) h' t ∧ handed h' = honest ∧ t.done = true ∧ t.err = none := by
  have hr : Keygen.newRound 1 ids 1 = .ok (round0 ids 1 1) := by
    unfold Keygen.newRound Keygen.newBaseRound
    rw [Outcome.failIf_neg (by decide), Outcome.ok_bind, Outcome.failIf_neg (by decide), Outcome.ok_bind, Outcome.failIf_neg (by decide +kernel)]
    rfl
  obtain ⟨⟨mem, s, h⟩, h1, h2⟩ := Option.map_eq_some_iff.mp (show ((runEnv (fun _ _ => true) (fun _ => Message.fresh) (Pointers.newBaseState (Keygen.impl toySha) (round0 ids 1 1) 10 0)
      [(none, .processAll .insertion (coins [5, 6, 7])), (some (0, Message.newKeyGen1 2 ⟨0, 1⟩ [Toy.of 7, Toy.of 8]), .handle 0),
       (some (0, Message.newKeyGen1 3 ⟨0, 1⟩ [Toy.of 9, Toy.of 10]), .handle 0), (none, .processAll .insertion (coins [])),
       (some (0, Message.newKeyGen2 2 1 15), .handle 0), (some (0, Message.newKeyGen2 3 1 19), .handle 0), (none, .processAll .insertion (coins []))]).map
      fun x => decide (handed x.2.2 = honest ∧ x.2.1.rest.err = some ⟨3, 2, .vssFailed⟩)) = some true by decide +kernel)
  obtain ⟨h', t, h3, h4⟩ := of_run (impl := Keygen.impl toySha) (s := session ids 1 1)
    (ops := [.processAll .insertion (coins [5, 6, 7]), .handle (Message.newKeyGen1 2 ⟨0, 1⟩ [Toy.of 7, Toy.of 8]), .handle (Message.newKeyGen1 3 ⟨0, 1⟩ [Toy.of 9, Toy.of 10]),
      .processAll .insertion (coins []), .handle (Message.newKeyGen2 2 1 15), .handle (Message.newKeyGen2 3 1 19), .processAll .insertion (coins [])])
    (p := fun h t => decide (handed h = honest ∧ t.done = true ∧ t.err = none)) (by decide +kernel)
  simp only [decide_eq_true_eq] at h2 h4
  exact ⟨_, _, mem, h, s, h', t, hr, of_runEnv (fun _ _ _ => trivial) .nil h1, h2.1, h2.2, h3, h4.1, h4.2.1, h4.2.2⟩

/-- Two sessions of the same party must not be handed the same objects: the first to end erases the shares, and the second blames an honest party. -/
theorem C117_same_party : ∃ (r : Keygen.Round Toy) (mem₀ mem : Ptr → Message Toy) (h : List (Bool × State.Op Toy × Ret Toy)) (σ : Bool → PState Toy (Keygen.Round Toy)),
    Keygen.newRound 1 ids 1 = .ok r ∧ (∀ p, Spec.Addressed (mem₀ p)) ∧
    Shared (Keygen.impl toySha) keygenAfter (fun _ _ _ => False) mem₀ (fun _ => Pointers.newBaseState (Keygen.impl toySha) r 10 0) h mem σ ∧
    handed (Spec.eventsOf true h) = honest ∧ handed (Spec.eventsOf false h) = honest ∧
    (σ true).rest.done = true ∧ (σ true).rest.err = none ∧ (σ false).rest.err = some ⟨2, 2, .vssFailed⟩ := by
  have hr : Keygen.newRound 1 ids 1 = .ok (round0 ids 1 1) := by
    unfold Keygen.newRound Keygen.newBaseRound
    rw [Outcome.failIf_neg (by decide), Outcome.ok_bind, Outcome.failIf_neg (by decide), Outcome.ok_bind, Outcome.failIf_neg (by decide +kernel)]
    rfl
  obtain ⟨⟨mem, σ, h⟩, h1, h2⟩ := Option.map_eq_some_iff.mp (show ((runTwo Demo.messages (fun _ => Pointers.newBaseState (Keygen.impl toySha) (round0 ids 1 1) 10 0)
      [(true, .processAll .insertion (coins [5, 6, 7])), (true, .handle 0), (true, .handle 1), (true, .processAll .insertion (coins [])), (true, .handle 4), (true, .handle 2),
       (false, .processAll .insertion (coins [1, 2, 3])), (false, .handle 0), (false, .handle 1), (false, .processAll .insertion (coins [])), (false, .handle 4), (false, .handle 2),
       (true, .processAll .insertion (coins [])), (false, .processAll .insertion (coins []))]).map
      fun x => decide (handed (Spec.eventsOf true x.2.2) = honest ∧ handed (Spec.eventsOf false x.2.2) = honest ∧
        (x.2.1 true).rest.done = true ∧ (x.2.1 true).rest.err = none ∧ (x.2.1 false).rest.err = some ⟨2, 2, .vssFailed⟩)) = some true by decide +kernel)
  simp only [decide_eq_true_eq] at h2
  refine ⟨_, _, mem, h, σ, hr, fun p => ?_, of_runTwo .nil h1, h2⟩
  match p with
  | 0 | 1 => exact fun hk => absurd rfl hk
  | 2 | 3 => exact fun _ => by decide
  | _ + 4 => exact fun _ => show (1 : ID) ≠ 0 by decide

end Verif.Props
