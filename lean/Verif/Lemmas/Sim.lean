import Verif.Lemmas.StateInv
import Mathlib.Data.List.Sort

/-!
Simulation between two protocols run by the driver: if the rounds of one simulate the rounds of the other, so do the sessions.
-/

namespace Verif

open State

variable {A B RA RB : Type}

/-- Iteration in the order of a given list of keys. -/
def MapOrder.byKeys (ks : List ID) : MapOrder where
  order _ m := m.insertionSort fun a b => ks.idxOf a.1 ≤ ks.idxOf b.1
  perm _ m := List.perm_insertionSort _ m

theorem pairwise_idxOf {α : Type} [DecidableEq α] {l : List α} (h : l.Nodup) : l.Pairwise fun a b => l.idxOf a ≤ l.idxOf b := by
  rw [List.pairwise_iff_getElem]
  intro i j hi hj hij
  rw [h.idxOf_getElem, h.idxOf_getElem]
  omega

theorem MapOrder.byKeys_eq {V : Type} {m l : GoMap V} (hm : m.WF) (hp : l.Perm m) : (MapOrder.byKeys (l.map Prod.fst)).order V m = l := by
  have hl : (l.map Prod.fst).Nodup := (hp.map Prod.fst).nodup_iff.mpr hm
  set ks := l.map Prod.fst
  set rel : ID × V → ID × V → Prop := fun a b => ks.idxOf a.1 ≤ ks.idxOf b.1 with hrel
  have htrans : ∀ a b c, rel a b → rel b c → rel a c := fun a b c h1 h2 => le_trans h1 h2
  have htot : ∀ a b, rel a b ∨ rel b a := fun a b => le_total _ _
  haveI : IsTrans (ID × V) rel := ⟨htrans⟩
  haveI : Std.Total rel := ⟨htot⟩
  have h1 : (m.insertionSort rel).Pairwise rel := List.pairwise_insertionSort rel m
  have h2 : l.Pairwise rel := by
    have := pairwise_idxOf hl
    rw [List.pairwise_map] at this
    exact this
  refine List.Perm.eq_of_pairwise ?_ h1 h2 ((List.perm_insertionSort rel m).trans hp.symm)
  intro a b ha hb hab hba
  have ha' : a ∈ l := hp.symm.mem_iff.mp ((List.perm_insertionSort rel m).mem_iff.mp ha)
  have hidx : ks.idxOf a.1 = ks.idxOf b.1 := le_antisymm hab hba
  have hk : a.1 = b.1 := (List.idxOf_inj (List.mem_map_of_mem ha')).mp hidx
  exact List.inj_on_of_nodup_map hl ha' hb hk

/-- Both return related values, or fail with the same error leaving related objects, or panic. -/
def OutRel {α β γ δ ε : Type} (Q : α → β → Prop) (S : γ → δ → Prop) : Outcome (ε × γ) α → Outcome (ε × δ) β → Prop
  | .ok a, .ok b => Q a b
  | .err (e, c), .err (e', d) => e = e' ∧ S c d
  | .panic, .panic => True
  | _, _ => False

/-- Both absent, or both present and related. -/
def OptRel {α β : Type} (Q : α → β → Prop) : Option α → Option β → Prop
  | some a, some b => Q a b
  | none, none => True
  | _, _ => False

/-- The rounds of `implA` simulate those of `implB`: `φ` translates messages given to the session, `Made` relates messages just
generated and `Out` messages handed out. -/
structure Sim (implA : RoundImpl A RA) (implB : RoundImpl B RB) (φ : Message A → Message B) (P : Message A → Prop)
    (Rel End : RA → RB → Prop) (Made Out : RA → List (Message A) → List (Message B) → Prop) : Prop where
  header : ∀ m, (φ m).header = m.header
  selfID : ∀ a b, Rel a b ∨ End a b → implB.selfID b = implA.selfID a
  partyIDs : ∀ a b, Rel a b → implB.partyIDs b = implA.partyIDs a
  process : ∀ a b v, Rel a b → (∀ m, v = some m → P m) → OutRel Rel Rel (implA.processMessage a v) (implB.processMessage b (v.map φ))
  generate : ∀ a b ord ord' coins, Rel a b → OutRel (fun x y => Rel x.1 y.1 ∧ Made x.1 x.2 y.2) Rel (implA.generateMessages ord coins a) (implB.generateMessages ord' coins b)
  next : ∀ a b, Rel a b → OptRel Rel (implA.nextRound a) (implB.nextRound b)
  reset : ∀ a b, Rel a b → OptRel End (implA.reset a) (implB.reset b)
  outNil : ∀ a, Out a [] []
  outNext : ∀ a a' o o', Made a o o' → implA.nextRound a = some a' → Out a' o o'
  outLast : ∀ a a' o o', Made a o o' → implA.nextRound a = none → implA.reset a = some a' → Out a' o o'

/-- Related sessions. -/
structure SimState (φ : Message A → Message B) (P : Message A → Prop) (Rel End : RA → RB → Prop) (s : State A RA) (t : State B RB) : Prop where
  types : t.acceptedTypes = s.acceptedTypes
  received : t.received = s.received.map fun e => (e.1, e.2.map φ)
  queue : t.queue = s.queue.map φ
  timer : t.timer = s.timer
  roundNumber : t.roundNumber = s.roundNumber
  closed : t.closed = s.closed
  done : t.done = s.done
  err : t.err = s.err
  live : s.done = false → Rel s.round t.round
  ended : s.done = true → End s.round t.round
  wf : s.received.WF
  storedP : ∀ k m, (k, some m) ∈ s.received → P m
  queueP : ∀ m ∈ s.queue, P m

section

variable {implA : RoundImpl A RA} {implB : RoundImpl B RB} {φ : Message A → Message B} {P : Message A → Prop}
  {Rel End : RA → RB → Prop} {Made Out : RA → List (Message A) → List (Message B) → Prop}

theorem keys_mapped {V W : Type} (m : GoMap V) (f : V → W) : GoMap.keys (m.map fun e => (e.1, f e.2)) = m.keys := by
  simp [GoMap.keys, Function.comp_def]

theorem set_mapped {V W : Type} (m : GoMap V) (f : V → W) (k : ID) (v : V) :
    GoMap.set (m.map fun e => (e.1, f e.2)) k (f v) = (m.set k v).map fun e => (e.1, f e.2) := by
  induction m with
  | nil => rfl
  | cons e m ih =>
    obtain ⟨k', v'⟩ := e
    simp only [List.map_cons, GoMap.set]
    split
    · rfl
    · rw [List.map_cons, ← ih]

theorem has_mapped {V W : Type} (m : GoMap V) (f : V → W) (k : ID) : GoMap.has (m.map fun e => (e.1, f e.2)) k = m.has k := by
  rw [Bool.eq_iff_iff, GoMap.has_iff, GoMap.has_iff, keys_mapped]

theorem mem_set {V : Type} {m : GoMap V} {k k' : ID} {v v' : V} (h : (k', v') ∈ m.set k v) : v' = v ∨ (k', v') ∈ m := by
  induction m with
  | nil => simp only [GoMap.set, List.mem_singleton, Prod.mk.injEq] at h; exact Or.inl h.2
  | cons e m ih =>
    obtain ⟨a, b⟩ := e
    unfold GoMap.set at h
    split at h
    · rcases List.mem_cons.mp h with h | h
      · exact Or.inl (Prod.mk.inj h).2
      · exact Or.inr (List.mem_cons_of_mem _ h)
    · rcases List.mem_cons.mp h with h | h
      · exact Or.inr (h ▸ List.mem_cons_self)
      · rcases ih h with h | h
        · exact Or.inl h
        · exact Or.inr (List.mem_cons_of_mem _ h)

theorem handle_sim (hsim : Sim implA implB φ P Rel End Made Out) {s : State A RA} {t : State B RB} (h : SimState φ P Rel End s t) {m : Message A}
    (hP : P m) : SimState φ P Rel End (handleMessage implA s m).1 (handleMessage implB t (φ m)).1 ∧
      (handleMessage implB t (φ m)).2 = (handleMessage implA s m).2 := by
  have hself : implB.selfID t.round = implA.selfID s.round := by
    cases hd : s.done with
    | false => exact hsim.selfID _ _ (Or.inl (h.live hd))
    | true => exact hsim.selfID _ _ (Or.inr (h.ended hd))
  have hw : ∀ e c, wrapError implB t e c = wrapError implA s e c := by
    intro e c; unfold wrapError; rw [hself, h.roundNumber]
  obtain ⟨h1, h2, h3, h4, h5, h6, h7, h8, h9, h10, h11, h12, h13⟩ := h
  obtain ⟨ty, re, qu, ti, rn, ro, cl, dn, er⟩ := t
  obtain ⟨ty', re', qu', ti', rn', ro', cl', dn', er'⟩ := s
  simp only at h1 h2 h3 h4 h5 h6 h7 h8 h9 h10 h11 h12 h13 hself
  subst h1 h2 h3 h4 h5 h6 h7 h8
  have h : SimState φ P Rel End ⟨ty, re', qu', ti, rn, ro', cl, dn, er⟩ ⟨ty, re'.map fun e => (e.1, e.2.map φ), qu'.map φ, ti, rn, ro, cl, dn, er⟩ :=
    ⟨rfl, rfl, rfl, rfl, rfl, rfl, rfl, rfl, h9, h10, h11, h12, h13⟩
  unfold handleMessage
  simp only [hsim.header, hw, hself, has_mapped]
  by_cases hd : dn = true
  · rw [if_pos hd, if_pos hd]; exact ⟨h, rfl⟩
  · rw [if_neg hd, if_neg hd]
    have hids := hsim.partyIDs _ _ (h9 (by simpa using hd))
    rw [hids]
    cases ty with
    | nil => exact ⟨h, rfl⟩
    | cons c ts =>
      simp only []
      split
      · exact ⟨h, rfl⟩
      · split
        · exact ⟨h, rfl⟩
        · split
          · exact ⟨h, rfl⟩
          · split
            · exact ⟨h, rfl⟩
            · split
              · exact ⟨h, rfl⟩
              · split
                · refine ⟨⟨rfl, set_mapped _ (Option.map φ) _ (some m), rfl, rfl, rfl, rfl, rfl, rfl, h9, h10, h11.set _ _, ?_, h13⟩, rfl⟩
                  intro k m' hm
                  rcases mem_set hm with hm | hm
                  · cases hm; exact hP
                  · exact h12 k m' hm
                · refine ⟨⟨rfl, rfl, ?_, rfl, rfl, rfl, rfl, rfl, h9, h10, h11, h12, ?_⟩, rfl⟩
                  · show qu'.map φ ++ [φ m] = (qu' ++ [m]).map φ
                    simp
                  · intro m' hm
                    rcases List.mem_append.mp hm with hm | hm
                    · exact h13 _ hm
                    · rw [List.mem_singleton] at hm; exact hm ▸ hP

theorem processLoop_sim (hsim : Sim implA implB φ P Rel End Made Out) {l : List (ID × Option (Message A))} {a : RA} {b : RB} (hr : Rel a b)
    (hP : ∀ k m, (k, some m) ∈ l → P m) :
    OutRel Rel Rel (processLoop implA l a) (processLoop implB (l.map fun e => (e.1, e.2.map φ)) b) := by
  induction l generalizing a b with
  | nil => exact hr
  | cons e l ih =>
    obtain ⟨k, v⟩ := e
    have hp := hsim.process a b v hr (fun m hm => hP k m (by rw [hm]; exact List.mem_cons_self))
    simp only [processLoop, List.map_cons]
    revert hp
    cases implA.processMessage a v with
    | ok a' =>
      cases implB.processMessage b (v.map φ) with
      | ok b' => exact fun hp => ih hp fun k m hm => hP k m (List.mem_cons_of_mem _ hm)
      | err | panic => exact fun h => h.elim
    | err e =>
      cases implB.processMessage b (v.map φ) with
      | err e' => exact fun hp => hp
      | ok | panic => exact fun h => h.elim
    | panic =>
      cases implB.processMessage b (v.map φ) with
      | panic => exact fun hp => hp
      | ok | err => exact fun h => h.elim

theorem moved_sim (hsim : Sim implA implB φ P Rel End Made Out) (types : List MsgType) (q : List (Message A)) :
    movedReceived types (q.map φ) = (movedReceived types q).map (fun e => (e.1, e.2.map φ)) ∧
      movedQueue types (q.map φ) = (movedQueue types q).map φ := by
  cases types with
  | nil => exact ⟨rfl, rfl⟩
  | cons t types =>
    constructor
    · simp only [movedReceived]
      rw [List.filter_map, show ((fun m : Message B => decide (m.header.type = t)) ∘ φ) = fun m => decide (m.header.type = t) from by
        funext m; simp [hsim.header]]
      generalize q.filter (fun m => decide (m.header.type = t)) = l
      have : ∀ (acc : GoMap (Option (Message A))), (l.map φ).foldl (fun r m => GoMap.set r m.header.fromID (some m)) (acc.map fun e => (e.1, e.2.map φ)) =
          (l.foldl (fun r m => r.set m.header.fromID (some m)) acc).map fun e => (e.1, e.2.map φ) := by
        induction l with
        | nil => intro acc; rfl
        | cons m l ih =>
          intro acc
          simp only [List.map_cons, List.foldl_cons]
          rw [hsim.header, ← ih]
          congr 1
          exact set_mapped acc (Option.map φ) _ (some m)
      exact this []
    · simp only [movedQueue]
      rw [List.filter_map, show ((fun m : Message B => decide (m.header.type ≠ t)) ∘ φ) = fun m => decide (m.header.type ≠ t) from by
        funext m; simp [hsim.header]]

/-- Related results of `ProcessAll`. -/
def CallRel (φ : Message A → Message B) (P : Message A → Prop) (Rel End : RA → RB → Prop) (Out : RA → List (Message A) → List (Message B) → Prop)
    (x : State A RA × List (Message A)) (y : State B RB × List (Message B)) : Prop :=
  SimState φ P Rel End x.1 y.1 ∧ Out x.1.round x.2 y.2

theorem finish_sim (hsim : Sim implA implB φ P Rel End Made Out) {s : State A RA} {t : State B RB} (h : SimState φ P Rel End s t) :
    OptRel (SimState φ P Rel End) (finish implA s) (finish implB t) := by
  unfold finish
  rw [h.done]
  by_cases hd : s.done = true
  · rw [if_pos hd, if_pos hd]; exact h
  · rw [if_neg hd, if_neg hd]
    have hr := hsim.reset _ _ (h.live (by simpa using hd))
    revert hr
    cases implA.reset s.round with
    | none =>
      cases implB.reset t.round with
      | none => exact fun _ => trivial
      | some b => exact fun h => h.elim
    | some a =>
      cases implB.reset t.round with
      | none => exact fun h => h.elim
      | some b =>
        intro hr
        have hr : End a b := hr
        simp only [Option.bind_eq_bind, Option.bind_some]
        rw [h.closed]
        by_cases hc : s.closed = true
        · rw [if_pos hc, if_pos hc]; trivial
        · rw [if_neg hc, if_neg hc]
          exact ⟨h.types, h.received, h.queue, congrArg Timer.stopTimer h.timer, h.roundNumber, rfl, rfl, h.err, fun h => (nomatch h),
            fun _ => hr, h.wf, h.storedP, h.queueP⟩

theorem report_sim (hsim : Sim implA implB φ P Rel End Made Out) {s : State A RA} {t : State B RB} (h : SimState φ P Rel End s t) (e : StateErr) :
    OptRel (SimState φ P Rel End) (reportError implA s e) (reportError implB t e) := by
  unfold reportError
  rw [h.done]
  by_cases hd : s.done = true
  · rw [if_pos hd, if_pos hd]; exact h
  · rw [if_neg hd, if_neg hd]
    apply finish_sim hsim
    obtain ⟨h1, h2, h3, h4, h5, h6, h7, h8, h9, h10, h11, h12, h13⟩ := h
    obtain ⟨ty, re, qu, ti, rn, ro, cl, dn, er⟩ := t
    obtain ⟨ty', re', qu', ti', rn', ro', cl', dn', er'⟩ := s
    simp only at h1 h2 h3 h4 h5 h6 h7 h8 h9 h10 h11 h12 h13
    subst h1 h2 h3 h4 h5 h6 h7 h8
    cases er with
    | none => exact ⟨rfl, rfl, rfl, rfl, rfl, rfl, rfl, rfl, h9, h10, h11, h12, h13⟩
    | some _ => exact ⟨rfl, rfl, rfl, rfl, rfl, rfl, rfl, rfl, h9, h10, h11, h12, h13⟩

/-- The end of `ProcessAll`, after the messages have been generated. -/
def advanced (impl : RoundImpl A RA) (s : State A RA) (r : RA) (out : List (Message A)) (types : List MsgType) : Option (State A RA × List (Message A)) :=
  match impl.nextRound r with
  | none => (finish impl { s with received := movedReceived types s.queue, queue := movedQueue types s.queue, round := r, acceptedTypes := types }).map (·, out)
  | some next => some ({ s with received := movedReceived types s.queue, queue := movedQueue types s.queue, round := next, acceptedTypes := types, roundNumber := s.roundNumber + 1 }, out)

theorem processAll_unfold (impl : RoundImpl A RA) (ord : MapOrder) (coins : Coins) (s : State A RA) : processAll impl ord coins s =
    if s.done then some (s, [])
    else if s.received.length ≠ (IDSlice.N (impl.partyIDs s.round) - 1).toNat then some (s, [])
    else match processLoop impl (ord.order _ s.received) s.round with
    | .panic => none
    | .err (e, r) => (reportError impl { s with round := r } e).map (·, [])
    | .ok r => match impl.generateMessages ord coins r with
      | .panic => none
      | .err (e, r) => (reportError impl { s with received := [], round := r } e).map (·, [])
      | .ok (r, out) => match s.acceptedTypes with
        | [] => none
        | _ :: types => advanced impl s r out types := by
  have hmap : ∀ {α β : Type} (x : Option α) (b : β), (x >>= fun s => some (s, b)) = x.map (·, b) := by
    intro α β x b; cases x <;> rfl
  unfold processAll
  split
  · rfl
  · split
    · rfl
    · split
      · rename_i h; rw [h]
      · rename_i h; rw [h]; exact hmap _ _
      · rename_i h
        rw [h]
        simp only []
        split
        · rename_i h; rw [h]
        · rename_i h; rw [h]; exact hmap _ _
        · rename_i h
          rw [h]
          simp only []
          split
          · rename_i h; rw [h]
          · rename_i types h
            rw [h]
            simp only [hmap]
            unfold advanced
            cases types with
            | nil => cases hn : impl.nextRound _ <;> simp only [movedReceived, movedQueue, hn]
            | cons c types => cases hn : impl.nextRound _ <;> simp only [movedReceived, movedQueue, dequeueLoop_eq, List.nil_append, hn]

theorem optRel_map {α β γ δ : Type} {Q : α → β → Prop} {S : γ → δ → Prop} {f : α → γ} {g : β → δ} {x : Option α} {y : Option β} (h : OptRel Q x y)
    (hf : ∀ a b, x = some a → Q a b → S (f a) (g b)) : OptRel S (x.map f) (y.map g) := by
  cases x with
  | none => cases y with
    | none => trivial
    | some _ => exact h.elim
  | some a => cases y with
    | none => exact h.elim
    | some b => exact hf a b rfl h

/-- One call of `ProcessAll` on related sessions, the map being traversed in the same order. -/
theorem processAll_sim (hsim : Sim implA implB φ P Rel End Made Out) {s : State A RA} {t : State B RB} (h : SimState φ P Rel End s t) (ord ord' : MapOrder) (coins : Coins)
    (hord : ord'.order _ t.received = (ord.order _ s.received).map fun e => (e.1, e.2.map φ)) :
    OptRel (CallRel φ P Rel End Out) (processAll implA ord coins s) (processAll implB ord' coins t) := by
  rw [processAll_unfold, processAll_unfold]
  by_cases hd : s.done = true
  · rw [if_pos hd, if_pos (h.done.trans hd)]; exact ⟨h, hsim.outNil _⟩
  · have hdt : ¬t.done = true := by rw [h.done]; exact hd
    rw [if_neg hd, if_neg hdt]
    have hd : s.done = false := by simpa using hd
    have hd' : s.done ≠ true := by simp [hd]
    have hlive := h.live hd
    have hlen : t.received.length = s.received.length := by rw [h.received, List.length_map]
    rw [hsim.partyIDs _ _ hlive, hlen]
    split
    · exact ⟨h, hsim.outNil _⟩
    · rw [hord]
      have hP : ∀ k m, (k, some m) ∈ ord.order _ s.received → P m := fun k m hm => h.storedP k m ((ord.perm _ _).mem_iff.mp hm)
      have hpl := processLoop_sim hsim hlive hP
      revert hpl
      cases processLoop implA (ord.order _ s.received) s.round with
      | panic =>
        cases processLoop implB ((ord.order _ s.received).map fun e => (e.1, e.2.map φ)) t.round with
        | panic => exact fun _ => trivial
        | ok | err => exact fun h => h.elim
      | err x =>
        cases processLoop implB ((ord.order _ s.received).map fun e => (e.1, e.2.map φ)) t.round with
        | ok | panic => exact fun h => h.elim
        | err y =>
          obtain ⟨e, a⟩ := x
          obtain ⟨e', b⟩ := y
          rintro ⟨rfl, hr⟩
          have h' : SimState φ P Rel End { s with round := a } { t with round := b } :=
            ⟨h.types, h.received, h.queue, h.timer, h.roundNumber, h.closed, h.done, h.err, fun _ => hr, fun h => absurd h hd', h.wf, h.storedP, h.queueP⟩
          exact optRel_map (report_sim hsim h' e) fun s' t' _ hs => ⟨hs, hsim.outNil _⟩
      | ok a =>
        cases processLoop implB ((ord.order _ s.received).map fun e => (e.1, e.2.map φ)) t.round with
        | err | panic => exact fun h => h.elim
        | ok b =>
          intro hr
          have hr : Rel a b := hr
          simp only []
          have hg := hsim.generate a b ord ord' coins hr
          revert hg
          cases implA.generateMessages ord coins a with
          | panic =>
            cases implB.generateMessages ord' coins b with
            | panic => exact fun _ => trivial
            | ok | err => exact fun h => h.elim
          | err x =>
            cases implB.generateMessages ord' coins b with
            | ok | panic => exact fun h => h.elim
            | err y =>
              obtain ⟨e, a'⟩ := x
              obtain ⟨e', b'⟩ := y
              rintro ⟨rfl, hr'⟩
              have h' : SimState φ P Rel End { s with received := [], round := a' } { t with received := [], round := b' } :=
                ⟨h.types, rfl, h.queue, h.timer, h.roundNumber, h.closed, h.done, h.err, fun _ => hr', fun h => absurd h hd', GoMap.wf_nil, fun k m hm => (nomatch hm), h.queueP⟩
              exact optRel_map (report_sim hsim h' e) fun s' t' _ hs => ⟨hs, hsim.outNil _⟩
          | ok x =>
            cases implB.generateMessages ord' coins b with
            | err | panic => exact fun h => h.elim
            | ok y =>
              obtain ⟨a', out⟩ := x
              obtain ⟨b', out'⟩ := y
              rintro ⟨hr', hout⟩
              simp only [] at hr' hout ⊢
              rw [h.types]
              cases s.acceptedTypes with
              | nil => exact trivial
              | cons ty types =>
                simp only []
                have hm := moved_sim hsim types s.queue
                have h' : SimState φ P Rel End { s with received := movedReceived types s.queue, queue := movedQueue types s.queue, round := a', acceptedTypes := types }
                    { t with received := movedReceived types t.queue, queue := movedQueue types t.queue, round := b', acceptedTypes := types } := by
                  refine ⟨rfl, ?_, ?_, h.timer, h.roundNumber, h.closed, h.done, h.err, fun _ => hr', fun h => absurd h hd', wf_movedReceived _ _, ?_, ?_⟩
                  · show movedReceived types t.queue = _
                    rw [h.queue]; exact hm.1
                  · show movedQueue types t.queue = _
                    rw [h.queue]; exact hm.2
                  · intro k m hkm
                    obtain ⟨m', h1, _, _, h4⟩ := mem_movedReceived hkm
                    cases h4
                    exact h.queueP m h1
                  · intro m hmm
                    cases types with
                    | nil => exact h.queueP m hmm
                    | cons c types => exact h.queueP m (List.mem_of_mem_filter hmm)
                have hn := hsim.next a' b' hr'
                unfold advanced
                revert hn
                cases hna : implA.nextRound a' with
                | none =>
                  cases implB.nextRound b' with
                  | some _ => exact fun h => h.elim
                  | none =>
                    intro _
                    refine optRel_map (finish_sim hsim h') fun s' t' hfa hs => ⟨hs, ?_⟩
                    obtain ⟨r', q1, _, rfl⟩ := finish_eq implA (s := { s with received := movedReceived types s.queue, queue := movedQueue types s.queue, round := a', acceptedTypes := types }) hd hfa
                    exact hsim.outLast _ _ _ _ hout hna q1
                | some a'' =>
                  cases implB.nextRound b' with
                  | none => exact fun h => h.elim
                  | some b'' =>
                    intro hn
                    refine ⟨⟨h'.types, h'.received, h'.queue, h'.timer, ?_, h'.closed, h'.done, h'.err, fun _ => hn, fun h => absurd h hd', h'.wf, h'.storedP, h'.queueP⟩, hsim.outNext _ _ _ _ hout hna⟩
                    show t.roundNumber + 1 = s.roundNumber + 1
                    rw [h.roundNumber]

/-- The same event for the other session: messages translated, the map of stored messages traversed in the same order. -/
def SameOp (φ : Message A → Message B) (s : State A RA) (t : State B RB) : Op A → Op B → Prop
  | .handle m, .handle m' => m' = φ m
  | .processAll ord coins, .processAll ord' coins' => coins' = coins ∧ ord'.order _ t.received = (ord.order _ s.received).map fun e => (e.1, e.2.map φ)
  | .advance d, .advance d' => d' = d
  | .fire, .fire => True
  | .callback, .callback => True
  | _, _ => False

/-- The same answer. -/
def SameRet (Out : RA → List (Message A) → List (Message B) → Prop) (s : State A RA) : Ret A → Ret B → Prop
  | .handled e, .handled e' => e' = e
  | .messages o, .messages o' => Out s.round o o'
  | .nothing, .nothing => True
  | _, _ => False

theorem exists_sameOp {s : State A RA} {t : State B RB} (h : SimState φ P Rel End s t) (op : Op A) : ∃ op', SameOp φ s t op op' := by
  cases op with
  | handle m => exact ⟨.handle (φ m), rfl⟩
  | processAll ord coins =>
    refine ⟨.processAll (.byKeys (((ord.order _ s.received).map fun e => (e.1, e.2.map φ)).map Prod.fst)) coins, rfl, ?_⟩
    rw [h.received]
    apply MapOrder.byKeys_eq
    · show (GoMap.keys _).Nodup
      rw [keys_mapped]; exact h.wf
    · exact (ord.perm _ _).map _
  | advance d => exact ⟨.advance d, rfl⟩
  | fire => exact ⟨.fire, trivial⟩
  | callback => exact ⟨.callback, trivial⟩

theorem step_sim (hsim : Sim implA implB φ P Rel End Made Out) {s : State A RA} {t : State B RB} (h : SimState φ P Rel End s t) {op : Op A} {op' : Op B}
    (ho : SameOp φ s t op op') (hP : ∀ m, op = .handle m → P m) :
    OptRel (fun x y => SimState φ P Rel End x.1 y.1 ∧ SameRet Out x.1 x.2 y.2) (step implA s op) (step implB t op') := by
  cases op with
  | handle m =>
    cases op' with
    | handle m' =>
      have ho : m' = φ m := ho
      subst ho
      exact handle_sim hsim h (hP m rfl)
    | _ => exact ho.elim
  | processAll ord coins =>
    cases op' with
    | processAll ord' coins' =>
      obtain ⟨rfl, ho⟩ := ho
      exact optRel_map (processAll_sim hsim h ord ord' _ ho) fun a b _ hab => hab
    | _ => exact ho.elim
  | advance d =>
    cases op' with
    | advance d' =>
      have ho : d' = d := ho
      subst ho
      refine ⟨⟨h.types, h.received, h.queue, ?_, h.roundNumber, h.closed, h.done, h.err, h.live, h.ended, h.wf, h.storedP, h.queueP⟩, trivial⟩
      show ({ t.timer with now := t.timer.now + d' } : Timer) = { s.timer with now := s.timer.now + d' }
      rw [h.timer]
    | _ => exact ho.elim
  | fire =>
    cases op' with
    | fire =>
      simp only [step]
      rw [h.timer]
      split
      · split
        · refine ⟨⟨h.types, h.received, h.queue, rfl, h.roundNumber, h.closed, h.done, h.err, h.live, h.ended, h.wf, h.storedP, h.queueP⟩, trivial⟩
        · exact ⟨h, trivial⟩
      · exact ⟨h, trivial⟩
    | _ => exact ho.elim
  | callback =>
    cases op' with
    | callback =>
      simp only [step]
      rw [h.timer]
      split
      · exact ⟨h, trivial⟩
      · refine optRel_map (report_sim hsim (s := { s with timer := { s.timer with fired := s.timer.fired - 1 } })
          (t := { t with timer := { t.timer with fired := t.timer.fired - 1 } }) ?_ (.new 0 .timeout)) fun a b _ hab => ⟨hab, trivial⟩
        refine ⟨h.types, h.received, h.queue, ?_, h.roundNumber, h.closed, h.done, h.err, h.live, h.ended, h.wf, h.storedP, h.queueP⟩
        show ({ t.timer with fired := t.timer.fired - 1 } : Timer) = { s.timer with fired := s.timer.fired - 1 }
        rw [h.timer]
    | _ => exact ho.elim

end

end Verif
