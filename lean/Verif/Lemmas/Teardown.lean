import Verif.Model.Teardown
import Verif.Lemmas.ChannelStuck
import Verif.Spec.NetTime
import Verif.Lemmas.ChannelDone

/-!
Lemmas about `Verif/Model/Teardown.lean`.
-/

namespace Verif

theorem count_le {α : Type} {l : List α} {p q : α → Bool} (h : ∀ a ∈ l, q a = true → p a = true) : l.countP q ≤ l.countP p :=
  List.countP_mono_left h

theorem count_lt {α : Type} {l : List α} {p q : α → Bool} (h : ∀ a ∈ l, q a = true → p a = true) {a : α} (ha : a ∈ l) (hp : p a = true) (hq : q a = false) :
    l.countP q < l.countP p := by
  induction l with
  | nil => cases ha
  | cons b l ih =>
    have h1 := count_le (l := l) fun x hx => h x (List.mem_cons_of_mem _ hx)
    rw [List.countP_cons, List.countP_cons]
    rcases List.mem_cons.mp ha with rfl | ha
    · rw [hp, hq]
      simp only [if_true, Bool.false_eq_true, if_false]
      omega
    · have h2 := ih (fun x hx => h x (List.mem_cons_of_mem _ hx)) ha
      have h3 := h b List.mem_cons_self
      by_cases hb : q b = true
      · rw [hb, h3 hb]
        simp only [if_true]
        omega
      · rw [if_neg hb]
        omega

end Verif

namespace Verif.Chan

variable {G R : Type} [RGroup G] {impl : RoundImpl G R} {ids : List ID} {coins : ID → Coins} {S S' : Sys G R} {D D' : Down G R}

/-- All sessions have ended, and nothing is under way. -/
structure Quiet (ids : List ID) (S : Sys G R) : Prop where
  started : ∀ i ∈ ids, (S i).started = true
  outbox : ∀ i ∈ ids, (S i).outbox = []
  bytes : ∀ i ∈ ids, (S i).bytes = []
  held : ∀ i ∈ ids, (S i).held = none
  incoming : ∀ i ∈ ids, (S i).incoming = []
  closed : ∀ i ∈ ids, (S i).exited = false → (S i).state.closed = true

theorem Quiet.exit (q : Quiet ids S) (i : ID) : Quiet ids (Function.update S i { S i with exited := true }) := by
  constructor <;> intro k hk <;> by_cases hki : k = i
  all_goals first
    | (subst hki; rw [Function.update_self])
    | rw [Function.update_of_ne hki]
  · exact q.started k hk
  · exact q.started k hk
  · exact q.outbox k hk
  · exact q.outbox k hk
  · exact q.bytes k hk
  · exact q.bytes k hk
  · exact q.held k hk
  · exact q.held k hk
  · exact q.incoming k hk
  · exact q.incoming k hk
  · intro h; cases h
  · exact q.closed k hk

/-- The only thing a handler does then is to return. -/
theorem Quiet.step (q : Quiet ids S) (h : Step impl ids coins S S') :
    ∃ i ∈ ids, (S i).exited = false ∧ S' = Function.update S i { S i with exited := true } := by
  cases h with
  | start hi hs _ => rw [q.started _ hi] at hs; cases hs
  | send hi ho _ _ => rw [q.outbox _ hi] at ho; cases ho
  | take hi _ hb => rw [q.bytes _ hi] at hb; cases hb
  | put hi hh _ => rw [q.held _ hi] at hh; cases hh
  | recv hi _ _ _ hin _ => rw [q.incoming _ hi] at hin; cases hin
  | exit hi hs he _ _ => exact ⟨_, hi, he, rfl⟩

theorem Quiet.no_crash (q : Quiet ids S) : ¬ Crash impl ids coins S := by
  intro h
  cases h with
  | start hi hs _ => rw [q.started _ hi] at hs; cases hs
  | recv hi _ _ _ hin _ => rw [q.incoming _ hi] at hin; cases hin

/-- What holds while the communicators are taken down after all sessions have ended. -/
structure Down.Inv (ids : List ID) (D : Down G R) : Prop where
  quiet : Quiet ids D.sys
  nodup : D.left.Nodup
  opened : ∀ i ∈ D.left, D.inClosed i = false
  shut : ∀ i ∈ ids, i ∈ D.left ∨ D.inClosed i = true
  half : D.half = true → D.left ≠ []
  wg : D.wg + D.half.toNat = D.left.length
  waiting : D.closing = none → D.doneClosed = false ∧ ∀ i, D.bytesClosed i = false
  closing : ∀ l, D.closing = some l → D.wg = 0 ∧ l.Nodup ∧ (∀ i ∈ l, D.bytesClosed i = false) ∧ (∀ i ∈ ids, i ∈ l ∨ D.bytesClosed i = true) ∧
    (D.doneClosed = true → l = [])

/-- How much is left to do. -/
def Down.todo (ids : List ID) (D : Down G R) : Nat :=
  ids.countP (fun i => !(D.sys i).exited) + ids.countP (fun i => !D.moved i) + (2 * D.left.length - D.half.toNat) +
    match D.closing with
    | none => ids.length + 2
    | some l => l.length + (if D.doneClosed then 0 else 1)

/-- Everything is closed and all goroutines have returned. -/
structure Down.Ended (ids : List ID) (D : Down G R) : Prop where
  destroyed : D.left = []
  finished : D.doneClosed = true
  handlers : ∀ i ∈ ids, (D.sys i).exited = true
  movers : ∀ i ∈ ids, D.moved i = true
  incoming : ∀ i ∈ ids, D.inClosed i = true
  bytes : ∀ i ∈ ids, D.bytesClosed i = true

theorem Down.inv_down {order : List ID} (q : Quiet ids S) (hnd : ids.Nodup) (ho : order.Perm ids) : Down.Inv ids (down S ids order) where
  quiet := q
  nodup := ho.nodup_iff.mpr hnd
  opened _ _ := rfl
  shut i hi := .inl (ho.mem_iff.mpr hi)
  half h := by cases h
  wg := ho.length_eq.symm
  waiting _ := ⟨rfl, fun _ => rfl⟩
  closing l h := by cases h

theorem Down.todo_down {order : List ID} (ho : order.Perm ids) : (down S ids order).todo ids ≤ 5 * ids.length + 2 := by
  have h1 := List.countP_le_length (p := fun i => !(S i).exited) (l := ids)
  have h2 := List.countP_le_length (p := fun _ : ID => !false) (l := ids)
  have h3 := ho.length_eq
  simp only [Down.todo, down, Bool.toNat_false]
  omega

theorem closing_order (hnd : ids.Nodup) (ord : MapOrder) : ((ord.order _ (channels ids)).map Prod.fst).Nodup ∧
    ∀ i, i ∈ (ord.order _ (channels ids)).map Prod.fst ↔ i ∈ ids :=
  ⟨(channels_order ord).nodup_iff.mpr hnd, fun _ => (channels_order ord).mem_iff⟩

/-- No step panics, the invariant is kept, and a step that is not a turn of a waiting loop brings the end nearer. -/
theorem Down.Inv.step (I : Down.Inv ids D) (hnd : ids.Nodup) {x : Option (Down G R)} (h : DownStep impl ids coins D x) :
    ∃ D', x = some D' ∧ Down.Inv ids D' ∧ (D' = D ∨ D'.todo ids < D.todo ids) := by
  have hleft : D.half.toNat ≤ D.left.length := by have := I.wg; omega
  cases h with
  | @work S' hs _ _ _ =>
    obtain ⟨i, hi, he, rfl⟩ := I.quiet.step hs
    refine ⟨_, rfl, { I with quiet := I.quiet.exit i }, .inr ?_⟩
    have := count_lt (l := ids) (p := fun k => !(D.sys k).exited)
      (q := fun k => !(Function.update D.sys i { D.sys i with exited := true } k).exited) (by
        intro k _ h
        by_cases hki : k = i
        · subst hki
          rw [Function.update_self] at h
          cases h
        · rwa [Function.update_of_ne hki] at h) hi (by simp [he]) (by simp)
    exact Nat.add_lt_add_right (Nat.add_lt_add_right (Nat.add_lt_add_right this _) _) _
  | crash h => exact absurd h I.quiet.no_crash
  | sendClosed hi ho _ _ => rw [I.quiet.outbox _ hi] at ho; cases ho
  | putClosed hi _ hh _ => rw [I.quiet.held _ hi] at hh; cases hh
  | recvNil => exact ⟨_, rfl, I, .inl rfl⟩
  | takeNil => exact ⟨_, rfl, I, .inl rfl⟩
  | @leave i hi hm hh hd =>
    refine ⟨_, rfl, { I with }, .inr ?_⟩
    have := count_lt (l := ids) (p := fun k => !D.moved k) (q := fun k => !Function.update D.moved i true k) (by
        intro k _ h
        by_cases hki : k = i
        · subst hki
          rw [Function.update_self] at h
          cases h
        · rwa [Function.update_of_ne hki] at h) hi (by simp [hm]) (by simp)
    simp only [Down.todo]
    omega
  | @wgDone i rest hl hh hw =>
    refine ⟨_, rfl, { I with half := ?_, wg := ?_, closing := ?_ }, .inr ?_⟩
    · intro _
      show D.left ≠ []
      rw [hl]
      exact List.cons_ne_nil _ _
    · have := I.wg
      rw [hh] at this
      show D.wg - 1 + 1 = D.left.length
      simp only [Bool.toNat_false] at this
      omega
    · intro l hc
      exact absurd (I.closing l hc).1 hw
    · simp only [Down.todo, hh, hl, List.length_cons, Bool.toNat_false, Bool.toNat_true]
      omega
  | @wgNegative i rest hl hh hw =>
    have := I.wg
    rw [hh, hw, hl] at this
    simp at this
  | @closeIn i rest hl hh hc =>
    have hn := I.nodup
    rw [hl] at hn
    refine ⟨_, rfl, { I with nodup := (List.nodup_cons.mp hn).2, opened := ?_, shut := ?_, half := ?_, wg := ?_ }, .inr ?_⟩
    · intro k hk
      have hki : k ≠ i := fun h => (List.nodup_cons.mp hn).1 (h ▸ hk)
      show Function.update D.inClosed i true k = false
      rw [Function.update_of_ne hki]
      exact I.opened k (by rw [hl]; exact List.mem_cons_of_mem _ hk)
    · intro k hk
      show k ∈ rest ∨ Function.update D.inClosed i true k = true
      by_cases hki : k = i
      · subst hki
        exact .inr (by rw [Function.update_self])
      · rw [Function.update_of_ne hki]
        refine (I.shut k hk).imp_left fun h => ?_
        rw [hl] at h
        exact (List.mem_cons.mp h).resolve_left hki
    · intro h
      cases h
    · have := I.wg
      rw [hh, hl, List.length_cons] at this
      show D.wg + 0 = rest.length
      simp only [Bool.toNat_true] at this
      omega
    · simp only [Down.todo, hh, hl, List.length_cons, Bool.toNat_false, Bool.toNat_true]
      omega
  | @closeInTwice i rest hl hh hc =>
    have := I.opened i (by rw [hl]; exact List.mem_cons_self)
    rw [hc] at this
    cases this
  | wake ord hc hw =>
    obtain ⟨h1, h2⟩ := closing_order hnd ord
    have hlen := (channels_order (ids := ids) ord).length_eq
    refine ⟨_, rfl, { I with waiting := ?_, closing := ?_ }, .inr ?_⟩
    · intro h
      cases h
    · intro l hl
      cases hl
      refine ⟨hw, h1, fun k _ => (I.waiting hc).2 k, fun k hk => .inl ((h2 k).mpr hk), fun hd => ?_⟩
      have := (I.waiting hc).1
      rw [show D.doneClosed = true from hd] at this
      cases this
    · simp only [Down.todo, hc, hlen]
      split <;> omega
  | @closeBytes i rest hc hb =>
    obtain ⟨h1, h2, h3, h4, h5⟩ := I.closing _ hc
    refine ⟨_, rfl, { I with waiting := ?_, closing := ?_ }, .inr ?_⟩
    · intro h
      cases h
    · intro l hl
      cases hl
      refine ⟨h1, (List.nodup_cons.mp h2).2, ?_, ?_, ?_⟩
      · intro k hk
        have hki : k ≠ i := fun h => (List.nodup_cons.mp h2).1 (h ▸ hk)
        show Function.update D.bytesClosed i true k = false
        rw [Function.update_of_ne hki]
        exact h3 k (List.mem_cons_of_mem _ hk)
      · intro k hk
        show k ∈ rest ∨ Function.update D.bytesClosed i true k = true
        by_cases hki : k = i
        · subst hki
          exact .inr (by rw [Function.update_self])
        · rw [Function.update_of_ne hki]
          exact (h4 k hk).imp_left fun h => (List.mem_cons.mp h).resolve_left hki
      · intro hd
        cases h5 hd
    · simp only [Down.todo, hc, List.length_cons]
      omega
  | @closeBytesTwice i rest hc hb =>
    have := (I.closing _ hc).2.2.1 i List.mem_cons_self
    rw [hb] at this
    cases this
  | closeDone hc hd =>
    obtain ⟨h1, h2, h3, h4, h5⟩ := I.closing _ hc
    refine ⟨_, rfl, { I with waiting := ?_, closing := ?_ }, .inr ?_⟩
    · intro h
      rw [show D.closing = none from h] at hc
      cases hc
    · intro l hl
      rw [show D.closing = some l from hl] at hc
      cases hc
      exact ⟨h1, h2, h3, h4, fun _ => rfl⟩
    · simp [Down.todo, hc, hd]

/-- As long as not everything has ended something can be done that brings the end nearer. -/
theorem Down.Inv.progress (I : Down.Inv ids D) (hnd : ids.Nodup) : D.Ended ids ∨ ∃ D', DownStep impl ids coins D (some D') ∧ D' ≠ D := by
  have key : ∀ D', DownStep impl ids coins D (some D') → D' ≠ D → D.Ended ids ∨ ∃ D', DownStep impl ids coins D (some D') ∧ D' ≠ D :=
    fun D' h h' => .inr ⟨D', h, h'⟩
  have hwg := I.wg
  rcases hl : D.left with _ | ⟨i, rest⟩
  · rw [hl] at hwg
    have hw : D.wg = 0 := by simp at hwg; omega
    rcases hc : D.closing with _ | l
    · refine key _ (.wake .insertion hc hw) fun h => ?_
      have := congrArg Down.closing h
      rw [hc] at this
      cases this
    · obtain ⟨_, h2, h3, h4, h5⟩ := I.closing l hc
      rcases l with _ | ⟨k, l⟩
      · cases hd : D.doneClosed with
        | false =>
          refine key _ (.closeDone hc hd) fun h => ?_
          have := congrArg Down.doneClosed h
          rw [hd] at this
          cases this
        | true =>
          by_cases hm : ∃ k ∈ ids, D.moved k = false
          · obtain ⟨k, hk, hm⟩ := hm
            refine key _ (.leave hk hm (I.quiet.held k hk) hd) fun h => ?_
            have := congrFun (congrArg Down.moved h) k
            rw [hm] at this
            simp at this
          by_cases he : ∃ k ∈ ids, (D.sys k).exited = false
          · obtain ⟨k, hk, he⟩ := he
            refine key _ (.work (.exit hk (I.quiet.started k hk) he (I.quiet.outbox k hk) (I.quiet.closed k hk he)) ?_ ?_ ?_) fun h => ?_
            · intro j _
              by_cases hjk : j = k
              · subst hjk; simp
              · simp [Function.update_of_ne hjk]
            · intro j _
              by_cases hjk : j = k
              · subst hjk; simp
              · simp [Function.update_of_ne hjk]
            · intro j _
              by_cases hjk : j = k
              · subst hjk; simp
              · simp [Function.update_of_ne hjk]
            · have := congrArg Node.exited (congrFun (congrArg Down.sys h) k)
              rw [he] at this
              simp at this
          · refine .inl ⟨hl, hd, fun k hk => ?_, fun k hk => ?_, fun k hk => ?_, fun k hk => ?_⟩
            · by_contra h
              exact he ⟨k, hk, by simpa using h⟩
            · by_contra h
              exact hm ⟨k, hk, by simpa using h⟩
            · rcases I.shut k hk with h | h
              · rw [hl] at h; cases h
              · exact h
            · rcases h4 k hk with h | h
              · cases h
              · exact h
      · refine key _ (.closeBytes hc (h3 k List.mem_cons_self)) fun h => ?_
        have := congrArg Down.closing h
        rw [hc] at this
        simp at this
  · cases hh : D.half with
    | false =>
      rw [hl, hh] at hwg
      refine key _ (.wgDone hl hh ?_) fun h => ?_
      · simp at hwg; omega
      · have := congrArg Down.half h
        rw [hh] at this
        cases this
    | true =>
      refine key _ (.closeIn hl hh (I.opened i (by rw [hl]; exact List.mem_cons_self))) fun h => ?_
      have := congrArg Down.half h
      rw [hh] at this
      cases this

theorem Down.Inv.steps (I : Down.Inv ids D) (hnd : ids.Nodup) (h : DownSteps impl ids coins D D') : Down.Inv ids D' := by
  induction h with
  | refl => exact I
  | tail _ h ih =>
    obtain ⟨_, h1, h2, _⟩ := ih.step hnd h
    cases h1
    exact h2

theorem DownSteps.trans {D₁ D₂ D₃ : Down G R} (h1 : DownSteps impl ids coins D₁ D₂) (h2 : DownSteps impl ids coins D₂ D₃) :
    DownSteps impl ids coins D₁ D₃ := by
  induction h2 with
  | refl => exact h1
  | tail _ h ih => exact ih.tail h

/-- The end can be reached from everywhere. -/
theorem Down.Inv.ends (I : Down.Inv ids D) (hnd : ids.Nodup) : ∃ D', DownSteps impl ids coins D D' ∧ D'.Ended ids := by
  generalize hn : D.todo ids = n
  induction n using Nat.strong_induction_on generalizing D with
  | _ n ih =>
    rcases I.progress (impl := impl) (coins := coins) hnd with h | ⟨D₁, h, hne⟩
    · exact ⟨D, .refl _, h⟩
    · obtain ⟨_, h1, h2, h3⟩ := I.step hnd h
      cases h1
      obtain ⟨D₂, h4, h5⟩ := ih _ (by have := h3.resolve_left hne; omega) h2 rfl
      exact ⟨D₂, DownSteps.trans ((DownSteps.refl D).tail h) h4, h5⟩

/-- At most so many steps are more than waiting. -/
theorem Down.Inv.bound (I : Down.Inv ids D) (hnd : ids.Nodup) (f : Nat → Down G R) (h0 : f 0 = D) (k : Nat)
    (h : ∀ l < k, DownStep impl ids coins (f l) (some (f (l + 1)))) :
    Down.Inv ids (f k) ∧ (f k).todo ids + ((List.range k).filter fun l => decide ((f (l + 1)).todo ids < (f l).todo ids)).length ≤ D.todo ids ∧
      ∀ l < k, f (l + 1) ≠ f l → (f (l + 1)).todo ids < (f l).todo ids := by
  induction k with
  | zero => exact ⟨h0 ▸ I, by simp [h0], fun l hl => absurd hl (Nat.not_lt_zero l)⟩
  | succ k ih =>
    obtain ⟨h1, h2, h3⟩ := ih fun l hl => h l (by omega)
    obtain ⟨_, g1, g2, g3⟩ := h1.step hnd (h k (by omega))
    cases g1
    refine ⟨g2, ?_, fun l hl hne => ?_⟩
    · rw [List.range_succ, List.filter_append, List.length_append]
      by_cases hlt : (f (k + 1)).todo ids < (f k).todo ids
      · simp only [hlt, List.filter_cons, List.filter_nil, decide_true, if_true, List.length_singleton]
        omega
      · simp only [hlt, List.filter_cons, List.filter_nil, decide_false, Bool.false_eq_true, if_false, List.length_nil]
        have := congrArg (Down.todo ids) (g3.resolve_right hlt)
        omega
    · rcases Nat.lt_succ_iff_lt_or_eq.mp hl with hl | rfl
      · exact h3 l hl hne
      · exact g3.resolve_left hne

end Verif.Chan

namespace Verif.Udp

variable {G R : Type} [RGroup G] {impl : RoundImpl G R} {ids : List ID} {coins : ID → Coins} {S S' : Sys G R} {D D' : Down G R}

/-- While the communicators are taken down the rest of the process goes on as before. -/
theorem DownSteps.sys (h : DownSteps impl ids coins D D') : Steps impl ids coins D.sys D'.sys := by
  induction h with
  | refl => exact .refl _
  | tail _ h ih =>
    cases h with
    | work hs _ _ _ => exact ih.tail hs
    | recvNil => exact ih
    | leave => exact ih
    | closeIn => exact ih
    | closeConn => exact ih

theorem Steps.append {S₁ S₂ S₃ : Sys G R} (h1 : Steps impl ids coins S₁ S₂) (h2 : Steps impl ids coins S₂ S₃) : Steps impl ids coins S₁ S₃ := by
  induction h2 with
  | refl => exact h1
  | tail _ h ih => exact ih.tail h

/-- A reader that has a packet to read, or a message in its hand, can panic. -/
theorem down_crash {i : ID} {rest : List ID} (hi : i ∈ ids) (h : (S.node i).held ≠ none ∨ S.wire i ≠ []) :
    ∃ D, DownSteps impl ids coins (down S (i :: rest)) D ∧ DownStep impl ids coins D none := by
  have h1 : DownStep impl ids coins (down S (i :: rest))
      (some { down S (i :: rest) with half := true, inClosed := Function.update (down S (i :: rest)).inClosed i true }) := .closeIn rfl rfl rfl
  have p1 := (DownSteps.refl _).tail h1
  cases hh : (S.node i).held with
  | some m => exact ⟨_, p1, .putClosed hi hh (Function.update_self ..)⟩
  | none =>
    obtain ⟨b, hb⟩ := List.exists_mem_of_ne_nil _ (h.resolve_left (by simp [hh]))
    refine ⟨_, p1.tail (.work (.read hi hh hb) ?_ ?_ ?_), .putClosed (m := read ids b) hi (by simp [Sys.set]) (Function.update_self ..)⟩
    · intro j _
      by_cases hji : j = i
      · subst hji; simp [Sys.set, down]
      · simp [Sys.set, down, Function.update_of_ne hji]
    · intro j hj
      cases hj
    · intro j hj
      cases hj

/-- What a step does to a party whose handler has returned and whose reader is blocked. -/
theorem Step.blocked (h : Step impl ids coins S S') {i : ID} {m : Message G} (hh : (S.node i).held = some m)
    (hl : (S.node i).incoming.length = room) (he : (S.node i).exited = true) :
    (S'.node i).held = some m ∧ (S'.node i).incoming.length = room ∧ (S'.node i).exited = true := by
  have key : ∀ {k : ID} {nd : Node G R}, ((S.node k).held = some m → (S.node k).incoming.length = room → (S.node k).exited = true →
      nd.held = some m ∧ nd.incoming.length = room ∧ nd.exited = true) →
      ((S.set k nd).node i).held = some m ∧ ((S.set k nd).node i).incoming.length = room ∧ ((S.set k nd).node i).exited = true := by
    intro k nd hk
    by_cases hik : i = k
    · subst hik
      simpa [Sys.set] using hk hh hl he
    · simpa [Sys.set, Function.update_of_ne hik] using ⟨hh, hl, he⟩
  cases h with
  | start => exact key fun a b c => ⟨a, b, c⟩
  | send => exact key fun a b c => ⟨a, b, c⟩
  | drop => exact key fun a b c => ⟨a, b, c⟩
  | read _ hn _ => exact key fun a b c => by rw [hn] at a; cases a
  | put _ _ hr => exact key fun a b c => absurd hr (by omega)
  | recv _ _ hx => exact key fun a b c => by rw [hx] at c; cases c
  | exit => exact key fun a b _ => ⟨a, b, rfl⟩
  | time => exact key fun a b c => ⟨a, b, c⟩

/-- Such a party stays blocked until its channel is closed, and then the next thing its reader does is to panic. -/
theorem down_must_crash {order : List ID} {i : ID} {m : Message G} (hi : i ∈ ids) (ho : i ∈ order) (hh : (S.node i).held = some m)
    (hl : (S.node i).incoming.length = room) (he : (S.node i).exited = true) (h : DownSteps impl ids coins (down S order) D) :
    (D.sys.node i).held = some m ∧ D.gone i = false ∧ (i ∈ D.left ∨ D.inClosed i = true) := by
  have key : (D.sys.node i).held = some m ∧ (D.sys.node i).incoming.length = room ∧ (D.sys.node i).exited = true ∧ D.gone i = false ∧
      (i ∈ D.left ∨ D.inClosed i = true) ∧ (D.half = true → ∀ k l, D.left = k :: l → D.inClosed k = true) := by
    generalize hD : down S order = D₀ at h
    induction h with
    | refl => subst hD; exact ⟨hh, hl, he, rfl, .inl ho, fun h => by cases h⟩
    | @tail D₁ D₂ _ h ih =>
      obtain ⟨a1, a2, a3, a4, a5, a6⟩ := ih
      cases h with
      | work hs _ _ _ =>
        obtain ⟨b1, b2, b3⟩ := hs.blocked a1 a2 a3
        exact ⟨b1, b2, b3, a4, a5, a6⟩
      | recvNil => exact ⟨a1, a2, a3, a4, a5, a6⟩
      | @leave k _ _ hk _ =>
        refine ⟨a1, a2, a3, ?_, a5, a6⟩
        have hik : i ≠ k := fun h => by subst h; rw [a1] at hk; cases hk
        show Function.update D₁.gone k true i = false
        rw [Function.update_of_ne hik]
        exact a4
      | @closeIn k rest hl' hf hc =>
        refine ⟨a1, a2, a3, a4, a5.imp_right fun h => ?_, fun _ k' l' h => ?_⟩
        · show Function.update D₁.inClosed k true i = true
          by_cases hik : i = k
          · subst hik; rw [Function.update_self]
          · rw [Function.update_of_ne hik]; exact h
        · have h : D₁.left = k' :: l' := h
          rw [hl'] at h
          cases h
          exact Function.update_self ..
      | @closeConn k rest hl' hf =>
        refine ⟨a1, a2, a3, a4, ?_, fun h => by cases h⟩
        rcases a5 with h | h
        · rw [hl'] at h
          rcases List.mem_cons.mp h with rfl | h
          · exact .inr (a6 hf _ _ hl')
          · exact .inl h
        · exact .inr h
  exact ⟨key.1, key.2.2.2.1, key.2.2.2.2.1⟩

/-- There is never more in `incoming` than there is room for. -/
theorem incoming_le {init : ID → State G R} {noise : ID → List Bytes} (h : Steps impl ids coins (start init noise) S) (i : ID) :
    (S.node i).incoming.length ≤ room := by
  generalize hS : start init noise = S₀ at h
  induction h with
  | refl => subst hS; simp [start]
  | @tail S₁ S₂ _ h ih =>

    have key : ∀ {k : ID} {nd : Node G R}, ((S₁.node k).incoming.length ≤ room → nd.incoming.length ≤ room) →
        ((S₁.set k nd).node i).incoming.length ≤ room := by
      intro k nd hk
      by_cases hik : i = k
      · subst hik
        simpa [Sys.set] using hk ih
      · simpa [Sys.set, Function.update_of_ne hik] using ih
    cases h with
    | start => exact key id
    | send => exact key id
    | drop => exact key id
    | read => exact key id
    | put _ _ hr => exact key fun _ => by simp only [List.length_append, List.length_singleton]; omega
    | recv _ _ _ _ hin => exact key fun h => by rw [hin] at h; simp at h; simp only; omega
    | exit => exact key id
    | time => exact key id

/-- Packets that keep coming block the reader of a party whose handler has returned. -/
theorem can_block {i : ID} (hi : i ∈ ids) (he : (S.node i).exited = true) (hl : (S.node i).incoming.length ≤ room) (hw : S.wire i ≠ []) :
    ∃ S', Steps impl ids coins S S' ∧ (∀ j, (S'.node j).state = (S.node j).state ∧ (S'.node j).exited = (S.node j).exited) ∧
      (∃ m, (S'.node i).held = some m) ∧ (S'.node i).incoming.length = room := by
  obtain ⟨b, hb⟩ := List.exists_mem_of_ne_nil _ hw
  generalize hn : room - (S.node i).incoming.length = n
  have hset : ∀ (T : Sys G R) (nd : Node G R), nd.state = (T.node i).state → nd.exited = (T.node i).exited →
      ∀ j, ((T.set i nd).node j).state = (T.node j).state ∧ ((T.set i nd).node j).exited = (T.node j).exited := by
    intro T nd h1 h2 j
    by_cases hji : j = i
    · subst hji; simpa [Sys.set] using ⟨h1, h2⟩
    · simp [Sys.set, Function.update_of_ne hji]
  induction n generalizing S with
  | zero =>
    cases hh : (S.node i).held with
    | some m => exact ⟨S, .refl _, fun _ => ⟨rfl, rfl⟩, ⟨m, hh⟩, by omega⟩
    | none =>
      refine ⟨_, (Steps.refl S).tail (.read hi hh hb), hset S _ rfl rfl, ⟨_, by simp [Sys.set]; rfl⟩, ?_⟩
      simp only [Sys.set, Function.update_self]
      omega
  | succ n ih =>
    have step1 : ∀ (T : Sys G R) (m : Message G), (T.node i).held = some m → (T.node i).incoming = (S.node i).incoming → T.wire = S.wire →
        (∀ j, (T.node j).state = (S.node j).state ∧ (T.node j).exited = (S.node j).exited) →
        ∃ S', Steps impl ids coins T S' ∧ (∀ j, (S'.node j).state = (S.node j).state ∧ (S'.node j).exited = (S.node j).exited) ∧
          (∃ m, (S'.node i).held = some m) ∧ (S'.node i).incoming.length = room := by
      intro T m hm hin hw' hst
      have hlt : (T.node i).incoming.length < room := by rw [hin]; omega
      have hs : Step impl ids coins T (T.set i { T.node i with held := none, incoming := (T.node i).incoming ++ [m] }) := .put hi hm hlt
      obtain ⟨S', p, q, q', q''⟩ := ih (S := T.set i { T.node i with held := none, incoming := (T.node i).incoming ++ [m] })
        (by simp only [Sys.set, Function.update_self]; rw [(hst i).2]; exact he)
        (by simp only [Sys.set, Function.update_self, List.length_append, List.length_singleton]; omega)
        (by simpa [Sys.set, hw'] using hw) (by simpa [Sys.set, hw'] using hb)
        (by simp only [Sys.set, Function.update_self, List.length_append, List.length_singleton, hin]; omega)
      refine ⟨S', Steps.append ((Steps.refl T).tail hs) p, fun j => ?_, q', q''⟩
      obtain ⟨a1, a2⟩ := q j
      obtain ⟨b1, b2⟩ := hset T { T.node i with held := none, incoming := (T.node i).incoming ++ [m] } rfl rfl j
      exact ⟨a1.trans (b1.trans (hst j).1), a2.trans (b2.trans (hst j).2)⟩
    cases hh : (S.node i).held with
    | some m => exact step1 S m hh rfl rfl fun _ => ⟨rfl, rfl⟩
    | none =>
      obtain ⟨S', p, q, q', q''⟩ := step1 (S.set i { S.node i with held := some (read ids b) }) (read ids b) (by simp [Sys.set]) (by simp [Sys.set]) rfl
        (hset S _ rfl rfl)
      exact ⟨S', Steps.append ((Steps.refl S).tail (.read hi hh hb)) p, q, q', q''⟩

/-- No handlers, no sessions, no packets. -/
structure Quiet (ids : List ID) (S : Sys G R) : Prop where
  started : ∀ i ∈ ids, (S.node i).started = true
  exited : ∀ i ∈ ids, (S.node i).exited = true
  outbox : ∀ i ∈ ids, (S.node i).outbox = []
  held : ∀ i ∈ ids, (S.node i).held = none
  wire : ∀ i ∈ ids, S.wire i = []
  timer : ∀ i ∈ ids, (S.node i).state.timer.deadline = none ∧ (S.node i).state.timer.fired = 0

omit [RGroup G] in
theorem time_step {s s' : State G R} {op : State.Op G} {ret : State.Ret G} (ht : s.timer.deadline = none ∧ s.timer.fired = 0)
    (hop : (∃ dt, op = .advance dt) ∨ op = .fire ∨ op = .callback) (h : State.step impl s op = some (s', ret)) :
    s'.timer.deadline = none ∧ s'.timer.fired = 0 := by
  rcases hop with ⟨dt, rfl⟩ | rfl | rfl
  · simp only [State.step, Option.some.injEq, Prod.mk.injEq] at h
    rw [← h.1]
    exact ht
  · simp only [State.step, ht.1, Option.some.injEq, Prod.mk.injEq] at h
    rw [← h.1]
    exact ht
  · simp only [State.step, ht.2, if_true, Option.some.injEq, Prod.mk.injEq] at h
    rw [← h.1]
    exact ht

theorem Quiet.step (q : Quiet ids S) (h : Step impl ids coins S S') : Quiet ids S' := by
  cases h with
  | start hi hs _ => rw [q.started _ hi] at hs; cases hs
  | send hi ho _ => rw [q.outbox _ hi] at ho; cases ho
  | drop hi ho => rw [q.outbox _ hi] at ho; cases ho
  | read hi _ hb => rw [q.wire _ hi] at hb; cases hb
  | put hi hh _ => rw [q.held _ hi] at hh; cases hh
  | recv hi _ he => rw [q.exited _ hi] at he; cases he
  | exit hi _ he => rw [q.exited _ hi] at he; cases he
  | @time i op s hi hop hs =>
    have ht := time_step (q.timer i hi) hop hs
    constructor <;> intro k hk <;> by_cases hki : k = i
    all_goals first
      | (subst hki; simp only [Sys.set, Function.update_self])
      | simp only [Sys.set, Function.update_of_ne hki]
    all_goals first
      | exact ht
      | exact q.started k hk
      | exact q.exited k hk
      | exact q.outbox k hk
      | exact q.held k hk
      | exact q.wire k hk
      | exact q.timer k hk

omit [RGroup G] in
theorem Quiet.no_crash (q : Quiet ids S) : ¬ Crash impl ids coins S := by
  intro h
  cases h with
  | start hi hs _ => rw [q.started _ hi] at hs; cases hs
  | recv hi _ he => rw [q.exited _ hi] at he; cases he
  | time hi hop hn =>
    obtain ⟨h1, h2⟩ := q.timer _ hi
    rcases hop with ⟨dt, rfl⟩ | rfl | rfl
    · simp [State.step] at hn
    · simp [State.step, h1] at hn
    · simp [State.step, h2] at hn

/-- What holds of the communicators while they are taken down. -/
structure Down.Inv (ids : List ID) (D : Down G R) : Prop where
  nodup : D.left.Nodup
  opened : D.half = false → ∀ i ∈ D.left, D.inClosed i = false
  half : D.half = true → ∃ i rest, D.left = i :: rest ∧ D.inClosed i = true ∧ ∀ k ∈ rest, D.inClosed k = false
  shut : ∀ i ∈ ids, i ∈ D.left ∨ D.inClosed i = true ∧ D.connClosed i = true

omit [RGroup G] in
theorem Down.inv_down {order : List ID} (hnd : ids.Nodup) (ho : order.Perm ids) : Down.Inv ids (down S order) where
  nodup := ho.nodup_iff.mpr hnd
  opened _ _ _ := rfl
  half h := by cases h
  shut i hi := .inl (ho.mem_iff.mpr hi)

/-- The only panics besides those of sessions are those of readers. -/
theorem Down.Inv.step (I : Down.Inv ids D) {x : Option (Down G R)} (h : DownStep impl ids coins D x) :
    (∃ D', x = some D' ∧ Down.Inv ids D') ∨ x = none ∧ (Crash impl ids coins D.sys ∨ ∃ i ∈ ids, ∃ m, (D.sys.node i).held = some m ∧ D.inClosed i = true) := by
  cases h with
  | work => exact .inl ⟨_, rfl, { I with }⟩
  | crash h => exact .inr ⟨rfl, .inl h⟩
  | putClosed hi hh hc => exact .inr ⟨rfl, .inr ⟨_, hi, _, hh, hc⟩⟩
  | recvNil => exact .inl ⟨_, rfl, I⟩
  | leave => exact .inl ⟨_, rfl, { I with }⟩
  | @closeIn i rest hl hf hc =>
    have hn := I.nodup
    rw [hl] at hn
    refine .inl ⟨_, rfl, { I with opened := nofun, half := fun _ => ⟨i, rest, hl, Function.update_self .., fun k hk => ?_⟩, shut := fun k hk => ?_ }⟩
    · have hki : k ≠ i := fun h => (List.nodup_cons.mp hn).1 (h ▸ hk)
      show Function.update D.inClosed i true k = false
      rw [Function.update_of_ne hki]
      exact I.opened hf k (by rw [hl]; exact List.mem_cons_of_mem _ hk)
    · refine (I.shut k hk).imp_right fun h => ⟨?_, h.2⟩
      show Function.update D.inClosed i true k = true
      by_cases hki : k = i
      · subst hki; rw [Function.update_self]
      · rw [Function.update_of_ne hki]; exact h.1
  | @closeInTwice i rest hl hf hc =>
    have := I.opened hf i (by rw [hl]; exact List.mem_cons_self)
    rw [hc] at this
    cases this
  | @closeConn i rest hl hf =>
    obtain ⟨i', rest', h1, h2, h3⟩ := I.half hf
    rw [hl] at h1
    cases h1
    have hn := I.nodup
    rw [hl] at hn
    refine .inl ⟨_, rfl, { nodup := (List.nodup_cons.mp hn).2, opened := fun _ => h3, half := nofun, shut := fun k hk => ?_ }⟩
    show k ∈ rest ∨ D.inClosed k = true ∧ Function.update D.connClosed i true k = true
    by_cases hki : k = i
    · subst hki
      exact .inr ⟨h2, Function.update_self ..⟩
    · rw [Function.update_of_ne hki]
      refine (I.shut k hk).imp_left fun h => ?_
      rw [hl] at h
      exact (List.mem_cons.mp h).resolve_left hki

theorem Down.Inv.steps (I : Down.Inv ids D) (h : DownSteps impl ids coins D D') : Down.Inv ids D' := by
  induction h with
  | refl => exact I
  | tail _ h ih =>
    rcases ih.step h with ⟨_, h1, h2⟩ | ⟨h1, _⟩
    · cases h1; exact h2
    · cases h1

theorem Quiet.steps (q : Quiet ids S) (h : Steps impl ids coins S S') : Quiet ids S' := by
  induction h with
  | refl => exact q
  | tail _ h ih => exact ih.step h

/-- Everything is closed and all readers have returned. -/
structure Down.Ended (ids : List ID) (D : Down G R) : Prop where
  destroyed : D.left = []
  readers : ∀ i ∈ ids, D.gone i = true
  incoming : ∀ i ∈ ids, D.inClosed i = true
  conns : ∀ i ∈ ids, D.connClosed i = true

theorem DownSteps.trans {D₁ D₂ D₃ : Down G R} (h1 : DownSteps impl ids coins D₁ D₂) (h2 : DownSteps impl ids coins D₂ D₃) :
    DownSteps impl ids coins D₁ D₃ := by
  induction h2 with
  | refl => exact h1
  | tail _ h ih => exact ih.tail h

/-- If no reader has a message in its hand then everything can be taken down. -/
theorem Down.Inv.ends (I : Down.Inv ids D) (hh : ∀ i ∈ ids, (D.sys.node i).held = none) :
    ∃ D', DownSteps impl ids coins D D' ∧ D'.Ended ids ∧ D'.sys = D.sys := by
  generalize hn : ids.countP (fun i => !D.gone i) + (2 * D.left.length - D.half.toNat) = n
  induction n using Nat.strong_induction_on generalizing D with
  | _ n ih =>
    have key : ∀ D₁, DownStep impl ids coins D (some D₁) → D₁.sys = D.sys →
        ids.countP (fun i => !D₁.gone i) + (2 * D₁.left.length - D₁.half.toNat) < n → ∃ D', DownSteps impl ids coins D D' ∧ D'.Ended ids ∧ D'.sys = D.sys := by
      intro D₁ h1 h2 h3
      rcases I.step h1 with ⟨_, g, g'⟩ | ⟨g, _⟩
      · cases g
        obtain ⟨D₂, p, e, s⟩ := ih _ h3 g' (by rw [h2]; exact hh) rfl
        exact ⟨D₂, DownSteps.trans ((DownSteps.refl D).tail h1) p, e, s.trans h2⟩
      · cases g
    cases hf : D.half with
    | true =>
      obtain ⟨i, rest, hl, _, _⟩ := I.half hf
      refine key _ (.closeConn hl hf) rfl ?_
      simp only [← hn, hl, hf, List.length_cons, Bool.toNat_true, Bool.toNat_false]
      omega
    | false =>
      rcases hl : D.left with _ | ⟨i, rest⟩
      · by_cases hg : ∃ k ∈ ids, D.gone k = false
        · obtain ⟨k, hk, hg⟩ := hg
          have hc := ((I.shut k hk).resolve_left (by rw [hl]; exact List.not_mem_nil)).2
          refine key _ (.leave hk hg (hh k hk) hc) rfl ?_
          have := count_lt (l := ids) (p := fun i => !D.gone i) (q := fun i => !Function.update D.gone k true i) (by
            intro j _ h
            by_cases hjk : j = k
            · subst hjk; rw [Function.update_self] at h; cases h
            · rwa [Function.update_of_ne hjk] at h) hk (by simp [hg]) (by simp)
          rw [← hn]
          exact Nat.add_lt_add_right this _
        · refine ⟨D, .refl _, ⟨hl, fun k hk => ?_, fun k hk => ?_, fun k hk => ?_⟩, rfl⟩
          · by_contra h
            exact hg ⟨k, hk, by simpa using h⟩
          · exact ((I.shut k hk).resolve_left (by rw [hl]; exact List.not_mem_nil)).1
          · exact ((I.shut k hk).resolve_left (by rw [hl]; exact List.not_mem_nil)).2
      · refine key _ (.closeIn hl hf (I.opened hf i (by rw [hl]; exact List.mem_cons_self))) rfl ?_
        simp only [← hn, hf, hl, List.length_cons, Bool.toNat_true, Bool.toNat_false]
        omega

end Verif.Udp

namespace Verif

open State Spec

variable {G R : Type} {impl : RoundImpl G R}

/-- `ProcessAll` leaves the timer alone, unless it ends the session. -/
theorem processAll_timer {ord : MapOrder} {c : Coins} {s s' : State G R} {o : List (Message G)} (h : processAll impl ord c s = some (s', o))
    (hd : s'.done = false) : s'.timer = s.timer ∧ s'.err = s.err ∧ s'.closed = s.closed := by
  cases (processAll_iff impl).mp h with
  | idle => exact ⟨rfl, rfl, rfl⟩
  | processErr => cases hd
  | generateErr => cases hd
  | last => cases hd
  | next => exact ⟨rfl, rfl, rfl⟩

theorem callback_timedOut {s s' : State G R} {ret : Ret G} (hd : s.done = false) (he : s.err = none) (hf : s.timer.fired ≠ 0)
    (h : State.step impl s .callback = some (s', ret)) : TimedOut s' ∧ ret = .nothing := by
  simp only [State.step, hf, if_false, Option.map_eq_some_iff, timeoutCallback, reportError, finish] at h
  obtain ⟨a, h1, h2⟩ := h
  obtain ⟨rfl, rfl⟩ := Prod.mk.inj h2
  refine ⟨?_, rfl⟩
  simp only [hd, Bool.false_eq_true, if_false, he] at h1
  cases hr : impl.reset s.round with
  | none => rw [hr] at h1; cases h1
  | some r =>
    rw [hr] at h1
    by_cases hc : s.closed = true
    · simp [hc] at h1
    · simp only [hc] at h1
      cases h1
      exact ⟨rfl, rfl⟩

namespace Udp

variable [RGroup G] {ids : IDSlice} {r₀ : ID → R} {coins : ID → Coins} {M : Nat → ID → ID → Message G}
  {out : ID → Nat → List (Message G)} {Good : ID → Nat → R → Prop} {timeout now : ID → Nat} {tys : List MsgType}
  {init : ID → State G R} {S : Sys G R}

/-- Packets that are not sent. -/
theorem drops {i : ID} (hi : i ∈ ids) {l r : List (ID × Bytes)} (h : (S.node i).outbox = l ++ r) :
    ∃ S', Steps impl ids coins S S' ∧ S'.wire = S.wire ∧ S'.node i = { S.node i with outbox := r } ∧ ∀ j, j ≠ i → S'.node j = S.node j := by
  induction l generalizing S with
  | nil =>
    refine ⟨S, .refl _, rfl, ?_, fun _ _ => rfl⟩
    rw [← (show (S.node i).outbox = r from h)]
  | cons p l ih =>
    obtain ⟨S', h1, h2, h3, h4⟩ := ih (S := S.set i { S.node i with outbox := l ++ r }) (by simp [Sys.set])
    refine ⟨S', Steps.append ((Steps.refl S).tail (.drop hi h)) h1, h2, ?_, fun j hj => ?_⟩
    · rw [h3]
      simp [Sys.set]
    · rw [h4 j hj]
      simp [Sys.set, Function.update_of_ne hj]

/-- A party can time out while the first packet that was ever sent to it is under way. -/
theorem timeout_early (P : Chan.Protocol impl ids r₀ coins M out Good tys timeout now init) {a b : ID} (ha : a ∈ ids) (hb : b ∈ ids) (hne : b ≠ a)
    (hto : 0 < timeout a)
    (hcb : ∀ S, Steps impl ids coins (start init fun _ => []) S → (S.node a).state.roundNumber ≠ 0 → ∃ s ret, State.step impl (S.node a).state .callback = some (s, ret)) :
    ∃ S x, Steps impl ids coins (start init fun _ => []) S ∧ TimedOut (S.node a).state ∧ S.wire a = [x] ∧
      (∀ j, j ≠ a → S.wire j = []) ∧ ∀ j, (S.node j).held = none ∧ (S.node j).incoming = [] := by
  obtain ⟨sa, pa, ba⟩ := Chan.first_process P (.refl _) ha rfl .insertion
  obtain ⟨sb, pb, bb⟩ := Chan.first_process P (.refl _) hb rfl .insertion
  set ords : Nat → MapOrder := fun _ => .insertion
  have hx : ∃ x l r, Chan.sends ids b ords (out b 0) = l ++ (a, x) :: r := by
    have h := Chan.boxTo_out P hb ha hne (n := 0) (by omega) ords
    have h1 : M (0 + 1) b a ∈ Chan.boxTo (Chan.sends ids b ords (out b 0)) a := by rw [h]; exact List.mem_singleton_self _
    obtain ⟨p, h2, _⟩ := List.mem_filterMap.mp h1
    obtain ⟨h3, h4⟩ := List.mem_filter.mp h2
    obtain ⟨l, r, h5⟩ := List.append_of_mem h3
    obtain ⟨p1, p2⟩ := p
    have h4 : p1 = a := by simpa using h4
    subst h4
    exact ⟨p2, l, r, h5⟩
  obtain ⟨x, l, r, hx⟩ := hx
  set S₀ : Sys G R := start init fun _ => []
  set S₁ := S₀.set a { S₀.node a with started := true, state := sa, outbox := Chan.sends ids a ords (out a 0) } with hS₁
  have e1 : Step impl ids coins S₀ S₁ := .start ha rfl pa
  set S₂ := S₁.set b { S₁.node b with started := true, state := sb, outbox := Chan.sends ids b ords (out b 0) } with hS₂
  have hS₁b : S₁.node b = S₀.node b := by simp [S₁, Sys.set, Function.update_of_ne hne]
  have e2 : Step impl ids coins S₁ S₂ := .start hb (by rw [hS₁b]; rfl) (by rw [hS₁b]; exact pb)
  obtain ⟨S₃, e3, w3, n3, o3⟩ := drops (impl := impl) (coins := coins) (S := S₂) hb (l := l) (r := (a, x) :: r) (by rw [← hx]; simp [S₂, Sys.set])
  have e4 : Step impl ids coins S₃ _ := .send (j := a) (b := x) (rest := r) hb (by rw [n3]) ha
  set S₄ : Sys G R := { S₃.set b { S₃.node b with outbox := r } with wire := Function.update S₃.wire a (S₃.wire a ++ [x]) } with hS₄
  have p4 : Steps impl ids coins S₀ S₄ := (Steps.append (((Steps.refl S₀).tail e1).tail e2) e3).tail e4
  have w0 : S₃.wire = fun _ => [] := by rw [w3]; rfl
  have n4a : S₄.node a = { S₀.node a with started := true, state := sa, outbox := Chan.sends ids a ords (out a 0) } := by
    simp only [S₄, Sys.set, Function.update_of_ne hne.symm]
    rw [o3 a hne.symm]
    simp [S₂, S₁, Sys.set, Function.update_of_ne hne.symm]
  have n4 : ∀ j, (S₄.node j).held = none ∧ (S₄.node j).incoming = [] := by
    intro j
    by_cases hjb : j = b
    · subst hjb
      simp only [S₄, Sys.set, Function.update_self]
      rw [n3]
      simp only [S₂, Sys.set, Function.update_self, hS₁b]
      exact ⟨rfl, rfl⟩
    · simp only [S₄, Sys.set, Function.update_of_ne hjb]
      rw [o3 j hjb]
      simp only [S₂, Sys.set, Function.update_of_ne hjb]
      by_cases hja : j = a
      · subst hja
        simp only [S₁, Sys.set, Function.update_self]
        exact ⟨rfl, rfl⟩
      · simp only [S₁, Sys.set, Function.update_of_ne hja]
        exact ⟨rfl, rfl⟩
  obtain ⟨ht, he, _⟩ := processAll_timer pa ba.running
  have hinit : init a = newBaseState impl (r₀ a) (timeout a) (now a) := P.init a ha
  rw [show (Net.start init).state a = init a from rfl, hinit] at ht he
  have ht' : sa.timer = ⟨timeout a, now a, some (now a + timeout a), 0⟩ := by rw [ht]; simp [newBaseState, Timer.new, hto]
  have he' : sa.err = none := he
  let s₁ : State G R := { sa with timer := ⟨timeout a, now a + timeout a, some (now a + timeout a), 0⟩ }
  let s₂ : State G R := { sa with timer := ⟨timeout a, now a + timeout a, none, 1⟩ }
  have f1 : State.step impl (S₄.node a).state (.advance (timeout a)) = some (s₁, .nothing) := by
    rw [n4a]
    simp [State.step, s₁, ht']
  set S₅ := S₄.set a { S₄.node a with state := s₁ }
  have n5 : S₅.node a = { S₄.node a with state := s₁ } := by simp [S₅, Sys.set]
  have e5 : Step impl ids coins S₄ S₅ := .time ha (.inl ⟨_, rfl⟩) f1
  have f2 : State.step impl (S₅.node a).state .fire = some (s₂, .nothing) := by
    rw [n5]
    simp [State.step, s₁, s₂]
  set S₆ := S₅.set a { S₅.node a with state := s₂ }
  have n6 : S₆.node a = { S₄.node a with state := s₂ } := by simp [S₆, Sys.set, n5]
  have e6 : Step impl ids coins S₅ S₆ := .time ha (.inr (.inl rfl)) f2
  have p6 := (p4.tail e5).tail e6
  obtain ⟨s₃, ret, f3⟩ := hcb S₆ p6 (by rw [n6]; show sa.roundNumber ≠ 0; rw [ba.round]; omega)
  obtain ⟨g1, rfl⟩ := callback_timedOut (by rw [n6]; exact ba.running) (by rw [n6]; exact he') (by rw [n6]; show (1 : Nat) ≠ 0; omega) f3
  refine ⟨_, x, p6.tail (.time ha (.inr (.inr rfl)) f3), ?_, ?_, ?_, ?_⟩
  · simpa [Sys.set] using g1
  · show Function.update S₃.wire a (S₃.wire a ++ [x]) a = [x]
    rw [Function.update_self, w0]
    rfl
  · intro j hj
    show Function.update S₃.wire a (S₃.wire a ++ [x]) j = []
    rw [Function.update_of_ne hj, w0]
  · intro j
    by_cases hja : j = a
    · subst hja
      simp only [Sys.set, Function.update_self, n6]
      exact n4 j
    · simp only [Sys.set, Function.update_of_ne hja, S₆, S₅]
      exact n4 j

end Udp

end Verif
