import Mathlib.Data.List.Perm.Subperm
import Mathlib.Data.List.ProdSigma
import Verif.Spec.Flood
import Verif.Props.State
import Verif.Props.Keygen
import Verif.Props.Sign
import Verif.Props.Helpers
import Verif.Lemmas.Forward

/-!
C93: how much a session stores and how long it lasts.
-/

namespace Verif.Props

open Verif State
open scoped List

variable {G R : Type} {impl : RoundImpl G R}

theorem acceptedOf_append (self : ID) (ids : List ID) (h h' : List (Op G × Ret G)) :
    Spec.acceptedOf self ids (h ++ h') = Spec.acceptedOf self ids h ++ Spec.acceptedOf self ids h' := List.filterMap_append

theorem movedQueue_sublist (types : List MsgType) (q : List (Message G)) : movedQueue types q <+ q := by
  unfold movedQueue
  split
  · exact List.Sublist.refl _
  · exact List.filter_sublist

/-- What is in the queue, and what was accepted. -/
structure StoreInv (impl : RoundImpl G R) (r₀ : R) (h : List (Op G × Ret G)) (s : State G R) : Prop where
  sub : s.queue <+ Spec.acceptedOf (impl.selfID r₀) (impl.partyIDs r₀) h
  queue : ∀ m ∈ s.queue, m.header.type ∈ (impl.acceptedMessageTypes r₀).drop 2
  all : ∀ m ∈ Spec.acceptedOf (impl.selfID r₀) (impl.partyIDs r₀) h, m.header.type ∈ (impl.acceptedMessageTypes r₀).drop 1

theorem store_inv (hst : impl.Stable) {r₀ : R} {timeout now : Nat} {h : List (Op G × Ret G)} {s : State G R}
    (hh : Hist impl (newBaseState impl r₀ timeout now) h s) : StoreInv impl r₀ h s := by
  induction hh with
  | nil => exact ⟨List.Sublist.refl _, (fun m hm => nomatch hm), (fun m hm => nomatch hm)⟩
  | @snoc h s₁ s₂ op ret hh hs ih =>
    have hi := inv_hist hst hh
    have other : ∀ q : List (Message G), q <+ s₁.queue → s₂.queue = q → Spec.acceptedOf (impl.selfID r₀) (impl.partyIDs r₀) [(op, ret)] = [] →
        StoreInv impl r₀ (h ++ [(op, ret)]) s₂ := by
      intro q hq hq2 ha
      rw [← hq2] at hq
      refine ⟨?_, fun m hm => ih.queue m (hq.subset hm), ?_⟩
      · rw [acceptedOf_append, ha, List.append_nil]
        exact hq.trans ih.sub
      · rw [acceptedOf_append, ha, List.append_nil]
        exact ih.all
    rcases step_cases hs with ⟨m, e, rfl, rfl, h1⟩ | ⟨ord, coins, out, rfl, rfl, h1⟩ | ⟨dt, rfl, rfl, rfl⟩ |
      ⟨rfl, rfl, rfl | ⟨t, _, _, rfl⟩⟩ | ⟨rfl, rfl, ⟨_, rfl⟩ | ⟨_, _, rfl⟩ | ⟨r, _, _, _, _, rfl⟩⟩
    · have typ : s₁.done = false → Relevant (impl.selfID s₁.round) (impl.partyIDs s₁.round) m → m.header.fromID ∉ s₁.received.keys →
          ∃ n, s₁.acceptedTypes = (impl.acceptedMessageTypes r₀).drop (n + 1) := by
        intro hd hr hn
        have h0 : s₁.roundNumber ≠ 0 := fun h0 => hn (hi.round0_mem h0 hd (by rw [← hi.self, ← hi.ids]; exact hr))
        refine ⟨s₁.used - 1, ?_⟩
        rw [hi.types, show s₁.used - 1 + 1 = s₁.used by unfold used; omega]
      have one : Relevant (impl.selfID s₁.round) (impl.partyIDs s₁.round) m →
          Spec.acceptedOf (impl.selfID r₀) (impl.partyIDs r₀) [(Op.handle m, Ret.handled none)] = [m] := by
        intro hr
        have : Spec.ForUs (impl.selfID r₀) (impl.partyIDs r₀) m := by
          rw [← hi.self, ← hi.ids]
          exact ⟨hr.1, IDSlice.contains_sound hr.2.2, hr.2.1⟩
        simp [Spec.acceptedOf, this]
      cases handle_cases impl h1 with
      | finished | noMore | notAParty | already | badType => exact other _ (List.Sublist.refl _) rfl rfl
      | fromSelf _ hx =>
        refine other _ (List.Sublist.refl _) rfl ?_
        have : ¬ Spec.ForUs (impl.selfID r₀) (impl.partyIDs r₀) m := fun hc => hc.1 (hx.trans hi.self)
        simp [Spec.acceptedOf, this]
      | notForUs _ _ h4 h5 =>
        refine other _ (List.Sublist.refl _) rfl ?_
        have : ¬ Spec.ForUs (impl.selfID r₀) (impl.partyIDs r₀) m := fun hc => hc.2.2.elim h4 fun h => h5 (h.trans hi.self.symm)
        simp [Spec.acceptedOf, this]
      | stored hd hr hn ht =>
        obtain ⟨n, hty⟩ := typ hd hr hn
        refine ⟨?_, ih.queue, ?_⟩
        · rw [acceptedOf_append]
          exact ih.sub.trans (List.sublist_append_left _ _)
        · rw [acceptedOf_append, one hr]
          intro x hx
          rcases List.mem_append.mp hx with hx | hx
          · exact ih.all x hx
          · obtain rfl := List.mem_singleton.mp hx
            have := List.mem_of_head? ht
            rw [hty, Nat.add_comm, ← List.drop_drop] at this
            exact List.mem_of_mem_drop this
      | queued hd hr hn ht hc =>
        obtain ⟨n, hty⟩ := typ hd hr hn
        refine ⟨?_, ?_, ?_⟩
        · rw [acceptedOf_append, one hr]
          exact ih.sub.append (List.Sublist.refl _)
        · intro x hx
          rcases List.mem_append.mp hx with hx | hx
          · exact ih.queue x hx
          · obtain rfl := List.mem_singleton.mp hx
            have htl : x.header.type ∈ s₁.acceptedTypes.tail := by
              cases hl : s₁.acceptedTypes with
              | nil => rw [hl] at ht; cases ht
              | cons a l =>
                rw [hl] at ht hc
                rcases List.mem_cons.mp ht with h | h
                · exact absurd (by rw [h]; rfl) hc
                · exact h
            rw [hty, List.tail_drop, show n + 1 + 1 = 2 + n by omega, ← List.drop_drop] at htl
            exact List.mem_of_mem_drop htl
        · rw [acceptedOf_append, one hr]
          intro x hx
          rcases List.mem_append.mp hx with hx | hx
          · exact ih.all x hx
          · obtain rfl := List.mem_singleton.mp hx
            rw [hty, Nat.add_comm, ← List.drop_drop] at ht
            exact List.mem_of_mem_drop ht
    · cases h1 with
      | idle => exact other _ (List.Sublist.refl _) rfl rfl
      | processErr => exact other _ (List.Sublist.refl _) rfl rfl
      | generateErr => exact other _ (List.Sublist.refl _) rfl rfl
      | last => exact other _ (movedQueue_sublist _ _) rfl rfl
      | next => exact other _ (movedQueue_sublist _ _) rfl rfl
    all_goals exact other _ (List.Sublist.refl _) rfl rfl

/-- C93: at most one message per other party is stored for the current round. -/
theorem C93_received_bounded (hst : impl.Stable) {r₀ : R} {timeout now : Nat} {h : List (Op G × Ret G)} {s : State G R}
    (hh : Hist impl (newBaseState impl r₀ timeout now) h s) : s.received.length ≤ (Spec.others (impl.selfID r₀) (impl.partyIDs r₀)).length := by
  have hi := inv_hist hst hh
  rw [show s.received.length = s.received.keys.length by simp [GoMap.keys]]
  refine (List.subperm_of_subset hi.wf ?_).length_le
  intro k hk
  obtain ⟨⟨k', v⟩, hm, rfl⟩ := List.mem_map.mp hk
  refine List.mem_filter.mpr ?_
  cases v with
  | none =>
    obtain ⟨_, h1, h2⟩ := hi.storedNone _ hm
    exact ⟨h1, by simpa using h2⟩
  | some m =>
    obtain ⟨h1, h2, _⟩ := hi.stored _ _ hm
    have h1 : k' = m.header.fromID := h1
    exact ⟨by rw [h1]; exact IDSlice.contains_sound h2.2.2, by rw [h1]; simpa using h2.1⟩

theorem count_pairs {self : ID} {ids : List ID} {types : List MsgType} {l : List (Message G)} (hn : (l.map fun m => (m.header.fromID, m.header.type)).Nodup)
    (h1 : ∀ m ∈ l, m.header.fromID ∈ Spec.others self ids) (h2 : ∀ m ∈ l, m.header.type ∈ types) : l.length ≤ (Spec.others self ids).length * types.length := by
  rw [← List.length_product, ← List.length_map (f := fun m : Message G => (m.header.fromID, m.header.type))]
  refine (List.subperm_of_subset hn ?_).length_le
  intro p hp
  obtain ⟨m, hm, rfl⟩ := List.mem_map.mp hp
  exact List.mem_product.mpr ⟨h1 m hm, h2 m hm⟩

theorem acceptedOf_others {self : ID} {ids : List ID} {h : List (Op G × Ret G)} (m : Message G) (hm : m ∈ Spec.acceptedOf self ids h) :
    m.header.fromID ∈ Spec.others self ids := by
  obtain ⟨⟨op, ret⟩, _, h1⟩ := List.mem_filterMap.mp hm
  have : Spec.ForUs self ids m := by
    split at h1
    · split_ifs at h1 with h2
      obtain rfl := Option.some.inj h1
      exact h2
    · cases h1
  exact List.mem_filter.mpr ⟨this.2.1, by simpa using this.1⟩

/-- C93: if nobody has two messages of the same type accepted, the queue holds at most one message per other party and later round: for the rounds from
the second on. -/
theorem C93_queue_bounded_partial (hst : impl.Stable) {r₀ : R} {timeout now : Nat} {h : List (Op G × Ret G)} {s : State G R}
    (hh : Hist impl (newBaseState impl r₀ timeout now) h s) (ho : Spec.OncePerType (impl.selfID r₀) (impl.partyIDs r₀) h) :
    s.queue.length ≤ (Spec.others (impl.selfID r₀) (impl.partyIDs r₀)).length * ((impl.acceptedMessageTypes r₀).drop 2).length := by
  have hi := store_inv hst hh
  exact count_pairs ((hi.sub.map _).nodup ho) (fun m hm => acceptedOf_others m (hi.sub.subset hm)) hi.queue

/-- C93: with a timer that is served in time, a session that has accepted `k` messages lasts for at most `k + 1` time-outs. -/
theorem C93_lifetime (self : ID) (ids : List ID) (timeout now : Nat) (h : List (Op G × Ret G)) (hp : Spec.Prompt self ids timeout now h) :
    Spec.clock now h ≤ now + timeout * ((Spec.acceptedOf self ids h).length + 1) := by
  have key : Spec.clock now h ≤ Spec.lastAccepted self ids now now h + timeout ∧
      Spec.lastAccepted self ids now now h ≤ now + timeout * (Spec.acceptedOf self ids h).length := by
    induction h using List.reverseRecOn with
    | nil => simp [Spec.clock, Spec.lastAccepted, Spec.acceptedOf]
    | append_singleton h a ih =>
      obtain ⟨h1, h2⟩ := ih fun h₁ dt ret h₂ he => hp h₁ dt ret (h₂ ++ [a]) (by rw [he]; simp)
      rw [clock_append, lastAccepted_append, acceptedOf_append, List.length_append]
      have hmono : now + timeout * (Spec.acceptedOf self ids h).length ≤ now + timeout * ((Spec.acceptedOf self ids h).length + (Spec.acceptedOf self ids [a]).length) :=
        Nat.add_le_add_left (Nat.mul_le_mul_left _ (Nat.le_add_right _ _)) _
      obtain ⟨op, ret⟩ := a
      cases op with
      | advance dt =>
        exact ⟨by simpa [Spec.clock, Spec.lastAccepted] using hp h dt ret [] rfl, by simpa [Spec.lastAccepted] using h2.trans hmono⟩
      | processAll | fire | callback => exact ⟨by simpa [Spec.clock, Spec.lastAccepted] using h1, by simpa [Spec.lastAccepted] using h2.trans hmono⟩
      | handle m =>
        cases ret with
        | messages | nothing => exact ⟨by simpa [Spec.clock, Spec.lastAccepted] using h1, by simpa [Spec.lastAccepted] using h2.trans hmono⟩
        | handled e =>
          cases e with
          | some e => exact ⟨by simpa [Spec.clock, Spec.lastAccepted] using h1, by simpa [Spec.lastAccepted] using h2.trans hmono⟩
          | none =>
            by_cases hf : Spec.ForUs self ids m
            · simp only [Spec.clock, Spec.lastAccepted, Spec.acceptedOf, hf, if_true, List.filterMap_cons, List.filterMap_nil, List.length_cons, List.length_nil]
              refine ⟨Nat.le_add_right _ _, ?_⟩
              refine h1.trans ?_
              rw [Nat.zero_add, Nat.mul_add, Nat.mul_one, ← Nat.add_assoc]
              exact Nat.add_le_add_right h2 _
            · exact ⟨by simpa [Spec.clock, Spec.lastAccepted, hf] using h1, by simpa [Spec.lastAccepted, hf] using h2.trans hmono⟩
  refine key.1.trans ?_
  rw [Nat.mul_add, Nat.mul_one, ← Nat.add_assoc]
  exact Nat.add_le_add_right key.2 _

/-- C93: so if nobody has two messages of the same type accepted, a session lasts for at most one time-out more than there are messages to come. -/
theorem C93_lifetime_partial (hst : impl.Stable) {r₀ : R} {timeout now : Nat} {h : List (Op G × Ret G)} {s : State G R}
    (hh : Hist impl (newBaseState impl r₀ timeout now) h s) (ho : Spec.OncePerType (impl.selfID r₀) (impl.partyIDs r₀) h)
    (hp : Spec.Prompt (impl.selfID r₀) (impl.partyIDs r₀) timeout now h) :
    s.timer.now ≤ now + timeout * ((Spec.others (impl.selfID r₀) (impl.partyIDs r₀)).length * ((impl.acceptedMessageTypes r₀).drop 1).length + 1) := by
  rw [(timer_inv hst hh).clock]
  refine (C93_lifetime _ _ _ _ _ hp).trans (Nat.add_le_add_left (Nat.mul_le_mul_left _ (Nat.add_le_add_right ?_ _)) _)
  exact count_pairs ho (fun m hm => acceptedOf_others m hm) (store_inv hst hh).all

/-! ### How it ends -/

/-- While a session with a time-out is running, its timer is running or has started a callback. -/
theorem armed {r₀ : R} {timeout now : Nat} (ht : 0 < timeout) {h : List (Op G × Ret G)} {s : State G R}
    (hh : Hist impl (newBaseState impl r₀ timeout now) h s) : s.timer.d = timeout ∧ (s.done = false → s.timer.deadline ≠ none ∨ s.timer.fired ≠ 0) := by
  induction hh with
  | nil => exact ⟨rfl, fun _ => Or.inl (by simp [newBaseState, Timer.new, ht])⟩
  | @snoc h s₁ s₂ op ret hh hs ih =>
    have hack : s₁.timer.ackMessage.d = timeout ∧ s₁.timer.ackMessage.deadline ≠ none := by
      unfold Timer.ackMessage
      rw [if_pos (by rw [ih.1]; exact ht)]
      exact ⟨ih.1, by simp⟩
    have hstop : ∀ t : Timer, t.stopTimer.d = t.d := fun t => by unfold Timer.stopTimer; split <;> rfl
    rcases step_cases hs with ⟨m, e, rfl, rfl, h1⟩ | ⟨ord, coins, out, rfl, rfl, h1⟩ | ⟨dt, rfl, rfl, rfl⟩ |
      ⟨rfl, rfl, rfl | ⟨t, _, _, rfl⟩⟩ | ⟨rfl, rfl, ⟨_, rfl⟩ | ⟨_, hd, rfl⟩ | ⟨r, _, _, _, _, rfl⟩⟩
    · cases handle_cases impl h1 with
      | finished | noMore | fromSelf | notForUs | notAParty | already | badType => exact ih
      | stored | queued => exact ⟨hack.1, fun _ => Or.inl hack.2⟩
    · cases h1 with
      | idle => exact ih
      | processErr | generateErr | last => exact ⟨(hstop _).trans ih.1, (fun h => nomatch h)⟩
      | next => exact ih
    · exact ih
    · exact ih
    · exact ⟨ih.1, fun _ => Or.inr (Nat.succ_ne_zero _)⟩
    · exact ih
    · exact ⟨ih.1, fun h => by rw [show s₁.done = false from h] at hd; cases hd⟩
    · exact ⟨(hstop _).trans ih.1, (fun h => nomatch h)⟩

theorem done_hist {s s' : State G R} {h : List (Op G × Ret G)} (hh : Hist impl s h s') (hd : s.done = true) : s'.done = true := by
  induction hh with
  | nil => exact hd
  | snoc _ hs ih => exact done_step hs ih

/-- A callback that was started is not lost. -/
theorem fired_step {s s' : State G R} {op : Op G} {ret : Ret G} (hs : step impl s op = some (s', ret)) (hf : s.timer.fired ≠ 0) :
    s'.done = true ∨ (op ≠ .callback ∧ s'.timer.fired ≠ 0) := by
  have hack : s.timer.ackMessage.fired = s.timer.fired := by unfold Timer.ackMessage; split <;> rfl
  rcases step_cases hs with ⟨m, e, rfl, rfl, h1⟩ | ⟨ord, coins, out, rfl, rfl, h1⟩ | ⟨dt, rfl, rfl, rfl⟩ |
    ⟨rfl, rfl, rfl | ⟨t, _, _, rfl⟩⟩ | ⟨rfl, rfl, ⟨h0, rfl⟩ | ⟨_, hd, rfl⟩ | ⟨r, _, _, _, _, rfl⟩⟩
  · refine Or.inr ⟨(fun h => nomatch h), ?_⟩
    cases handle_cases impl h1 with
    | finished | noMore | fromSelf | notForUs | notAParty | already | badType => exact hf
    | stored | queued => exact fun h => hf (hack.symm.trans h)
  · cases h1 with
    | idle => exact Or.inr ⟨(fun h => nomatch h), hf⟩
    | processErr | generateErr | last => exact Or.inl rfl
    | next => exact Or.inr ⟨(fun h => nomatch h), hf⟩
  · exact Or.inr ⟨(fun h => nomatch h), hf⟩
  · exact Or.inr ⟨(fun h => nomatch h), hf⟩
  · exact Or.inr ⟨(fun h => nomatch h), Nat.succ_ne_zero _⟩
  · exact absurd h0 hf
  · exact Or.inl hd
  · exact Or.inl rfl

theorem fired_hist {s s' : State G R} {h : List (Op G × Ret G)} (hh : Hist impl s h s') (hf : s.timer.fired ≠ 0) :
    s'.done = true ∨ s'.timer.fired ≠ 0 := by
  induction hh with
  | nil => exact Or.inr hf
  | snoc _ hs ih =>
    rcases ih with h | h
    · exact Or.inl (done_step hs h)
    · exact (fired_step hs h).imp id And.right

/-- C93: once the time-out has passed since the last accepted message and the run-time has started and run the callback of the timer, the session is over,
whatever else happens before, between and after. -/
theorem C93_ends (hst : impl.Stable) {r₀ : R} {timeout now : Nat} (ht : 0 < timeout) {h₁ h₂ h₃ : List (Op G × Ret G)} {ret ret' : Ret G} {s : State G R}
    (hh : Hist impl (newBaseState impl r₀ timeout now) (h₁ ++ ((.fire, ret) :: (h₂ ++ (.callback, ret') :: h₃))) s)
    (hl : Spec.lastAccepted (impl.selfID r₀) (impl.partyIDs r₀) now now h₁ + timeout ≤ Spec.clock now h₁) : s.done = true := by
  obtain ⟨s₁, hh₁, hh⟩ := hist_split hh
  obtain ⟨s₂, hs₂, hh⟩ := hist_cons.mp hh
  obtain ⟨s₃, hh₂, hh⟩ := hist_split hh
  obtain ⟨s₄, hs₄, hh₃⟩ := hist_cons.mp hh
  refine done_hist hh₃ ?_
  cases hd : s₁.done with
  | true => exact done_step hs₄ (done_hist hh₂ (done_step hs₂ hd))
  | false =>
    have hf : s₂.done = true ∨ s₂.timer.fired ≠ 0 := by
      rcases (armed ht hh₁).2 hd with h | h
      · obtain ⟨x, hx⟩ := Option.ne_none_iff_exists'.mp h
        have hi := timer_inv hst hh₁
        have hle : x ≤ s₁.timer.now := by rw [(hi.deadline x hx).2, hi.clock]; exact hl
        simp only [step, hx, if_pos hle, Option.some.injEq, Prod.mk.injEq] at hs₂
        rw [← hs₂.1]
        exact Or.inr (Nat.succ_ne_zero _)
      · exact (fired_step hs₂ h).imp id And.right
    rcases hf with hf | hf
    · exact done_step hs₄ (done_hist hh₂ hf)
    rcases fired_hist hh₂ hf with hf | hf
    · exact done_step hs₄ hf
    · exact (fired_step hs₄ hf).elim id fun h => absurd rfl h.1

/-! ### The flood -/

/-- Messages handed over one after the other, `d` apart, and all accepted. -/
def flood (d : Nat) (ms : List (Message G)) : List (Op G × Ret G) := ms.flatMap fun m => [(.handle m, .handled none), (.advance d, .nothing)]

theorem handle_queued (s : State G R) (m : Message G) (hd : s.done = false) (hr : Relevant (impl.selfID s.round) (impl.partyIDs s.round) m)
    (hn : m.header.fromID ∉ s.received.keys) (ht : m.header.type ∈ s.acceptedTypes) (hc : s.acceptedTypes.head? ≠ some m.header.type) :
    handleMessage impl s m = ({ s with timer := s.timer.ackMessage, queue := s.queue ++ [m] }, none) := by
  obtain ⟨s', e, he⟩ : ∃ s' e, handleMessage impl s m = (s', e) := ⟨_, _, rfl⟩
  rw [he]
  have hs := he
  cases handle_cases impl he with
  | finished h => rw [hd] at h; cases h
  | noMore _ h => rw [h] at ht; cases ht
  | fromSelf _ h => exact absurd h hr.1
  | notForUs _ _ h1 h2 => exact absurd hr.2.1 (not_or.mpr ⟨h1, h2⟩)
  | notAParty _ _ h => rw [hr.2.2] at h; cases h
  | already _ _ h => exact absurd h hn
  | badType _ _ h => exact absurd ht h
  | stored _ _ _ h => exact absurd h hc
  | queued => rfl

/-- C93 refuted: a participant whose message of the current round has not arrived can have any number of messages of a later round accepted.  All of them
are kept, and each of them starts the timer anew: the session goes on for as long as the messages keep coming, and the timer never fires. -/
theorem C93_flood (s : State G R) (hd : s.done = false) (d : Nat) (ms : List (Message G)) (hm : ∀ m ∈ ms, Spec.ForUs (impl.selfID s.round) (impl.partyIDs s.round) m ∧
      IDSlice.contains (impl.partyIDs s.round) m.header.fromID = true ∧ m.header.fromID ∉ s.received.keys ∧ m.header.type ∈ s.acceptedTypes ∧
      s.acceptedTypes.head? ≠ some m.header.type) :
    ∃ s', Hist impl s (flood d ms) s' ∧ s'.done = false ∧ s'.roundNumber = s.roundNumber ∧ s'.received = s.received ∧ s'.queue = s.queue ++ ms ∧
      s'.timer.now = s.timer.now + ms.length * d ∧ (ms ≠ [] → d < s.timer.d → step impl s' .fire = some (s', .nothing)) := by
  suffices h : ∀ ms : List (Message G), (∀ m ∈ ms, Spec.ForUs (impl.selfID s.round) (impl.partyIDs s.round) m ∧
      IDSlice.contains (impl.partyIDs s.round) m.header.fromID = true ∧ m.header.fromID ∉ s.received.keys ∧ m.header.type ∈ s.acceptedTypes ∧
      s.acceptedTypes.head? ≠ some m.header.type) → ∃ tm : Timer, Hist impl s (flood d ms) { s with timer := tm, queue := s.queue ++ ms } ∧
        tm.d = s.timer.d ∧ tm.now = s.timer.now + ms.length * d ∧ (ms ≠ [] → d < s.timer.d → ∃ x, tm.deadline = some x ∧ tm.now < x) by
    obtain ⟨tm, h1, h2, h3, h4⟩ := h ms hm
    refine ⟨_, h1, hd, rfl, rfl, rfl, h3, fun h5 h6 => ?_⟩
    obtain ⟨x, h7, h8⟩ := h4 h5 h6
    simp [step, h7, Nat.not_le.mpr h8]
  intro ms
  induction ms using List.reverseRecOn with
  | nil =>
    intro _
    refine ⟨s.timer, ?_, rfl, by simp, fun h => absurd rfl h⟩
    rw [List.append_nil]
    exact .nil
  | append_singleton ms m ih =>
    intro hm
    obtain ⟨tm, h1, h2, h3, h4⟩ := ih fun m h => hm m (List.mem_append_left _ h)
    obtain ⟨hf, hcon, hn, ht, hc⟩ := hm m (List.mem_append_right _ (List.mem_singleton.mpr rfl))
    have hq := handle_queued (impl := impl) { s with timer := tm, queue := s.queue ++ ms } m hd ⟨hf.1, hf.2.2, hcon⟩ hn ht hc
    have e : flood d (ms ++ [m]) = (flood d ms ++ [(.handle m, .handled none)]) ++ [(.advance d, .nothing)] := by simp [flood]
    have hd' : tm.ackMessage.d = tm.d ∧ tm.ackMessage.now = tm.now := by unfold Timer.ackMessage; split <;> exact ⟨rfl, rfl⟩
    refine ⟨{ tm.ackMessage with now := tm.ackMessage.now + d }, ?_, hd'.1.trans h2, ?_, ?_⟩
    · rw [e, ← List.append_assoc]
      refine .snoc (.snoc h1 (s₂ := { s with timer := tm.ackMessage, queue := s.queue ++ ms ++ [m] }) ?_) ?_
      · simp only [step, hq]
      · rfl
    · simp only [hd'.2, h3, List.length_append, List.length_singleton, Nat.add_mul, Nat.one_mul, Nat.add_assoc]
    · intro _ hlt
      refine ⟨tm.now + tm.d, ?_, ?_⟩
      · show tm.ackMessage.deadline = _
        unfold Timer.ackMessage
        rw [if_pos (by rw [h2]; omega)]
      · show tm.ackMessage.now + d < _
        rw [hd'.2, h2]
        omega

theorem clock_flood (d t : Nat) (ms : List (Message G)) : Spec.clock t (flood d ms) = t + ms.length * d := by
  induction ms generalizing t with
  | nil => simp [flood, Spec.clock]
  | cons m ms ih =>
    have e : flood d (m :: ms) = (.handle m, .handled none) :: (.advance d, .nothing) :: flood d ms := rfl
    rw [e]
    simp only [Spec.clock, ih, List.length_cons, Nat.add_mul, Nat.one_mul]
    omega

theorem prompt_nil {self : ID} {ids : List ID} {timeout now : Nat} : Spec.Prompt self ids timeout now ([] : List (Op G × Ret G)) := by
  intro h₁ dt ret h₂ he
  simp at he

theorem prompt_other {self : ID} {ids : List ID} {timeout now : Nat} {h : List (Op G × Ret G)} {op : Op G} {ret : Ret G} (hop : ∀ dt, op ≠ .advance dt)
    (hp : Spec.Prompt self ids timeout now h) : Spec.Prompt self ids timeout now (h ++ [(op, ret)]) := by
  intro h₁ dt r h₂ he
  rcases List.eq_nil_or_concat h₂ with rfl | ⟨l, x, rfl⟩
  · exact absurd (Prod.mk.inj (List.singleton_inj.mp (List.append_inj' he rfl).2)).1 (hop dt)
  · rw [List.concat_eq_append, ← List.cons_append, ← List.append_assoc] at he
    exact hp h₁ dt r l (List.append_inj' he rfl).1

theorem prompt_advance {self : ID} {ids : List ID} {timeout now : Nat} {h : List (Op G × Ret G)} {d : Nat} {ret : Ret G}
    (hp : Spec.Prompt self ids timeout now h) (hd : Spec.clock now h + d ≤ Spec.lastAccepted self ids now now h + timeout) :
    Spec.Prompt self ids timeout now (h ++ [(.advance d, ret)]) := by
  intro h₁ dt r h₂ he
  rcases List.eq_nil_or_concat h₂ with rfl | ⟨l, x, rfl⟩
  · obtain ⟨rfl, h2⟩ := List.append_inj' he rfl
    obtain ⟨h3, _⟩ := Prod.mk.inj (List.singleton_inj.mp h2)
    cases h3
    exact hd
  · rw [List.concat_eq_append, ← List.cons_append, ← List.append_assoc] at he
    exact hp h₁ dt r l (List.append_inj' he rfl).1

theorem prompt_flood {self : ID} {ids : List ID} {timeout now d : Nat} {h : List (Op G × Ret G)} (hp : Spec.Prompt self ids timeout now h) (hd : d ≤ timeout)
    (ms : List (Message G)) (hm : ∀ m ∈ ms, Spec.ForUs self ids m) : Spec.Prompt self ids timeout now (h ++ flood d ms) := by
  induction ms using List.reverseRecOn with
  | nil => simpa [flood] using hp
  | append_singleton ms m ih =>
    have e : h ++ flood d (ms ++ [m]) = (h ++ flood d ms ++ [(.handle m, .handled none)]) ++ [(.advance d, .nothing)] := by simp [flood]
    rw [e]
    refine prompt_advance (prompt_other (fun _ h => nomatch h) (ih fun m h => hm m (List.mem_append_left _ h))) ?_
    rw [clock_append _ _ [_], lastAccepted_append _ _ _ _ _ [_]]
    simp only [Spec.clock, Spec.lastAccepted, if_pos (hm m (List.mem_append_right _ (List.mem_singleton.mpr rfl)))]
    exact Nat.add_le_add_left hd _

theorem flood_protocol (hst : impl.Stable) {r₀ : R} {timeout now : Nat} {t0 t1 t2 : MsgType} (hty : impl.acceptedMessageTypes r₀ = [t0, t1, t2]) (hne : t1 ≠ t2)
    (htime : 1 < timeout) {h : List (Op G × Ret G)} {s : State G R} (hh : Hist impl (newBaseState impl r₀ timeout now) h s)
    (hp : Spec.Prompt (impl.selfID r₀) (impl.partyIDs r₀) timeout now h) (hd : s.done = false) (h1 : s.roundNumber = 1) (evil : ID) (he : evil ≠ impl.selfID r₀)
    (hc : IDSlice.contains (impl.partyIDs r₀) evil = true) (hn : evil ∉ s.received.keys) (m : Message G) (hf : m.header.fromID = evil)
    (hto : m.header.toID = 0 ∨ m.header.toID = impl.selfID r₀) (ht : m.header.type = t2) (n : Nat) :
    ∃ h' s', Hist impl (newBaseState impl r₀ timeout now) (h ++ h') s' ∧ Spec.Prompt (impl.selfID r₀) (impl.partyIDs r₀) timeout now (h ++ h') ∧
      s'.done = false ∧ n ≤ s'.queue.length ∧ n ≤ s'.timer.now ∧ (0 < n → step impl s' .fire = some (s', .nothing)) := by
  have hi := inv_hist hst hh
  have hty' : s.acceptedTypes = [t1, t2] := by
    rw [hi.types, hty]
    simp [used, hd, h1]
  have hfor : Spec.ForUs (impl.selfID r₀) (impl.partyIDs r₀) m := ⟨hf ▸ he, hf ▸ IDSlice.contains_sound hc, hto⟩
  have hm : ∀ x ∈ List.replicate n m, x = m := fun x hx => List.eq_of_mem_replicate hx
  obtain ⟨s', g1, g2, _, _, g5, g6, g7⟩ := C93_flood (impl := impl) s hd (timeout - 1) (List.replicate n m) (by
    intro x hx
    obtain rfl := hm x hx
    rw [hi.self, hi.ids, hf, hty', ht]
    refine ⟨hfor, hc, hn, by simp, fun h => hne (Option.some.inj h)⟩)
  refine ⟨_, s', hh.trans g1, prompt_flood hp (Nat.sub_le _ _) _ fun x hx => by rw [hm x hx]; exact hfor, g2, ?_, ?_, ?_⟩
  · rw [g5, List.length_append, List.length_replicate]
    exact Nat.le_add_left _ _
  · rw [g6, List.length_replicate]
    exact (Nat.le_mul_of_pos_right n (by omega)).trans (Nat.le_add_left _ _)
  · intro h0
    refine g7 (fun h => ?_) ?_
    · have := congrArg List.length h
      simp at this
      omega
    · rw [(timer_inv hst hh).d]
      omega

section Protocols

variable [RGroup G] {sha : Sha512}

theorem keygen_start {self : ID} {ids : IDSlice} {t : UInt16} {timeout now : Nat} {s₀ : State G (Keygen.Round G)}
    (h : Keygen.newKeygenState sha self ids t timeout now = .ok s₀) :
    ∃ r₀, s₀ = newBaseState (Keygen.impl sha) r₀ timeout now ∧ (Keygen.impl sha).selfID r₀ = self ∧ (Keygen.impl sha).partyIDs r₀ = ids := by
  obtain ⟨r₀, h1, rfl⟩ := newKeygenState_ok.mp h
  unfold Keygen.newRound Keygen.newBaseRound at h1
  simp only [Outcome.bind_eq_ok, Outcome.failIf_eq_ok, Outcome.pure_def, Outcome.ok.injEq] at h1
  obtain ⟨_, _, _, _, _, _, rfl⟩ := h1
  exact ⟨_, rfl, rfl, rfl⟩

theorem sign_start {ids : IDSlice} {secret : SecretShare G} {shares : Public G} {message : Bytes} {timeout now : Nat} {s₀ : State G (Sign.Round G)}
    (h : Sign.newSignState sha ids secret shares message timeout now = .ok s₀) :
    ∃ r₀, s₀ = newBaseState (Sign.impl sha) r₀ timeout now ∧ (Sign.impl sha).selfID r₀ = secret.id ∧ (Sign.impl sha).partyIDs r₀ = ids := by
  obtain ⟨r₀, h1, rfl⟩ := newSignState_ok.mp h
  obtain ⟨_, _, _, _, rfl⟩ := Sign.newRound_ok.mp h1
  exact ⟨_, rfl, rfl, rfl⟩

/-- C93 for key generation: at most one message of each other party is stored, at most one of each other party is queued if nobody has two messages of
the same type accepted, and then the session lasts for at most one time-out more than there are messages to come. -/
theorem C93_keygen_partial (self : ID) (ids : IDSlice) (t : UInt16) (timeout now : Nat) (s₀ s : State G (Keygen.Round G)) (h : List (Op G × Ret G))
    (h0 : Keygen.newKeygenState sha self ids t timeout now = .ok s₀) (hh : Hist (Keygen.impl sha) s₀ h s) :
    s.received.length ≤ (Spec.others self ids).length ∧ (Spec.OncePerType self ids h → s.queue.length ≤ (Spec.others self ids).length ∧
      (Spec.Prompt self ids timeout now h → s.timer.now ≤ now + timeout * (2 * (Spec.others self ids).length + 1))) := by
  obtain ⟨r₀, rfl, rfl, rfl⟩ := keygen_start h0
  refine ⟨C93_received_bounded (Keygen.impl_stable sha) hh, fun ho => ⟨?_, fun hp => ?_⟩⟩
  · simpa [Keygen.impl, Keygen.acceptedMessageTypes] using C93_queue_bounded_partial (Keygen.impl_stable sha) hh ho
  · rw [Nat.mul_comm 2]
    exact C93_lifetime_partial (Keygen.impl_stable sha) hh ho hp

/-- C93 for signing. -/
theorem C93_sign_partial (ids : IDSlice) (secret : SecretShare G) (shares : Public G) (message : Bytes) (timeout now : Nat) (s₀ s : State G (Sign.Round G))
    (h : List (Op G × Ret G)) (h0 : Sign.newSignState sha ids secret shares message timeout now = .ok s₀) (hh : Hist (Sign.impl sha) s₀ h s) :
    s.received.length ≤ (Spec.others secret.id ids).length ∧ (Spec.OncePerType secret.id ids h → s.queue.length ≤ (Spec.others secret.id ids).length ∧
      (Spec.Prompt secret.id ids timeout now h → s.timer.now ≤ now + timeout * (2 * (Spec.others secret.id ids).length + 1))) := by
  obtain ⟨r₀, rfl, e1, rfl⟩ := sign_start h0
  rw [← e1]
  refine ⟨C93_received_bounded (Sign.impl_stable sha) hh, fun ho => ⟨?_, fun hp => ?_⟩⟩
  · simpa [Sign.impl, Sign.acceptedMessageTypes] using C93_queue_bounded_partial (Sign.impl_stable sha) hh ho
  · rw [Nat.mul_comm 2]
    exact C93_lifetime_partial (Sign.impl_stable sha) hh ho hp

/-- C93 refuted for key generation: in every execution, a party whose message of the first round is missing can make the session queue any number of
messages and last for any time, by sending messages of the second round. -/
theorem C93_keygen_flood (self : ID) (ids : IDSlice) (t : UInt16) (timeout now : Nat) (htime : 1 < timeout) (s₀ s : State G (Keygen.Round G)) (h : List (Op G × Ret G))
    (h0 : Keygen.newKeygenState sha self ids t timeout now = .ok s₀) (hh : Hist (Keygen.impl sha) s₀ h s) (hp : Spec.Prompt self ids timeout now h)
    (hd : s.done = false) (h1 : s.roundNumber = 1) (evil : ID) (he : evil ≠ self) (hc : IDSlice.contains ids evil = true) (hn : evil ∉ s.received.keys)
    (m : Message G) (hm : m.header = ⟨.keyGen2, evil, self⟩) (n : Nat) :
    ∃ h' s', Hist (Keygen.impl sha) s₀ (h ++ h') s' ∧ Spec.Prompt self ids timeout now (h ++ h') ∧ s'.done = false ∧ n ≤ s'.queue.length ∧ n ≤ s'.timer.now ∧
      (0 < n → step (Keygen.impl sha) s' .fire = some (s', .nothing)) := by
  obtain ⟨r₀, rfl, rfl, rfl⟩ := keygen_start h0
  exact flood_protocol (Keygen.impl_stable sha) rfl (by decide) htime hh hp hd h1 evil he hc hn m (by rw [hm]) (Or.inr (by rw [hm])) (by rw [hm]) n

/-- C93 refuted for signing: so can a signer whose message of the first round is missing. -/
theorem C93_sign_flood (ids : IDSlice) (secret : SecretShare G) (shares : Public G) (message : Bytes) (timeout now : Nat) (htime : 1 < timeout)
    (s₀ s : State G (Sign.Round G)) (h : List (Op G × Ret G)) (h0 : Sign.newSignState sha ids secret shares message timeout now = .ok s₀)
    (hh : Hist (Sign.impl sha) s₀ h s) (hp : Spec.Prompt secret.id ids timeout now h) (hd : s.done = false) (h1 : s.roundNumber = 1) (evil : ID) (he : evil ≠ secret.id)
    (hc : IDSlice.contains ids evil = true) (hn : evil ∉ s.received.keys) (m : Message G) (hm : m.header = ⟨.sign2, evil, 0⟩) (n : Nat) :
    ∃ h' s', Hist (Sign.impl sha) s₀ (h ++ h') s' ∧ Spec.Prompt secret.id ids timeout now (h ++ h') ∧ s'.done = false ∧ n ≤ s'.queue.length ∧ n ≤ s'.timer.now ∧
      (0 < n → step (Sign.impl sha) s' .fire = some (s', .nothing)) := by
  obtain ⟨r₀, rfl, e1, rfl⟩ := sign_start h0
  rw [← e1] at hp he ⊢
  exact flood_protocol (Sign.impl_stable sha) rfl (by decide) htime hh hp hd h1 evil he hc hn m (by rw [hm]) (Or.inl (by rw [hm])) (by rw [hm]) n

end Protocols

end Verif.Props
