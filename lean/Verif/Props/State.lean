import Verif.Spec.State
import Verif.Lemmas.StateInv

/-!
C25 to C29, C32, C33 and C65: the session driver, for every implementation of the `Round` interface whose methods do not change
whose round it is (`RoundImpl.Stable`; proved for the rounds of key generation and signing by `Keygen.impl_stable` and
`Sign.impl_stable`).  Concrete sessions meeting the hypotheses are in `Verif/Props/Demo.lean`.
-/

namespace Verif.Props

open Verif State

variable {G R : Type} {impl : RoundImpl G R}

/-! ### C25 -/

/-- Every message held, for this round or a later one, was given to `HandleMessage`, which returned nil; it comes from another
participant, is for everybody or for us, and its type is accepted in this round or a later one. -/
theorem C25_only_relevant_stored (hst : impl.Stable) {r₀ : R} {timeout now : Nat} {h : List (Op G × Ret G)} {s : State G R}
    (hh : Hist impl (newBaseState impl r₀ timeout now) h s) (m : Message G)
    (hm : (∃ k, (k, some m) ∈ s.received) ∨ m ∈ s.queue) :
    (Op.handle m, Ret.handled none) ∈ h ∧ Spec.ForUs (impl.selfID r₀) (impl.partyIDs r₀) m ∧
      m.header.type ∈ (impl.acceptedMessageTypes r₀).drop s.roundNumber := by
  have hi := inv_hist hst hh
  have hsub : ∀ t, t ∈ s.acceptedTypes → t ∈ (impl.acceptedMessageTypes r₀).drop s.roundNumber := by
    intro t ht
    rw [hi.types, used, Nat.add_comm, ← List.drop_drop] at ht
    rw [List.drop_drop, Nat.add_comm, ← List.drop_drop] at ht
    exact List.mem_of_mem_drop ht
  rcases hm with ⟨k, hk⟩ | hq
  · obtain ⟨_, ⟨h1, h2, h3⟩, h4, h5⟩ := hi.stored k m hk
    exact ⟨h5, ⟨h1, IDSlice.contains_sound h3, h2⟩, hsub _ (List.mem_of_head? h4)⟩
  · obtain ⟨⟨h1, h2, h3⟩, h4, _, h5⟩ := hi.queue m hq
    exact ⟨h5, ⟨h1, IDSlice.contains_sound h3, h2⟩, hsub _ (List.mem_of_mem_tail h4)⟩

/-- A stored message is filed under its sender. -/
theorem C25_filed_under_sender (hst : impl.Stable) {r₀ : R} {timeout now : Nat} {h : List (Op G × Ret G)} {s : State G R}
    (hh : Hist impl (newBaseState impl r₀ timeout now) h s) (k : ID) (m : Message G) (hm : (k, some m) ∈ s.received) :
    m.header.fromID = k := ((inv_hist hst hh).stored k m hm).1.symm

/-- While messages are accepted, those from ourselves or for somebody else are dropped without an error. -/
theorem C25_ignored (s : State G R) (m : Message G) (hd : s.done = false) (ht : s.acceptedTypes ≠ [])
    (hm : m.header.fromID = impl.selfID s.round ∨ (m.header.toID ≠ 0 ∧ m.header.toID ≠ impl.selfID s.round)) :
    handleMessage impl s m = (s, none) := by
  rcases hh : handleMessage impl s m with ⟨s', e⟩
  cases handle_cases impl hh with
  | finished h => rw [hd] at h; cases h
  | noMore _ h => exact absurd h ht
  | fromSelf | notForUs => rfl
  | notAParty _ h1 h2 =>
    exfalso
    rcases hm with hm | ⟨hm1, hm2⟩
    · exact h1 hm
    · unfold handleMessage at hh
      simp only [hd, Bool.false_eq_true, if_false] at hh
      cases hat : s.acceptedTypes with
      | nil => exact ht hat
      | cons t l =>
        simp only [hat] at hh
        rw [if_neg h1, if_pos ⟨by simp [Header.isBroadcast, hm1], hm2⟩] at hh
        cases hh
  | already _ hr | badType _ hr | stored _ hr | queued _ hr =>
    exfalso
    rcases hm with hm | ⟨hm1, hm2⟩
    · exact hr.1 hm
    · rcases hr.2.1 with h | h
      · exact hm1 h
      · exact hm2 h

/-- A message from somebody who is not a participant is refused with an error and changes nothing. -/
theorem C25_stranger_refused (s : State G R) (m : Message G) (h1 : m.header.fromID ∉ impl.partyIDs s.round)
    (h2 : m.header.fromID ≠ impl.selfID s.round) (h3 : m.header.toID = 0 ∨ m.header.toID = impl.selfID s.round) :
    ∃ e, handleMessage impl s m = (s, some e) := by
  rcases hh : handleMessage impl s m with ⟨s', e⟩
  cases handle_cases impl hh with
  | finished | noMore | notAParty | already | badType => exact ⟨_, rfl⟩
  | fromSelf _ h => exact absurd h h2
  | notForUs _ _ h4 h5 => exact absurd h3 (not_or.mpr ⟨h4, h5⟩)
  | stored _ hr | queued _ hr => exact absurd (IDSlice.contains_sound hr.2.2) h1

/-- Whatever `HandleMessage` refuses changes nothing. -/
theorem C25_refused_changes_nothing (s s' : State G R) (m : Message G) (e : HandleErr)
    (h : handleMessage impl s m = (s', some e)) : s' = s := by
  cases handle_cases impl h <;> rfl

/-! ### C26 -/

/-- An attempt to send another message for a round whose message is stored is refused with an error and changes nothing. -/
theorem C26_second_refused (s : State G R) (k : ID) (m m' : Message G) (hm : (k, some m) ∈ s.received)
    (hf : m'.header.fromID = k) (hs : k ≠ impl.selfID s.round)
    (ht : m'.header.toID = 0 ∨ m'.header.toID = impl.selfID s.round) :
    ∃ e, handleMessage impl s m' = (s, some e) := by
  have hk : m'.header.fromID ∈ s.received.keys := hf ▸ List.mem_map.mpr ⟨_, hm, rfl⟩
  rcases hh : handleMessage impl s m' with ⟨s', e⟩
  cases handle_cases impl hh with
  | finished | noMore | notAParty | already | badType => exact ⟨_, rfl⟩
  | fromSelf _ h => exact absurd (hf.symm.trans h) hs
  | notForUs _ _ h4 h5 => exact absurd ht (not_or.mpr ⟨h4, h5⟩)
  | stored _ _ hn | queued _ _ hn => exact absurd hk hn

theorem round_le_step {s s' : State G R} {op : Op G} {ret : Ret G} (h : step impl s op = some (s', ret)) :
    s'.roundNumber = s.roundNumber ∨ s'.roundNumber = s.roundNumber + 1 := by
  rcases step_cases h with ⟨m, e, rfl, rfl, h1⟩ | ⟨ord, coins, out, rfl, rfl, h1⟩ | ⟨dt, rfl, rfl, rfl⟩ |
    ⟨rfl, rfl, rfl | ⟨t, _, _, rfl⟩⟩ | ⟨rfl, rfl, ⟨_, rfl⟩ | ⟨_, _, rfl⟩ | ⟨r, _, hd, _, hr, rfl⟩⟩
  · cases handle_cases impl h1 <;> exact Or.inl rfl
  · cases h1
    case next => exact Or.inr rfl
    all_goals exact Or.inl rfl
  all_goals exact Or.inl rfl

theorem round_le_hist {s s' : State G R} {h : List (Op G × Ret G)} (hh : Hist impl s h s') : s.roundNumber ≤ s'.roundNumber := by
  induction hh with
  | nil => exact Nat.le_refl _
  | snoc _ hs ih => rcases round_le_step hs with h | h <;> omega

theorem done_step {s s' : State G R} {op : Op G} {ret : Ret G} (h : step impl s op = some (s', ret)) (hd : s.done = true) :
    s'.done = true := by
  rcases step_cases h with ⟨m, e, rfl, rfl, h1⟩ | ⟨ord, coins, out, rfl, rfl, h1⟩ | ⟨dt, rfl, rfl, rfl⟩ |
    ⟨rfl, rfl, rfl | ⟨t, _, _, rfl⟩⟩ | ⟨rfl, rfl, ⟨_, rfl⟩ | ⟨_, _, rfl⟩ | ⟨r, _, _, _, hr, rfl⟩⟩
  · cases handle_cases impl h1 <;> exact hd
  · cases h1 with
    | idle => exact hd
    | processErr | generateErr | last => rfl
    | next _ _ _ _ _ _ hx => rw [hd] at hx; cases hx
  all_goals first | exact hd | rfl

/-- A stored message stays as it is in every continuation, until the round is processed or the session ends. -/
theorem C26_first_wins {s s' : State G R} {h : List (Op G × Ret G)} (hh : Hist impl s h s') (k : ID) (m : Message G)
    (hm : s.received.get? k = some (some m)) (hr : s'.roundNumber = s.roundNumber) (hd : s'.done = false) :
    s'.received.get? k = some (some m) := by
  induction hh with
  | nil => exact hm
  | @snoc h s₁ s₂ op ret h1 hs ih =>
    have hle := round_le_hist h1
    have hd1 : s₁.done = false := by
      by_contra hc
      rw [Bool.not_eq_false] at hc
      rw [done_step hs hc] at hd; cases hd
    have hr1 : s₁.roundNumber = s.roundNumber := by
      rcases round_le_step hs with h2 | h2 <;> omega
    have ih := ih hr1 hd1
    rcases step_cases hs with ⟨m, e, rfl, rfl, h1⟩ | ⟨ord, coins, out, rfl, rfl, h1⟩ | ⟨dt, rfl, rfl, rfl⟩ |
      ⟨rfl, rfl, rfl | ⟨t, _, _, rfl⟩⟩ | ⟨rfl, rfl, ⟨_, rfl⟩ | ⟨_, _, rfl⟩ | ⟨r, _, _, _, _, rfl⟩⟩
    · cases handle_cases impl h1 with
      | stored _ _ hn _ =>
        have : k ≠ m.header.fromID := by
          rintro rfl
          exact hn (GoMap.mem_keys_iff.mpr ⟨_, ih⟩)
        show GoMap.get? (GoMap.set _ _ _) _ = _
        rw [GoMap.get?_set_ne _ _ this]; exact ih
      | finished | noMore | fromSelf | notForUs | notAParty | already | badType | queued => exact ih
    · cases h1 with
      | idle => exact ih
      | next => simp only [] at hr; omega
      | processErr | generateErr | last => cases hd
    · exact ih
    · exact ih
    · exact ih
    · exact ih
    · exact ih
    · cases hd

/-! ### C27 -/

theorem others_length {ids : List ID} (hnd : ids.Nodup) {self : ID} (hs : self ∈ ids) :
    (ids.filter (· ≠ self)).length = (IDSlice.N ids - 1).toNat := by
  have h1 : (ids.filter (· ≠ self)).length + 1 = ids.length := by
    have := List.length_erase_of_mem hs
    rw [hnd.erase_eq_filter] at this
    have hpos := List.length_pos_of_mem hs
    have h2 : (ids.filter (· ≠ self)).length = (ids.filter (· != self)).length := by
      congr 1
      apply List.filter_congr
      intro x _
      simp [bne, BEq.beq]
    rw [h2, this]; omega
  have h2 : ids.length ≤ 65536 := by
    have h3 := (hnd.map (f := UInt16.toNat) fun a b h => UInt16.toNat_inj.mp h)
    have h4 : (ids.map UInt16.toNat).toFinset ⊆ Finset.range 65536 := by
      intro x hx
      simp only [List.mem_toFinset, List.mem_map] at hx
      obtain ⟨y, _, rfl⟩ := hx
      exact Finset.mem_range.mpr (UInt16.toNat_lt y)
    have h5 := Finset.card_le_card h4
    rw [List.toFinset_card_of_nodup h3, List.length_map, Finset.card_range] at h5
    exact h5
  have h3 : (IDSlice.N ids - 1).toNat = (ids.length + 65535) % 65536 := by
    unfold IDSlice.N
    rw [UInt16.toNat_sub, UInt16.toNat_ofNat']
    simp only [UInt16.toNat_one]
    omega
  rw [h3]; omega

theorem full_perm {r₀ : R} {h : List (Op G × Ret G)} {s : State G R} (hi : Inv impl r₀ h s)
    (hnd : (impl.partyIDs r₀).Nodup) (hself : impl.selfID r₀ ∈ impl.partyIDs r₀) (hf : Full impl s) :
    s.received.keys.Perm ((impl.partyIDs r₀).filter (· ≠ impl.selfID r₀)) := by
  have hsub : s.received.keys ⊆ (impl.partyIDs r₀).filter (· ≠ impl.selfID r₀) := by
    intro k hk
    obtain ⟨v, hv⟩ := GoMap.mem_keys_iff.mp hk
    have hv := GoMap.mem_of_get? hv
    rw [List.mem_filter]
    cases v with
    | none =>
      have := hi.storedNone k hv
      exact ⟨this.2.1, by simpa using this.2.2⟩
    | some m =>
      obtain ⟨rfl, hr, _⟩ := hi.stored k m hv
      exact ⟨IDSlice.contains_sound hr.2.2, by simpa using hr.1⟩
  unfold Full at hf
  rw [hi.ids, ← others_length hnd hself, ← GoMap.keys_length] at hf
  have hwf : s.received.keys.Nodup := hi.wf
  exact (List.subperm_of_subset hwf hsub).perm_of_length_le (le_of_eq hf.symm)

/-- `ProcessAll` does nothing unless the session is unfinished and, in every round but the first, for each other participant
exactly one message is stored, which it sent and which has the type of this round; nothing else is stored. -/
theorem C27_waits_for_all (hst : impl.Stable) {r₀ : R} {timeout now : Nat} {h : List (Op G × Ret G)} {s s' : State G R}
    (hh : Hist impl (newBaseState impl r₀ timeout now) h s) (hnd : (impl.partyIDs r₀).Nodup)
    (hself : impl.selfID r₀ ∈ impl.partyIDs r₀) {ord : MapOrder} {coins : Coins} {out : List (Message G)}
    (hp : processAll impl ord coins s = some (s', out)) (hne : s' ≠ s ∨ out ≠ []) :
    s.done = false ∧ s.received.keys.Perm ((impl.partyIDs r₀).filter (· ≠ impl.selfID r₀)) ∧
      (s.roundNumber ≠ 0 → ∀ id ∈ impl.partyIDs r₀, id ≠ impl.selfID r₀ → ∃ m, (id, some m) ∈ s.received ∧
        m.header.fromID = id ∧ (impl.acceptedMessageTypes r₀)[s.roundNumber]? = some m.header.type ∧
        ∀ v, (id, v) ∈ s.received → v = some m) := by
  have hi := inv_hist hst hh
  have hdf : s.done = false ∧ Full impl s := by
    cases (processAll_iff impl).mp hp with
    | idle => rcases hne with h | h <;> exact absurd rfl h
    | processErr _ _ _ h1 h2 => exact ⟨h1, h2⟩
    | generateErr _ _ _ _ h1 h2 => exact ⟨h1, h2⟩
    | last _ _ _ _ _ _ h1 h2 => exact ⟨h1, h2⟩
    | next _ _ _ _ _ _ h1 h2 => exact ⟨h1, h2⟩
  have hperm := full_perm hi hnd hself hdf.2
  refine ⟨hdf.1, hperm, ?_⟩
  intro h0 id hid hne
  have hk : id ∈ s.received.keys := hperm.mem_iff.mpr (List.mem_filter.mpr ⟨hid, by simpa using hne⟩)
  obtain ⟨v, hv⟩ := GoMap.mem_keys_iff.mp hk
  have hv' := (GoMap.get?_eq_some_iff hi.wf).mp hv
  cases v with
  | none => exact absurd (hi.storedNone id hv').1 h0
  | some m =>
    obtain ⟨h1, _, h2, _⟩ := hi.stored id m hv'
    refine ⟨m, hv', h1.symm, ?_, ?_⟩
    · rw [hi.types] at h2
      simpa [used, hdf.1] using h2
    · intro w hw
      rw [(GoMap.get?_eq_some_iff hi.wf).mpr hw] at hv
      exact Option.some.inj hv

theorem fed_of_processLoop {l : List (ID × Option (Message G))} {r r' : R} (h : processLoop impl l r = .ok r') :
    Spec.Fed impl.processMessage r (l.map Prod.snd) r' := by
  induction l generalizing r with
  | nil => cases h; exact .nil _
  | cons a l ih =>
    obtain ⟨k, m⟩ := a
    unfold processLoop at h
    cases hp : impl.processMessage r m with
    | ok r₁ => rw [hp] at h; exact .cons hp (ih h)
    | err e => rw [hp] at h; cases h
    | panic => rw [hp] at h; cases h

theorem processLoop_of_fed {l : List (ID × Option (Message G))} {r r' : R}
    (h : Spec.Fed impl.processMessage r (l.map Prod.snd) r') : processLoop impl l r = .ok r' := by
  induction l generalizing r with
  | nil => cases h; rfl
  | cons a l ih =>
    obtain ⟨k, m⟩ := a
    cases h with
    | cons h1 h2 =>
      unfold processLoop
      rw [h1]
      exact ih h2

/-- When `ProcessAll` moves on or completes the protocol, each stored message was given to the round exactly once, in the order
of the map iteration, and the messages returned are those the round then generated. -/
theorem C27_each_once {s s' : State G R} {ord : MapOrder} {coins : Coins} {out : List (Message G)}
    (hp : processAll impl ord coins s = some (s', out))
    (hok : s'.roundNumber = s.roundNumber + 1 ∨ (s.done = false ∧ s'.done = true ∧ s'.err = none)) :
    ∃ msgs r₁ r₂, msgs.Perm (s.received.map Prod.snd) ∧ Spec.Fed impl.processMessage s.round msgs r₁ ∧
      impl.generateMessages ord coins r₁ = .ok (r₂, out) ∧
      (impl.nextRound r₂ = some s'.round ∨ impl.reset r₂ = some s'.round) := by
  cases (processAll_iff impl).mp hp with
  | idle h =>
    rcases hok with h1 | ⟨h1, h2, _⟩
    · omega
    · rw [h1] at h2; cases h2
  | processErr => rcases hok with h1 | ⟨_, _, h1⟩ <;> simp at h1
  | generateErr => rcases hok with h1 | ⟨_, _, h1⟩ <;> simp at h1
  | last t types r₁ r r' _ hd hf hpl hg ht hn hr hc =>
    exact ⟨_, r₁, r, (ord.perm _ _).map _, fed_of_processLoop hpl, hg, Or.inr hr⟩
  | next t types r₁ r r' _ hd hf hpl hg ht hn =>
    exact ⟨_, r₁, r, (ord.perm _ _).map _, fed_of_processLoop hpl, hg, Or.inl hn⟩

/-! ### C28 -/

/-- Every event leaves the round number or advances it by one. -/
theorem C28_one_at_a_time {s s' : State G R} {op : Op G} {ret : Ret G} (h : step impl s op = some (s', ret)) :
    s'.roundNumber = s.roundNumber ∨ s'.roundNumber = s.roundNumber + 1 := round_le_step h

/-- Once finished, no sequence of events changes the state, except the clock and timer; in particular not the error nor the
output, which is part of `round`. -/
theorem C28_frozen {s s' : State G R} {h : List (Op G × Ret G)} (hh : Hist impl s h s') (hd : s.done = true) :
    s' = { s with timer := s'.timer } ∧
      ∀ op ret, (op, ret) ∈ h →
        (∀ m, op = .handle m → ∃ e, ret = .handled (some e)) ∧ (∀ ord coins, op = .processAll ord coins → ret = .messages []) := by
  induction hh with
  | nil => exact ⟨rfl, by simp⟩
  | @snoc h s₁ s₂ op ret h1 hs ih =>
    obtain ⟨ih1, ih2⟩ := ih
    have hd1 : s₁.done = true := by rw [ih1]; exact hd
    rcases step_cases hs with ⟨m, e, rfl, rfl, h1⟩ | ⟨ord, coins, out, rfl, rfl, h1⟩ | ⟨dt, rfl, rfl, rfl⟩ |
      ⟨rfl, rfl, rfl | ⟨t, _, _, rfl⟩⟩ | ⟨rfl, rfl, ⟨_, rfl⟩ | ⟨_, _, rfl⟩ | ⟨r, _, h2, _, _, rfl⟩⟩
    · have h2 := handle_cases impl h1
      have h3 : s₂ = s₁ ∧ ∃ e', e = some e' := by
        cases h2 with
        | finished => exact ⟨rfl, _, rfl⟩
        | noMore h | fromSelf h | notForUs h | notAParty h | already h | badType h | stored h | queued h =>
          rw [hd1] at h; cases h
      obtain ⟨rfl, e', rfl⟩ := h3
      refine ⟨ih1, ?_⟩
      intro op ret hop
      rcases List.mem_append.mp hop with hop | hop
      · exact ih2 op ret hop
      · rw [List.mem_singleton] at hop
        cases hop
        exact ⟨fun m _ => ⟨_, rfl⟩, fun _ _ h => nomatch h⟩
    · have h3 : s₂ = s₁ ∧ out = [] := by
        cases h1 with
        | idle => exact ⟨rfl, rfl⟩
        | processErr _ _ _ h => rw [hd1] at h; cases h
        | generateErr _ _ _ _ h => rw [hd1] at h; cases h
        | last _ _ _ _ _ _ h => rw [hd1] at h; cases h
        | next _ _ _ _ _ _ h => rw [hd1] at h; cases h
      obtain ⟨rfl, rfl⟩ := h3
      refine ⟨ih1, ?_⟩
      intro op ret hop
      rcases List.mem_append.mp hop with hop | hop
      · exact ih2 op ret hop
      · rw [List.mem_singleton] at hop
        cases hop
        exact ⟨fun _ h => (nomatch h), fun _ _ _ => rfl⟩
    all_goals
      refine ⟨?_, ?_⟩
      rotate_left
      · intro op ret hop
        rcases List.mem_append.mp hop with hop | hop
        · exact ih2 op ret hop
        · rw [List.mem_singleton] at hop
          cases hop
          exact ⟨fun _ h => (nomatch h), fun _ _ h => nomatch h⟩
      first
      | exact ih1
      | (rw [hd1] at h2; cases h2)
      | (cases s₁; cases s; simp_all)

/-- A finished session cannot crash: every event is possible. -/
theorem C28_finished_never_crashes (s : State G R) (hd : s.done = true) (op : Op G) : step impl s op ≠ none := by
  cases op with
  | handle m => simp [step]
  | processAll ord coins => simp [step, processAll, hd]
  | advance dt => simp [step]
  | fire =>
    simp only [step]
    cases s.timer.deadline with
    | none => simp
    | some t => simp only []; split <;> simp
  | callback =>
    simp only [step]
    split
    · simp
    · simp [timeoutCallback, reportError, hd]

/-! ### C29 -/

/-- In every reachable state the `Done` channel is closed exactly if the protocol is finished, and `WaitForError` blocks exactly
if it is not; when it returns, it returns the recorded error. -/
theorem C29_done_iff_closed (hst : impl.Stable) {r₀ : R} {timeout now : Nat} {h : List (Op G × Ret G)} {s : State G R}
    (hh : Hist impl (newBaseState impl r₀ timeout now) h s) :
    (s.closed = true ↔ isFinished s = true) ∧ (waitForError s = none ↔ isFinished s = false) ∧
      (isFinished s = true → waitForError s = some s.err) := by
  have hi := inv_hist hst hh
  refine ⟨by rw [hi.closed]; rfl, ?_, ?_⟩
  · unfold waitForError isFinished
    rw [hi.closed]
    cases s.done <;> simp
  · intro h
    unfold waitForError
    unfold isFinished at h
    simp [h]

/-- The channel is never closed twice: once it is closed, no event can panic (closing it again would). -/
theorem C29_closed_once (hst : impl.Stable) {r₀ : R} {timeout now : Nat} {h : List (Op G × Ret G)} {s : State G R}
    (hh : Hist impl (newBaseState impl r₀ timeout now) h s) (hc : s.closed = true) (op : Op G) : step impl s op ≠ none :=
  C28_finished_never_crashes s ((inv_hist hst hh).closed ▸ hc) op

/-- A recorded error means finished; finished without an error means that the last round returned `nil` as the next round after
`roundNumber + 1` calls of `GenerateMessages` succeeded: all accepted types up to that of the last round are used up. -/
theorem C29_no_error_means_completed (hst : impl.Stable) {r₀ : R} {timeout now : Nat} {h : List (Op G × Ret G)} {s : State G R}
    (hh : Hist impl (newBaseState impl r₀ timeout now) h s) :
    (s.err ≠ none → isFinished s = true) ∧ (isFinished s = true → s.err = none →
      ∃ (h₁ h₂ : List (Op G × Ret G)) (s₁ : State G R) (ord : MapOrder) (coins : Coins) (r₁ r₂ : R) (out : List (Message G)),
        h = h₁ ++ (.processAll ord coins, .messages out) :: h₂ ∧ Hist impl (newBaseState impl r₀ timeout now) h₁ s₁ ∧
        s₁.done = false ∧ s.roundNumber = s₁.roundNumber ∧ impl.generateMessages ord coins r₁ = .ok (r₂, out) ∧
        impl.nextRound r₂ = none ∧ impl.reset r₂ = some s.round) := by
  refine ⟨(inv_hist hst hh).err, ?_⟩
  induction hh with
  | nil => intro hd; cases hd
  | @snoc h s₁ s₂ op ret h1 hs ih =>
    intro hd he
    unfold isFinished at hd
    cases hd1 : s₁.done with
    | true =>
      have hfr := (C28_frozen (Hist.snoc (Hist.nil (impl := impl) (s := s₁)) hs) hd1).1
      obtain ⟨h₁, h₂, s₀, ord, coins, r₁, r₂, out, e1, e2, e3, e4, e5, e6, e7⟩ := ih hd1 (by rw [hfr] at he; exact he)
      refine ⟨h₁, h₂ ++ [(op, ret)], s₀, ord, coins, r₁, r₂, out, by rw [e1]; simp, e2, e3, ?_, e5, e6, ?_⟩
      · rw [hfr]; exact e4
      · rw [hfr]; exact e7
    | false =>
      rcases step_cases hs with ⟨m, e, rfl, rfl, h2⟩ | ⟨ord, coins, out, rfl, rfl, h2⟩ | ⟨dt, rfl, rfl, rfl⟩ |
        ⟨rfl, rfl, rfl | ⟨t, _, _, rfl⟩⟩ | ⟨rfl, rfl, ⟨_, rfl⟩ | ⟨_, _, rfl⟩ | ⟨r, _, _, _, _, rfl⟩⟩
      · exfalso
        cases handle_cases impl h2 <;> rw [hd1] at hd <;> cases hd
      · cases h2 with
        | idle => rw [hd1] at hd; cases hd
        | processErr | generateErr => cases he
        | last t types r₁ r r' _ _ hf hpl hg ht hn hr hc =>
          exact ⟨h, [], s₁, ord, coins, r₁, r, out, rfl, h1, hd1, rfl, hg, hn, hr⟩
        | next => rw [hd1] at hd; cases hd
      all_goals first | (rw [hd1] at hd; cases hd) | cases he

/-! ### C32 -/

/-- A message of a later round that is accepted goes into the queue. -/
theorem C32_accepted_is_queued_partial (s s' : State G R) (m : Message G) (h : handleMessage impl s m = (s', none))
    (h1 : m.header.fromID ≠ impl.selfID s.round) (h2 : m.header.toID = 0 ∨ m.header.toID = impl.selfID s.round)
    (h3 : s.acceptedTypes.head? ≠ some m.header.type) : s'.queue = s.queue ++ [m] ∧ m.header.type ∈ s.acceptedTypes := by
  cases handle_cases impl h with
  | fromSelf _ hx => exact absurd hx h1
  | notForUs _ _ h4 h5 => exact absurd h2 (not_or.mpr ⟨h4, h5⟩)
  | stored _ _ _ hx => exact absurd hx h3
  | queued _ _ _ hx => exact ⟨rfl, hx⟩

theorem get?_foldl_set (l : List (Message G)) (acc : GoMap (Option (Message G))) (m : Message G) (hm : m ∈ l) :
    ∃ m' ∈ l, m'.header.fromID = m.header.fromID ∧
      GoMap.get? (l.foldl (fun r m => r.set m.header.fromID (some m)) acc) m.header.fromID = some (some m') := by
  induction l using List.reverseRecOn with
  | nil => cases hm
  | append_singleton l a ih =>
    rw [List.foldl_append, List.foldl_cons, List.foldl_nil, GoMap.get?_set]
    by_cases ha : m.header.fromID = a.header.fromID
    · exact ⟨a, by simp, ha.symm, by rw [if_pos ha]⟩
    · rw [if_neg ha]
      have : m ∈ l := by
        rcases List.mem_append.mp hm with h | h
        · exact h
        · rw [List.mem_singleton] at h; subst h; exact absurd rfl ha
      obtain ⟨m', h1, h2, h3⟩ := ih this
      exact ⟨m', List.mem_append_left _ h1, h2, h3⟩

/-- A queued message stays in the queue until the round of its type begins; then it is stored for that round under its sender,
unless a message of the same sender and type was queued after it, which is stored instead.  What is missing for C32: a sender
can replace a message queued earlier, and early messages can be refused, see `C32_refused_before_start` and
`C32_refused_one_round_ahead`. -/
theorem C32_kept_until_round_partial {s s' : State G R} {op : Op G} {ret : Ret G} (hs : step impl s op = some (s', ret))
    (hd : s'.done = false) (m : Message G) (hm : m ∈ s.queue) :
    m ∈ s'.queue ∨
      (s'.roundNumber = s.roundNumber + 1 ∧ s'.acceptedTypes.head? = some m.header.type ∧
        ∃ m' ∈ s.queue, m'.header.fromID = m.header.fromID ∧ m'.header.type = m.header.type ∧
          s'.received.get? m.header.fromID = some (some m') ∧
          ((∀ m'' ∈ s.queue, m''.header.fromID = m.header.fromID → m''.header.type = m.header.type → m'' = m) → m' = m)) := by
  rcases step_cases hs with ⟨m, e, rfl, rfl, h1⟩ | ⟨ord, coins, out, rfl, rfl, h1⟩ | ⟨dt, rfl, rfl, rfl⟩ |
    ⟨rfl, rfl, rfl | ⟨t, _, _, rfl⟩⟩ | ⟨rfl, rfl, ⟨_, rfl⟩ | ⟨_, _, rfl⟩ | ⟨r, _, _, _, _, rfl⟩⟩
  · left
    cases handle_cases impl h1 <;> first | exact hm | exact List.mem_append_left _ hm
  · cases h1 with
    | idle => exact Or.inl hm
    | processErr | generateErr | last => cases hd
    | next t types r₁ r r' _ hd hf hpl hg ht hn =>
      cases types with
      | nil => exact Or.inl hm
      | cons t' types =>
        by_cases htm : m.header.type = t'
        · right
          obtain ⟨m', h1, h2, h3⟩ := get?_foldl_set (s.queue.filter fun m => m.header.type = t') [] m
            (List.mem_filter.mpr ⟨hm, by simpa using htm⟩)
          obtain ⟨h4, h5⟩ := List.mem_filter.mp h1
          have h5 : m'.header.type = t' := by simpa using h5
          exact ⟨rfl, by simp [htm], m', h4, h2, by rw [h5, htm], h3, fun huniq => huniq m' h4 h2 (by rw [h5, htm])⟩
        · left
          exact List.mem_filter.mpr ⟨hm, by simpa using htm⟩
  all_goals first | exact Or.inl hm | cases hd

/-- C32 refuted: before the first `ProcessAll` every message of every other participant is refused, so an early message of a
faster participant is lost. -/
theorem C32_refused_before_start (hst : impl.Stable) {r₀ : R} {timeout now : Nat} {h : List (Op G × Ret G)} {s : State G R}
    (hh : Hist impl (newBaseState impl r₀ timeout now) h s) (h0 : s.roundNumber = 0) (m : Message G)
    (hm : Spec.ForUs (impl.selfID r₀) (impl.partyIDs r₀) m) : ∃ e, handleMessage impl s m = (s, some e) := by
  have hi := inv_hist hst hh
  rcases hx : handleMessage impl s m with ⟨s', e⟩
  cases handle_cases impl hx with
  | finished | noMore | notAParty | already | badType => exact ⟨_, rfl⟩
  | fromSelf _ h => exact absurd (h.trans hi.self) hm.1
  | notForUs _ _ h4 h5 => exact absurd hm.2.2 (not_or.mpr ⟨h4, hi.self ▸ h5⟩)
  | stored hd hr hn | queued hd hr hn =>
    exact absurd (hi.round0_mem h0 hd (by rw [← hi.self, ← hi.ids]; exact hr)) hn

/-- C32 refuted: a sender whose message for this round is stored and which, being faster, already sends its message for the next
round, has that message refused. -/
theorem C32_refused_one_round_ahead (s : State G R) (k : ID) (m m' : Message G) (hm : (k, some m) ∈ s.received)
    (hd : s.done = false) (hk : IDSlice.contains (impl.partyIDs s.round) k = true) (hs : k ≠ impl.selfID s.round)
    (hf : m'.header.fromID = k) (ht : m'.header.toID = 0 ∨ m'.header.toID = impl.selfID s.round) (hty : s.acceptedTypes ≠ []) :
    handleMessage impl s m' = (s, some (wrapError impl s .alreadyReceived k)) := by
  have hkk : m'.header.fromID ∈ s.received.keys := hf ▸ List.mem_map.mpr ⟨_, hm, rfl⟩
  unfold handleMessage
  simp only [hd, Bool.false_eq_true, if_false]
  cases hat : s.acceptedTypes with
  | nil => exact absurd hat hty
  | cons t l =>
    simp only []
    rw [if_neg (hf ▸ hs), if_neg, if_neg (by rw [hf, hk]; simp), if_pos (GoMap.has_iff.mpr hkk), hf]
    rintro ⟨h1, h2⟩
    rcases ht with h | h
    · simp [Header.isBroadcast, h] at h1
    · exact h2 h

/-! ### C33 -/

theorem clock_append (t₀ : Nat) (h h' : List (Op G × Ret G)) : Spec.clock t₀ (h ++ h') = Spec.clock (Spec.clock t₀ h) h' := by
  induction h generalizing t₀ with
  | nil => rfl
  | cons a h ih =>
    obtain ⟨op, ret⟩ := a
    cases op <;> simp [Spec.clock, ih]

theorem lastAccepted_append (self : ID) (ids : List ID) (t last : Nat) (h h' : List (Op G × Ret G)) :
    Spec.lastAccepted self ids t last (h ++ h') = Spec.lastAccepted self ids (Spec.clock t h) (Spec.lastAccepted self ids t last h) h' := by
  induction h generalizing t last with
  | nil => rfl
  | cons a h ih =>
    obtain ⟨op, ret⟩ := a
    cases op with
    | handle m =>
      cases ret with
      | handled e => cases e <;> simp [Spec.clock, Spec.lastAccepted, ih]
      | messages | nothing => simp [Spec.clock, Spec.lastAccepted, ih]
    | processAll | advance | fire | callback => simp [Spec.clock, Spec.lastAccepted, ih]

/-- The timer in every reachable state. -/
structure TimerInv (me : ID) (ids : List ID) (timeout now : Nat) (h : List (Op G × Ret G)) (t : Timer) : Prop where
  d : t.d = timeout
  clock : t.now = Spec.clock now h
  deadline : ∀ x, t.deadline = some x → 0 < timeout ∧ x = Spec.lastAccepted me ids now now h + timeout
  fired : t.fired ≠ 0 → 0 < timeout ∧ ∃ h₁ h₂, h = h₁ ++ (.fire, .nothing) :: h₂ ∧
    Spec.lastAccepted me ids now now h₁ + timeout ≤ Spec.clock now h₁

theorem timer_inv (hst : impl.Stable) {r₀ : R} {timeout now : Nat} {h : List (Op G × Ret G)} {s : State G R}
    (hh : Hist impl (newBaseState impl r₀ timeout now) h s) :
    TimerInv (impl.selfID r₀) (impl.partyIDs r₀) timeout now h s.timer := by
  induction hh with
  | nil =>
    refine ⟨rfl, rfl, ?_, ?_⟩
    · intro x hx
      by_cases ht : timeout > 0
      · simp only [newBaseState, Timer.new, if_pos ht, Option.some.injEq] at hx
        exact ⟨ht, hx.symm⟩
      · simp [newBaseState, Timer.new, if_neg ht] at hx
    · intro hx; simp [newBaseState, Timer.new] at hx
  | @snoc h s₁ s₂ op ret h1 hs ih =>
    have hi := inv_hist hst h1
    have weak : ∀ (op : Op G) (ret : Ret G), Spec.clock (Spec.clock now h) [(op, ret)] = Spec.clock now h →
        Spec.lastAccepted (impl.selfID r₀) (impl.partyIDs r₀) (Spec.clock now h)
          (Spec.lastAccepted (impl.selfID r₀) (impl.partyIDs r₀) now now h) [(op, ret)] =
          Spec.lastAccepted (impl.selfID r₀) (impl.partyIDs r₀) now now h →
        ∀ t : Timer, t.d = s₁.timer.d → t.now = s₁.timer.now → (t.deadline = s₁.timer.deadline ∨ t.deadline = none) →
          (t.fired ≠ 0 → s₁.timer.fired ≠ 0) →
          TimerInv (impl.selfID r₀) (impl.partyIDs r₀) timeout now (h ++ [(op, ret)]) t := by
      intro op ret hc hl t e1 e2 e3 e4
      refine ⟨e1.trans ih.d, by rw [clock_append, hc, e2, ih.clock], ?_, ?_⟩
      · intro x hx
        rcases e3 with e3 | e3
        · rw [lastAccepted_append, hl]
          exact ih.deadline x (e3 ▸ hx)
        · rw [e3] at hx; cases hx
      · intro hf
        obtain ⟨h2, h₁, h₂, h3, h4⟩ := ih.fired (e4 hf)
        exact ⟨h2, h₁, h₂ ++ [(op, ret)], by rw [h3]; simp, h4⟩
    have stop : ∀ t : Timer, t.stopTimer.d = t.d ∧ t.stopTimer.now = t.now ∧
        (t.stopTimer.deadline = t.deadline ∨ t.stopTimer.deadline = none) ∧ t.stopTimer.fired = t.fired := by
      intro t
      unfold Timer.stopTimer
      split
      · exact ⟨rfl, rfl, Or.inr rfl, rfl⟩
      · exact ⟨rfl, rfl, Or.inl rfl, rfl⟩
    rcases step_cases hs with ⟨m, e, rfl, rfl, h2⟩ | ⟨ord, coins, out, rfl, rfl, h2⟩ | ⟨dt, rfl, rfl, rfl⟩ |
      ⟨rfl, rfl, rfl | ⟨t, ht, hle, rfl⟩⟩ | ⟨rfl, rfl, ⟨_, rfl⟩ | ⟨hf, _, rfl⟩ | ⟨r, hf, _, _, _, rfl⟩⟩
    · have acc : Relevant (impl.selfID s₁.round) (impl.partyIDs s₁.round) m →
          TimerInv (impl.selfID r₀) (impl.partyIDs r₀) timeout now (h ++ [(.handle m, .handled none)]) s₁.timer.ackMessage := by
        intro hr
        rw [hi.self, hi.ids] at hr
        have hfor : Spec.ForUs (impl.selfID r₀) (impl.partyIDs r₀) m := ⟨hr.1, IDSlice.contains_sound hr.2.2, hr.2.1⟩
        have hla : Spec.lastAccepted (impl.selfID r₀) (impl.partyIDs r₀) now now (h ++ [(.handle m, .handled none)]) =
            Spec.clock now h := by
          rw [lastAccepted_append]
          simp [Spec.lastAccepted, hfor, Spec.clock]
        refine ⟨?_, ?_, ?_, ?_⟩
        · unfold Timer.ackMessage; split <;> exact ih.d
        · rw [clock_append]
          unfold Timer.ackMessage; split <;> exact ih.clock
        · intro x hx
          unfold Timer.ackMessage at hx
          split at hx
          · rename_i hpos
            simp only [Option.some.injEq] at hx
            rw [hla, ← hx, ih.clock, ih.d]
            exact ⟨ih.d ▸ hpos, rfl⟩
          · rename_i hpos
            exact absurd (ih.d ▸ (ih.deadline x hx).1) hpos
        · intro hf
          have : s₁.timer.fired ≠ 0 := by
            unfold Timer.ackMessage at hf
            split at hf <;> exact hf
          obtain ⟨h2, h₁, h₂, h3, h4⟩ := ih.fired this
          exact ⟨h2, h₁, h₂ ++ [(.handle m, .handled none)], by rw [h3]; simp, h4⟩
      cases handle_cases impl h2 with
      | finished | noMore | notAParty | already | badType =>
        exact weak _ _ rfl rfl _ rfl rfl (Or.inl rfl) id
      | fromSelf _ hx =>
        refine weak _ _ rfl ?_ _ rfl rfl (Or.inl rfl) id
        have : ¬ Spec.ForUs (impl.selfID r₀) (impl.partyIDs r₀) m := fun hc => hc.1 (hx.trans hi.self)
        simp [Spec.lastAccepted, this]
      | notForUs _ _ h4 h5 =>
        refine weak _ _ rfl ?_ _ rfl rfl (Or.inl rfl) id
        have : ¬ Spec.ForUs (impl.selfID r₀) (impl.partyIDs r₀) m := fun hc => by
          rcases hc.2.2 with hc | hc
          · exact h4 hc
          · exact h5 (hc.trans hi.self.symm)
        simp [Spec.lastAccepted, this]
      | stored _ hr => exact acc hr
      | queued _ hr => exact acc hr
    · cases h2 with
      | idle => exact weak _ _ rfl rfl _ rfl rfl (Or.inl rfl) id
      | next => exact weak _ _ rfl rfl _ rfl rfl (Or.inl rfl) id
      | processErr | generateErr | last =>
        obtain ⟨e1, e2, e3, e4⟩ := stop s₁.timer
        exact weak _ _ rfl rfl _ e1 e2 e3 (by rw [e4]; exact id)
    · refine ⟨ih.d, by rw [clock_append]; simp [Spec.clock, ih.clock], ?_, ?_⟩
      · intro x hx
        rw [lastAccepted_append]
        exact ih.deadline x hx
      · intro hf
        obtain ⟨h2, h₁, h₂, h3, h4⟩ := ih.fired hf
        exact ⟨h2, h₁, h₂ ++ [(.advance dt, .nothing)], by rw [h3]; simp, h4⟩
    · exact weak _ _ rfl rfl _ rfl rfl (Or.inl rfl) id
    · refine ⟨ih.d, by rw [clock_append]; exact ih.clock, ?_, ?_⟩
      · intro x hx; cases hx
      · intro _
        obtain ⟨hpos, hx⟩ := ih.deadline t ht
        exact ⟨hpos, h, [], rfl, by rw [← hx, ← ih.clock]; exact hle⟩
    · exact weak _ _ rfl rfl _ rfl rfl (Or.inl rfl) id
    · exact weak _ _ rfl rfl _ rfl rfl (Or.inl rfl) fun _ => hf
    · obtain ⟨e1, e2, e3, e4⟩ := stop { s₁.timer with fired := s₁.timer.fired - 1 }
      exact weak _ _ rfl rfl _ e1 e2 e3 fun _ => hf

/-- With timeout 0 no timer ever runs: neither the timer nor a callback can do anything. -/
theorem C33_no_timeout_without_timer (hst : impl.Stable) {r₀ : R} {now : Nat} {h : List (Op G × Ret G)} {s : State G R}
    (hh : Hist impl (newBaseState impl r₀ 0 now) h s) :
    step impl s .fire = some (s, .nothing) ∧ step impl s .callback = some (s, .nothing) := by
  have ht := timer_inv hst hh
  have h1 : s.timer.deadline = none := by
    cases hx : s.timer.deadline with
    | none => rfl
    | some x => exact absurd (ht.deadline x hx).1 (by omega)
  have h2 : s.timer.fired = 0 := by
    by_contra hc
    exact absurd (ht.fired hc).1 (by omega)
  simp [step, h1, h2]

/-- A timeout aborts only if, at the moment the timer fired, at least the timeout had passed since the creation of the session
and since the last message accepted until then. -/
theorem C33_only_after_silence_partial (hst : impl.Stable) {r₀ : R} {timeout now : Nat} {h : List (Op G × Ret G)} {s s' : State G R}
    (hh : Hist impl (newBaseState impl r₀ timeout now) h s) (hs : step impl s .callback = some (s', .nothing)) (hd : s.done = false)
    (hd' : s'.done = true) :
    0 < timeout ∧ ∃ h₁ h₂, h = h₁ ++ (.fire, .nothing) :: h₂ ∧
      Spec.lastAccepted (impl.selfID r₀) (impl.partyIDs r₀) now now h₁ + timeout ≤ Spec.clock now h₁ := by
  apply (timer_inv hst hh).fired
  intro h0
  simp only [step, if_pos h0, Option.some.injEq, Prod.mk.injEq] at hs
  rw [← hs.1, hd] at hd'
  cases hd'

/-- What the timer does between: it fires exactly once the timeout has passed since the last accepted message. -/
theorem C33_deadline (hst : impl.Stable) {r₀ : R} {timeout now : Nat} {h : List (Op G × Ret G)} {s : State G R}
    (hh : Hist impl (newBaseState impl r₀ timeout now) h s) (x : Nat) (hx : s.timer.deadline = some x) :
    x = Spec.lastAccepted (impl.selfID r₀) (impl.partyIDs r₀) now now h + timeout ∧ s.timer.now = Spec.clock now h :=
  ⟨((timer_inv hst hh).deadline x hx).2, (timer_inv hst hh).clock⟩

/-- Refused and ignored messages leave the timer alone. -/
theorem C33_refused_do_not_extend (s s' : State G R) (m : Message G) (e : Option HandleErr)
    (h : handleMessage impl s m = (s', e))
    (hr : e ≠ none ∨ ¬ Spec.ForUs (impl.selfID s.round) (impl.partyIDs s.round) m) : s'.timer = s.timer := by
  cases handle_cases impl h with
  | finished | noMore | fromSelf | notForUs | notAParty | already | badType => rfl
  | stored _ hx | queued _ hx =>
    exfalso
    rcases hr with hr | hr
    · exact hr rfl
    · exact hr ⟨hx.1, IDSlice.contains_sound hx.2.2, hx.2.1⟩

/-- C33, the strong form, refuted: a callback that was started before a message arrived aborts the session although that message
was accepted just now; accepting it does not recall the callback. -/
theorem C33_late_callback_aborts (s s₁ : State G R) (m : Message G) (hd : s.done = false) (hc : s.closed = false)
    (hf : s.timer.fired ≠ 0) (hm : handleMessage impl s m = (s₁, none)) (hr : impl.reset s.round ≠ none) (he : s.err = none) :
    ∃ s₂, step impl s₁ .callback = some (s₂, .nothing) ∧ s₂.done = true ∧ s₂.err = some ⟨0, s.roundNumber, .timeout⟩ := by
  obtain ⟨r, hr⟩ := Option.ne_none_iff_exists'.mp hr
  have key : ∀ s₁ : State G R, s₁.done = false → s₁.closed = false → s₁.round = s.round → s₁.err = none → s₁.timer.fired ≠ 0 →
      s₁.roundNumber = s.roundNumber →
      ∃ s₂, step impl s₁ .callback = some (s₂, .nothing) ∧ s₂.done = true ∧ s₂.err = some ⟨0, s.roundNumber, .timeout⟩ := by
    intro s₁ h1 h2 h3 h4 h5 h6
    have hr1 : impl.reset s₁.round = some r := by rw [h3]; exact hr
    simp only [step, if_neg h5, timeoutCallback]
    rw [reportError_ok impl (s := { s₁ with timer := { s₁.timer with fired := s₁.timer.fired - 1 } }) h1 hr1 h2]
    exact ⟨_, rfl, rfl, by simp [h4, h6, StateErr.new]⟩
  have hack : s.timer.ackMessage.fired = s.timer.fired := by unfold Timer.ackMessage; split <;> rfl
  cases handle_cases impl hm with
  | fromSelf | notForUs => exact key s hd hc rfl he hf rfl
  | stored | queued => exact key _ hd hc rfl he (by show s.timer.ackMessage.fired ≠ 0; rw [hack]; exact hf) rfl

/-! ### C65 -/

/-- The error text of `HandleMessage` names this party and carries the cause. -/
theorem C65_names_party_partial (s s' : State G R) (m : Message G) (e : HandleErr) (h : handleMessage impl s m = (s', some e)) :
    e.party = (impl.selfID s.round).toNat ∧ (m.header.fromID = 0 → e.round = s.roundNumber ∧ e.culprit = none) := by
  have key : ∀ c, (wrapError impl s c m.header.fromID).party = (impl.selfID s.round).toNat ∧
      (m.header.fromID = 0 → (wrapError impl s c m.header.fromID).round = s.roundNumber ∧
        (wrapError impl s c m.header.fromID).culprit = none) := by
    intro c
    unfold wrapError
    by_cases hz : m.header.fromID = 0
    · rw [if_pos hz]; exact ⟨rfl, fun _ => ⟨rfl, rfl⟩⟩
    · rw [if_neg hz]; exact ⟨rfl, fun h => absurd h hz⟩
  cases handle_cases impl h <;> exact key _

/-- C65 refuted: for a non-zero sender the text names the sender as the round and the round as the culprit. -/
theorem C65_round_and_culprit_swapped (s s' : State G R) (m : Message G) (e : HandleErr)
    (h : handleMessage impl s m = (s', some e)) (h0 : m.header.fromID ≠ 0) :
    e.round = m.header.fromID.toNat ∧ e.culprit = some s.roundNumber := by
  have key : ∀ c, (wrapError impl s c m.header.fromID).round = m.header.fromID.toNat ∧
      (wrapError impl s c m.header.fromID).culprit = some s.roundNumber := by
    intro c
    unfold wrapError
    rw [if_neg h0]; exact ⟨rfl, rfl⟩
  cases handle_cases impl h <;> exact key _

end Verif.Props
