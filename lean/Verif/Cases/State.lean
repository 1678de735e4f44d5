import Verif.Cases.Session

/-!
For each theorem of `Props/State.lean` that has hypotheses, a concrete session that meets them.
-/

namespace Verif.Cases

open State Props Props.Demo

/-- `C25_only_relevant_stored`: a stored message and a queued one. -/
example := And.intro (C25_only_relevant_stored stable hist1 com2 (Or.inl ⟨2, by decide +kernel⟩))
  (C25_only_relevant_stored stable hist1 share3 (Or.inr (by decide +kernel)))

/-- `C25_filed_under_sender`. -/
example := C25_filed_under_sender stable hist1 2 com2 (by decide +kernel)

/-- `C25_ignored`: an own message and one for party 3. -/
example : handleMessage KI (st ops1) (Message.newKeyGen1 1 ⟨0, 1⟩ [Toy.of 7]) = (st ops1, none) ∧
    handleMessage KI (st ops1) (Message.newKeyGen2 2 3 15) = (st ops1, none) :=
  ⟨C25_ignored _ _ (by decide +kernel) (by decide +kernel) (Or.inl (by decide +kernel)),
   C25_ignored _ _ (by decide +kernel) (by decide +kernel) (Or.inr (by decide +kernel))⟩

/-- `C25_stranger_refused`: a sender 9. -/
example : ∃ e, handleMessage KI (st ops1) (Message.newKeyGen2 9 1 15) = (st ops1, some e) :=
  C25_stranger_refused _ _ (by decide +kernel) (by decide +kernel) (by decide +kernel)

/-- `C25_refused_changes_nothing`: the same commitments again. -/
example := C25_refused_changes_nothing (impl := KI) (st ops1) _ com2 ⟨1, 2, some 1, .alreadyReceived⟩
  (Prod.ext rfl (by decide +kernel))

/-- `C26_second_refused`: other commitments of party 2. -/
example : ∃ e, handleMessage KI (st ops1) (Message.newKeyGen1 2 ⟨0, 1⟩ [Toy.of 1, Toy.of 2]) = (st ops1, some e) :=
  C26_second_refused _ 2 com2 _ (by decide +kernel) rfl (by decide +kernel) (by decide +kernel)

/-- `C26_first_wins`: another message of party 2 and one of party 3 come after the first. -/
example := C26_first_wins (impl := KI) (s := st (ops0 ++ [.handle com2]))
  (hist_more [.handle (Message.newKeyGen1 2 ⟨0, 1⟩ [Toy.of 1, Toy.of 2]), .handle com3] (by decide +kernel)) 2 com2
  (by decide +kernel) (by decide +kernel) (by decide +kernel)

/-- `C27_waits_for_all`: the last round. -/
example := C27_waits_for_all stable (hist (ops2 ++ [.handle share2]) (by decide +kernel)) (by decide +kernel) (by decide +kernel)
  (proc_eq (ord := .reversed) (c := coins []) (by decide +kernel)) (Or.inl (fun h => absurd (congrArg State.done h) (by decide +kernel)))

/-- `C27_each_once`: round 1 moves on, round 2 completes. -/
example := And.intro
  (C27_each_once (impl := KI) (s := st (ops1 ++ [.handle com3])) (proc_eq (ord := .reversed) (c := coins []) (by decide +kernel)) (Or.inl (by decide +kernel)))
  (C27_each_once (impl := KI) (s := st (ops2 ++ [.handle share2])) (proc_eq (ord := .reversed) (c := coins []) (by decide +kernel)) (Or.inr (by decide +kernel)))

/-- `C28_one_at_a_time`: the second of these advances. -/
example := And.intro (C28_one_at_a_time (step_eq (s := st ops1) (op := .handle com3) (by decide +kernel)))
  (C28_one_at_a_time (step_eq (s := st (ops1 ++ [.handle com3])) (op := .processAll .reversed (coins [])) (by decide +kernel)))

/-- `C28_frozen`: after the end, a message, a call of `ProcessAll` and time. -/
example := C28_frozen (impl := KI) (s := st ops3)
  (hist_more [.handle share2, .processAll .insertion (coins [1]), .advance 100, .fire, .callback] (by decide +kernel)) (by decide +kernel)

/-- `C28_finished_never_crashes`. -/
example := C28_finished_never_crashes (impl := KI) (st ops3) (by decide +kernel) (.handle share2)

/-- `C29_done_iff_closed`, `C29_no_error_means_completed`: before the end and after it. -/
example := And.intro (C29_done_iff_closed stable hist2) (C29_done_iff_closed stable hist3)
example := (C29_no_error_means_completed stable hist3).2 (by decide +kernel) (by decide +kernel)

/-- `C29_closed_once`. -/
example := C29_closed_once stable hist3 (by decide +kernel) .callback

/-- `C32_accepted_is_queued_partial`: the share of party 3 comes early. -/
example := C32_accepted_is_queued_partial (impl := KI) (st (ops0 ++ [.handle com2])) _ share3 (Prod.ext rfl (by decide +kernel))
  (by decide +kernel) (by decide +kernel) (by decide +kernel)

/-- `C32_kept_until_round_partial`: it stays queued, and is stored when round 2 begins. -/
example := And.intro
  (C32_kept_until_round_partial (step_eq (s := st ops1) (op := .handle com3) (by decide +kernel)) (by decide +kernel) share3 (by decide +kernel))
  (C32_kept_until_round_partial (step_eq (s := st (ops1 ++ [.handle com3])) (op := .processAll .reversed (coins [])) (by decide +kernel))
    (by decide +kernel) share3 (by decide +kernel))

/-- `C32_refused_before_start`: commitments before the first `ProcessAll`. -/
example : ∃ e, handleMessage KI (st [.advance 2]) com2 = (st [.advance 2], some e) :=
  C32_refused_before_start stable (hist [.advance 2] (by decide +kernel)) (by decide +kernel) com2 (by decide +kernel)

/-- `C32_refused_one_round_ahead`: party 2 sends its share in round 1, after its commitments. -/
example : handleMessage KI (st ops1) share2 = (st ops1, some (wrapError KI (st ops1) .alreadyReceived 2)) :=
  C32_refused_one_round_ahead _ 2 com2 _ (by decide +kernel) (by decide +kernel) (by decide +kernel) (by decide +kernel) rfl (by decide +kernel) (by decide +kernel)

/-- `C33_no_timeout_without_timer`: a session with timeout 0. -/
example := C33_no_timeout_without_timer (impl := KI) (r₀ := round0 ids 1 1) (now := 5) stable
  (run_hist (ops := [.processAll .insertion (coins [5, 6, 7]), .advance 100]) rfl)

/-- Silence for ten units after a message at time 3; the timer has fired. -/
def silence : List (Op Toy) := ops0 ++ [.advance 3, .handle com2, .advance 10, .fire]

theorem callback_eq {s : State Toy (Keygen.Round Toy)} (h : (step KI s .callback).isSome = true) :
    step KI s .callback = some ((after1 s .callback).1, .nothing) := by
  rw [step_eq h]
  have h := step_eq h
  generalize after1 s .callback = x at h ⊢
  obtain ⟨a, b⟩ := x
  simp only [step] at h
  split at h
  · cases h; rfl
  · cases hc : timeoutCallback KI s with
    | none => rw [hc] at h; cases h
    | some v => rw [hc] at h; cases h; rfl

/-- `C33_only_after_silence_partial`. -/
example := C33_only_after_silence_partial stable (hist silence (by decide +kernel))
  (s' := (after1 (st silence) .callback).1) (callback_eq (by decide +kernel)) (by decide +kernel) (by decide +kernel)

/-- `C33_deadline`: a message at time 0 and one at time 3. -/
example := C33_deadline stable hist1 13 (by decide +kernel)

/-- `C33_refused_do_not_extend`: a repeated message, and one for party 3. -/
example := And.intro
  (C33_refused_do_not_extend (impl := KI) (st ops1) _ com2 _ rfl (Or.inl (by decide +kernel)))
  (C33_refused_do_not_extend (impl := KI) (st ops1) _ (Message.newKeyGen2 2 3 15) _ rfl (Or.inr (by decide +kernel)))

/-- `C33_late_callback_aborts`: the message of party 3 comes just after the timer has fired. -/
example := C33_late_callback_aborts (impl := KI) (st silence) _ com3 (by decide +kernel) (by decide +kernel) (by decide +kernel)
  (Prod.ext rfl (by decide +kernel)) (fun h => absurd (congrArg Option.isSome h) (by decide +kernel)) (by decide +kernel)

/-- `C65_names_party_partial`, `C65_round_and_culprit_swapped`: party 2 sends twice; somebody sends under the ID 0. -/
example := And.intro
  (C65_names_party_partial (impl := KI) (st ops1) _ (Message.newKeyGen1 0 ⟨0, 1⟩ []) ⟨1, 1, none, .notAParty⟩ (Prod.ext rfl (by decide +kernel)))
  (C65_round_and_culprit_swapped (impl := KI) (st ops1) _ com2 ⟨1, 2, some 1, .alreadyReceived⟩ (Prod.ext rfl (by decide +kernel)) (by decide +kernel))

end Verif.Cases
