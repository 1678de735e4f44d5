import Verif.Spec.NetTime
import Verif.Lemmas.Net

/-!
An execution with time-outs looks, to everybody who has not timed out, like an execution without.
-/

namespace Verif.State

open Spec

variable {G R : Type} {impl : RoundImpl G R} {ids : List ID} {coins : ID → Coins}

/-- `s'` is the session in an execution without time-outs. -/
inductive TimeSim (s s' : State G R) : Prop
  | same : s = s' → TimeSim s s'
  | over : s'.done = true → (∃ tm, s = { s' with timer := tm }) → TimeSim s s'
  | out : TimedOut s → TimeSim s s'

/-- What a finished session does. -/
theorem step_done {s s' : State G R} {op : Op G} {ret : Ret G} (h : step impl s op = some (s', ret)) (hd : s.done = true) :
    (∃ tm, s' = { s with timer := tm }) ∧ returned ret = [] := by
  cases op with
  | handle m =>
    simp only [step, handleMessage, hd, if_true, Option.some.injEq, Prod.mk.injEq] at h
    obtain ⟨rfl, rfl⟩ := h
    exact ⟨⟨s.timer, rfl⟩, rfl⟩
  | processAll ord c =>
    simp only [step, processAll, hd, if_true, Option.map_some, Option.some.injEq, Prod.mk.injEq] at h
    obtain ⟨rfl, rfl⟩ := h
    exact ⟨⟨s.timer, rfl⟩, rfl⟩
  | advance dt =>
    simp only [step, Option.some.injEq, Prod.mk.injEq] at h
    obtain ⟨rfl, rfl⟩ := h
    exact ⟨⟨_, rfl⟩, rfl⟩
  | fire =>
    simp only [step] at h
    split at h
    · split at h <;>
      · simp only [Option.some.injEq, Prod.mk.injEq] at h
        obtain ⟨rfl, rfl⟩ := h
        exact ⟨⟨_, rfl⟩, rfl⟩
    · simp only [Option.some.injEq, Prod.mk.injEq] at h
      obtain ⟨rfl, rfl⟩ := h
      exact ⟨⟨_, rfl⟩, rfl⟩
  | callback =>
    simp only [step] at h
    split at h
    · simp only [Option.some.injEq, Prod.mk.injEq] at h
      obtain ⟨rfl, rfl⟩ := h
      exact ⟨⟨_, rfl⟩, rfl⟩
    · simp only [timeoutCallback, reportError, hd, if_true, Option.map_some, Option.some.injEq, Prod.mk.injEq] at h
      obtain ⟨rfl, rfl⟩ := h
      exact ⟨⟨_, by rw [hd]⟩, rfl⟩

/-- A finished session never crashes. -/
theorem step_done_some {s : State G R} (hd : s.done = true) (op : Op G) : ∃ s' ret, step impl s op = some (s', ret) := by
  cases op with
  | handle m => exact ⟨_, _, rfl⟩
  | processAll ord c => simp [step, processAll, hd]
  | advance dt => exact ⟨_, _, rfl⟩
  | fire =>
    simp only [step]
    split
    · split <;> exact ⟨_, _, rfl⟩
    · exact ⟨_, _, rfl⟩
  | callback =>
    simp only [step]
    split
    · exact ⟨_, _, rfl⟩
    · simp [timeoutCallback, reportError, hd]

/-- The execution without time-outs that an execution looks like. -/
structure Untimed (impl : RoundImpl G R) (ids : List ID) (coins : ID → Coins) (N₀ N N' : Net G R) : Prop where
  path : Path impl ids coins N₀ N'
  sent : N.sent = N'.sent
  sim : ∀ i ∈ ids, TimeSim (N.state i) (N'.state i)

theorem untimed {N₀ N : Net G R} (hp : PathT impl ids coins N₀ N)
    (herr : ∀ N', Path impl ids coins N₀ N' → ∀ i ∈ ids, (N'.state i).err = none) : ∃ N', Untimed impl ids coins N₀ N N' := by
  induction hp with
  | refl => exact ⟨_, .refl _, rfl, fun _ _ => .same rfl⟩
  | @tail N i op ret s hp hi ha hs ih =>
    obtain ⟨N', h1, h2, h3⟩ := ih
    have others : ∀ N'' : Net G R, (∀ j ≠ i, N''.state j = N'.state j) → TimeSim s (N''.state i) →
        ∀ j ∈ ids, TimeSim ((N.after i op ret s).state j) (N''.state j) := by
      intro N'' hN hi' j hj
      by_cases hji : j = i
      · subst hji
        simpa [Net.after] using hi'
      · rw [hN j hji]
        simpa [Net.after, Function.update_of_ne hji] using h3 j hj
    have stay : (N.state i).done = true → TimeSim s (N'.state i) → Untimed impl ids coins N₀ (N.after i op ret s) N' := by
      intro hd hsim
      obtain ⟨_, hret⟩ := step_done hs hd
      exact ⟨h1, by simp [Net.after, hret, h2], others N' (fun _ _ => rfl) hsim⟩
    cases h3 i hi with
    | out h =>
      obtain ⟨⟨tm, rfl⟩, _⟩ := step_done hs h.1
      exact ⟨N', stay h.1 (.out h)⟩
    | over hd h =>
      obtain ⟨tm, h⟩ := h
      have hd' : (N.state i).done = true := by rw [h]; exact hd
      obtain ⟨⟨tm', rfl⟩, _⟩ := step_done hs hd'
      exact ⟨N', stay hd' (.over hd ⟨tm', by rw [h]⟩)⟩
    | same h =>
      rcases ha with rfl | ha
      · rcases step_cases hs with ⟨_, _, h', _⟩ | ⟨_, _, _, h', _⟩ | ⟨_, h', _⟩ | ⟨h', _⟩ | ⟨_, rfl, h'⟩
        · cases h'
        · cases h'
        · cases h'
        · cases h'
        · have hsent : (N.after i .callback .nothing s).sent = N'.sent := by simp [Net.after, returned, h2]
          rcases h' with ⟨_, rfl⟩ | ⟨_, hd, rfl⟩ | ⟨r, _, hd, _, _, rfl⟩
          · exact ⟨N', h1, hsent, others N' (fun _ _ => rfl) (.same h)⟩
          · exact ⟨N', h1, hsent, others N' (fun _ _ => rfl) (.over (h ▸ hd) ⟨_, by rw [← h]⟩)⟩
          · refine ⟨N', h1, hsent, others N' (fun _ _ => rfl) (.out ⟨rfl, ?_⟩)⟩
            have := herr N' h1 i hi
            rw [← h] at this
            simp [this]
      · have ha' : Allowed coins N' i op := by
          unfold Allowed at ha ⊢
          cases op with
          | handle m => simpa [h2] using ha
          | processAll o c => simpa [h] using ha
          | advance _ => trivial
          | fire => trivial
          | callback => simpa [h] using ha
        rw [h] at hs
        refine ⟨N'.after i op ret s, h1.tail hi ha' hs, by simp [Net.after, h2], others _ ?_ (.same (by simp [Net.after]))⟩
        intro j hj
        simp [Net.after, Function.update_of_ne hj]

end Verif.State
