import Verif.Cases.Sign
import Verif.Props.Flood

/-!
Concrete sessions for `Props/Flood.lean`.
-/

namespace Verif.Cases

open State Props Props.Demo

variable {G : Type}

/-- A check of `Spec.Prompt`; `t` is the time and `last` the time of the last accepted message. -/
def promptly (self : ID) (ids : List ID) (timeout : Nat) (t last : Nat) : List (Op G × Ret G) → Bool
  | [] => true
  | (.advance dt, _) :: h => decide (t + dt ≤ last + timeout) && promptly self ids timeout (t + dt) last h
  | (.handle m, .handled none) :: h => promptly self ids timeout t (if Spec.ForUs self ids m then t else last) h
  | _ :: h => promptly self ids timeout t last h

theorem promptly_sound {self : ID} {ids : List ID} {timeout now : Nat} {h : List (Op G × Ret G)} (hc : promptly self ids timeout now now h = true) :
    Spec.Prompt self ids timeout now h := by
  suffices H : ∀ (h : List (Op G × Ret G)) (t last : Nat), promptly self ids timeout t last h = true → ∀ h₁ dt ret h₂, h = h₁ ++ (.advance dt, ret) :: h₂ →
      Spec.clock t h₁ + dt ≤ Spec.lastAccepted self ids t last h₁ + timeout from H h now now hc
  intro h
  induction h with
  | nil => intro t last _ h₁ dt ret h₂ he; simp at he
  | cons a h ih =>
    intro t last hc h₁ dt ret h₂ he
    cases h₁ with
    | nil =>
      obtain ⟨rfl, rfl⟩ := List.cons.inj he
      simp only [promptly, Bool.and_eq_true, decide_eq_true_eq] at hc
      exact hc.1
    | cons b h₁ =>
      obtain ⟨rfl, rfl⟩ := List.cons.inj he
      obtain ⟨op, rt⟩ := a
      cases op with
      | advance d =>
        simp only [promptly, Bool.and_eq_true] at hc
        exact ih _ _ hc.2 h₁ dt ret h₂ rfl
      | processAll | fire | callback => exact ih _ _ hc h₁ dt ret h₂ rfl
      | handle m =>
        cases rt with
        | messages | nothing => exact ih _ _ hc h₁ dt ret h₂ rfl
        | handled e =>
          cases e with
          | some e => exact ih _ _ hc h₁ dt ret h₂ rfl
          | none => exact ih _ _ hc h₁ dt ret h₂ rfl

/-- Time passes between the messages. -/
def slowly : List (Op Toy) := ops0 ++ [.advance 9, .handle com2, .advance 10, .handle share3, .advance 10, .handle com3, .advance 7, .processAll .insertion (coins [])]

/-- `C93_received_bounded`, `C93_queue_bounded_partial`, `C93_lifetime`, `C93_lifetime_partial`: a session of which the clock goes to 36, with a time-out of 10. -/
example := C93_received_bounded stable hist1
example := C93_queue_bounded_partial stable hist1 (by unfold Spec.OncePerType; decide +kernel)
example := C93_lifetime 1 ids 10 0 (after slowly).1 (promptly_sound (by decide +kernel))
example := C93_lifetime_partial stable (hist slowly (by decide +kernel)) (by unfold Spec.OncePerType; decide +kernel) (promptly_sound (by decide +kernel))
example : (st slowly).timer.now = 36 ∧ (st slowly).received.length = 1 ∧ (st ops1).queue.length = 1 := by decide +kernel

/-- A message at time 3 and silence until time 13; the timer fires, a message comes, and the callback runs. -/
def wait1 : State Toy (Keygen.Round Toy) := st (ops0 ++ [.advance 3, .handle com2, .advance 10])
def wait2 : State Toy (Keygen.Round Toy) := (after1 wait1 .fire).1
def wait3 : State Toy (Keygen.Round Toy) := ((run KI wait2 [.handle com3, .advance 5]).getD ([], wait2)).2
def wait4 : State Toy (Keygen.Round Toy) := (after1 wait3 .callback).1

/-- `C93_ends`: with a message and time between the start of the callback and the callback. -/
example : ((run KI wait4 [.handle share2]).getD ([], wait4)).2.done = true ∧ wait3.done = false :=
  ⟨C93_ends stable (by decide : 0 < 10) ((hist (ops0 ++ [.advance 3, .handle com2, .advance 10]) (by decide +kernel)).trans (hist_cons.mpr
    ⟨wait2, step_eq (op := .fire) (by decide +kernel), (hist_more [.handle com3, .advance 5] (by decide +kernel)).trans (hist_cons.mpr
      ⟨wait4, step_eq (op := .callback) (by decide +kernel), hist_more [.handle share2] (by decide +kernel)⟩)⟩)) (by decide +kernel), by decide +kernel⟩

/-- `C93_flood`: three shares of party 3, one of them different, in round 1. -/
example : ∃ s', Hist KI (st (ops0 ++ [.handle com2])) (flood 9 [share3, share3, Message.newKeyGen2 3 1 77]) s' ∧ s'.queue.length = 3 ∧ s'.timer.now = 27 := by
  obtain ⟨s', h1, _, _, _, h2, h3, _⟩ := C93_flood (impl := KI) (st (ops0 ++ [.handle com2])) (by decide +kernel) 9 [share3, share3, Message.newKeyGen2 3 1 77] (by decide +kernel)
  exact ⟨s', h1, by rw [h2]; decide +kernel, by rw [h3]; decide +kernel⟩

/-- `C93_keygen_partial`, `C93_keygen_flood`. -/
example := C93_keygen_partial 1 ids 1 10 0 _ _ _ session1 hist1
example := C93_keygen_flood 1 ids 1 10 0 (by decide) _ _ _ session1 (hist (ops0 ++ [.handle com2]) (by decide +kernel)) (promptly_sound (by decide +kernel)) (by decide +kernel)
  (by decide +kernel) 3 (by decide) (by decide +kernel) (by decide +kernel) share3 rfl 1000000

/-- `C93_sign_partial`, `C93_sign_flood`. -/
example := C93_sign_partial ids (skey 1) key [1, 2, 3] 10 0 _ _ _ new1 s2
example := C93_sign_flood ids (skey 1) key [1, 2, 3] 10 0 (by decide) _ _ _ new1 (shist (sops1 ++ [.handle n2]) (by decide +kernel)) (promptly_sound (by decide +kernel))
  (by decide +kernel) (by decide +kernel) 3 (by decide) (by decide +kernel) (by decide +kernel) (Message.newSign2 3 5) rfl 1000000

end Verif.Cases
