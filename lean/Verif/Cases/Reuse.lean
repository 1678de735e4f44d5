import Verif.Cases.Sign
import Verif.Props.Reuse

/-!
For each theorem of `Props/Reuse.lean` that has hypotheses, a concrete case that meets them.
-/

namespace Verif.Cases

open State Props Props.Demo

/-- A session of party 1 that signs `message`. -/
def reRound (message : Bytes) : Option (Sign.Round Toy) := match Sign.newRound ids (skey 1) key message with
  | .ok r => some r
  | _ => none

theorem reRound_some (message : Bytes) (h : (reRound message).isSome = true) : Sign.newRound ids (skey 1) key message = .ok ((reRound message).get h) := by
  have h' := Option.some_get h
  generalize (reRound message).get h = r at h'
  unfold reRound at h'
  split at h'
  · cases h'; assumption
  · cases h'

/-- Three messages. -/
def reMsg (k : Fin 3) : Bytes := if k = 0 then [1, 2, 3] else if k = 1 then [9, 9, 9] else [200, 100]

theorem reSome : ∀ k, (reRound (reMsg k)).isSome = true := by decide +kernel

def reStart (k : Fin 3) : State Toy (Sign.Round Toy) := start ((reRound (reMsg k)).get (reSome k))

theorem reNew (k : Fin 3) : Sign.newSignState sumSha ids (skey 1) key (reMsg k) 10 0 = .ok (reStart k) :=
  newSignState_ok.mpr ⟨_, reRound_some _ (reSome k), rfl⟩

/-- Party 1 draws 13 and 14 in each of them, and sends its response. -/
theorem reHist (k : Fin 3) : Hist SI (reStart k) (safter (reStart k) sops2).1 (safter (reStart k) sops2).2 :=
  shist _ ((by decide +kernel : ∀ k, (run SI (reStart k) sops2).isSome = true) k)

/-- The three responses. -/
def reZ (k : Fin 3) : Scalar := if k = 0 then 18190 else if k = 1 then 8359 else 10683

theorem reSent : ∀ k, Message.newSign1 1 (Toy.of 13) (Toy.of 14) ∈ Spec.emitted (safter (reStart k) sops2).1 := by decide +kernel
theorem reResponse : ∀ k, Message.newSign2 1 (reZ k) ∈ Spec.emitted (safter (reStart k) sops2).1 := by decide +kernel

def reD (i : ID) : Toy := (table i).1
def reE (i : ID) : Toy := (table i).2
def reRho (k : Fin 3) : Scalar := Spec.rho sumSha ids (reMsg k) reD reE 1
def reW (k : Fin 3) : Scalar := Spec.shareFactor sumSha ids (reMsg k) key.groupKey reD reE 1

/-- `C96_three_sessions_reveal`: the number that must not be 0 is not, so the share of party 1, which is 45, is what the formula gives. -/
example : (skey 1).secret = Spec.recoverShare reRho reW reZ := by
  obtain ⟨⟨D, E, h1⟩, h2⟩ := C96_three_sessions_reveal (sha := sumSha) (skey 1) key (by decide +kernel) (fun _ => ids) reMsg (fun _ => 10) (fun _ => 0) reStart _ _ reNew
    (fun _ => by decide) reHist (Toy.of 13) (Toy.of 14) reZ reSent reResponse
  have h2 := h2 D E h1
  have h3 : ∀ k, ∀ id ∈ ids, D k id = reD id ∧ E k id = reE id := fun k => of_inTable (self := 1)
    ((by decide +kernel : ∀ k, inTable 1 (safter (reStart k) sops2).1 = true) k) (h1 k)
  have h4 : (fun k => Spec.rho sumSha ids (reMsg k) (D k) (E k) (skey 1).id) = reRho := funext fun k => Sign.rho_congr (h3 k) _
  have h5 : (fun k => Spec.shareFactor sumSha ids (reMsg k) key.groupKey (D k) (E k) (skey 1).id) = reW := funext fun k => by
    rw [reW, Spec.shareFactor, Spec.shareFactor, Sign.chal_congr (h3 k)]
    rfl
  simp only [h4, h5] at h2
  exact h2 (by decide +kernel)
example : Spec.recoverShare reRho reW reZ = 45 := by decide +kernel

/-- The first step of a session. -/
def reStep (k : Fin 3) : State Toy (Sign.Round Toy) × List (Message Toy) := match State.step SI (reStart k) (.processAll .insertion (coins [13, 14])) with
  | some (s, .messages out) => (s, out)
  | _ => (reStart k, [])

theorem reStep_eq (k : Fin 3) (h : (State.step SI (reStart k) (.processAll .insertion (coins [13, 14])) matches some (_, .messages _)) = true) :
    State.step SI (reStart k) (.processAll .insertion (coins [13, 14])) = some ((reStep k).1, .messages (reStep k).2) := by
  unfold reStep
  split at h
  · rename_i h'
    rw [h']
  · cases h

theorem reStep_sent : ∀ k, (reStep k).2 ≠ [] := by decide +kernel

/-- `C96_not_hedged`: the first two of these sessions. -/
example := C96_not_hedged (sha := sumSha) (skey 1) (skey 1) key key ids ids (reMsg 0) (reMsg 1) 10 0 10 0 _ _ (reNew 0) (by decide) (reNew 1) (by decide) rfl .insertion
  .insertion (coins [13, 14]) (coins [13, 14]) rfl rfl _ _ _ _ (reStep_eq 0 (by decide +kernel)) (reStep_eq 1 (by decide +kernel)) (reStep_sent 0) (reStep_sent 1)

/-- `C96_two_hide`: the first two responses. -/
example := C96_two_hide ![228, 249] ![333, 108] ![18190, 8359] (by decide +kernel) 77

end Verif.Cases
