import Verif.Cases.Flood
import Verif.Props.AliasIDs

/-!
Concrete sessions for `Props/Alias.lean` and `Props/AliasIDs.lean`.
-/

namespace Verif.Cases

open State Props Props.Demo

/-- Do these. -/
def perform {G R W : Type} (impl : RoundImpl G R) (see : W → R → R) (s : State G R) : List (Act G W) → Option (List (Act G W × Ret G) × State G R)
  | [] => some ([], s)
  | a :: as => match act impl see s a with
    | none => none
    | some (s₁, ret) => match perform impl see s₁ as with
      | none => none
      | some (h, t) => some ((a, ret) :: h, t)

theorem perform_acts {G R W : Type} [RGroup G] {impl : RoundImpl G R} {see : W → R → R} {s t : State G R} {as : List (Act G W)} {h : List (Act G W × Ret G)}
    (hr : perform impl see s as = some (h, t)) : Acts impl see s h t := by
  induction as generalizing s h with
  | nil => cases hr; exact .nil
  | cons a as ih =>
    unfold perform at hr
    split at hr
    · cases hr
    · rename_i s₁ ret hs
      split at hr
      · cases hr
      · rename_i h' t' hr'
        cases hr
        exact acts_trans (h := [(a, ret)]) (Acts.snoc (h := []) .nil hs) (ih hr')

/-- What happens. -/
def done {R W : Type} (impl : RoundImpl Toy R) (see : W → R → R) (s : State Toy R) (as : List (Act Toy W)) : List (Act Toy W × Ret Toy) × State Toy R :=
  (perform impl see s as).getD ([], s)

theorem done_acts {R W : Type} {impl : RoundImpl Toy R} {see : W → R → R} {s : State Toy R} (as : List (Act Toy W)) (h : (perform impl see s as).isSome = true) :
    Acts impl see s (done impl see s as).1 (done impl see s as).2 := by
  obtain ⟨x, hx⟩ := Option.isSome_iff_exists.mp h
  refine perform_acts (as := as) (hx.trans ?_)
  simp [done, hx]

/-- Party 1 is given [1, 2, 3]; its caller writes [9, 9, 9] before the session starts and [3, 2, 1] when all commitments are there. -/
def wacts : List (Act Toy Bytes) := [.write [9, 9, 9], .op (.processAll .insertion (coins [13, 14])), .op (.handle n2), .op (.handle n3), .write [3, 2, 1]]

abbrev wst (as : List (Act Toy Bytes)) (s : State Toy (Sign.Round Toy)) : List (Act Toy Bytes × Ret Toy) × State Toy (Sign.Round Toy) := done SI Sign.seeMessage s as

abbrev w1 := wst wacts (start r1)

theorem wacts1 : Acts SI Sign.seeMessage (start r1) w1.1 w1.2 := done_acts _ (by decide +kernel)

/-- `C94_sign_reads_late`, `C94_sign_as_if_partial`, `C94_sign_other_message`. -/
example := C94_sign_reads_late (skey 1) key ids [1, 2, 3] 10 0 _ new1 wacts1 (by decide +kernel)
example := C94_sign_as_if_partial (skey 1) key ids [1, 2, 3] 10 0 _ new1 wacts1 (by decide +kernel) (h' := _) (s' := _)
  (shist [.processAll .insertion (coins []), .handle (Message.newSign2 2 (-19298)), .handle (Message.newSign2 3 33104), .processAll .reversed (coins [])] (by decide +kernel))
example : Spec.contents [1, 2, 3] w1.1 = [3, 2, 1] ∧ w1.2.round.message = [3, 2, 1] ∧ w1.2.done = false := by decide +kernel
example := C94_sign_other_message (skey 1) key ids [9, 9, 9] [1, 2, 3] 10 0 _ _ (new_with new1 [9, 9, 9]) new1 s4

/-- The share. -/
abbrev w2 : State Toy (Sign.Round Toy) × Ret Toy := (State.step SI w1.2 (.processAll .insertion (coins []))).getD (w1.2, .nothing)

theorem w2_step : State.step SI w1.2 (.processAll .insertion (coins [])) = some w2 := by
  obtain ⟨x, hx⟩ := Option.isSome_iff_exists.mp (show (State.step SI w1.2 (.processAll .insertion (coins []))).isSome = true by decide +kernel)
  simp only [w2]
  rw [hx]
  rfl

/-- The messages that were returned. -/
def returned : Ret Toy → List (Message Toy)
  | .messages l => l
  | _ => []

/-- Messages were returned. -/
def isReturn : Ret Toy → Bool
  | .messages _ => true
  | _ => false

theorem isReturn_eq {r : Ret Toy} (h : isReturn r = true) : r = .messages (returned r) := by
  cases r <;> first | rfl | cases h

/-- `C94_sign_share`. -/
example : (returned w2.2).length = 1 ∧ ∀ m ∈ returned w2.2, m.sign2 ≠ none := by decide +kernel
example := C94_sign_share (skey 1) key ids [1, 2, 3] 10 0 _ new1 (by decide) (by decide +kernel) wacts1 (by decide +kernel) _ w2.1 (returned w2.2)
  (w2_step.trans (congrArg some (Prod.ext rfl (isReturn_eq (by decide +kernel)))))

/-- Afterwards [2, 2, 2] or [7, 7, 7] is written; the first has the same hash, since it is the sum. -/
def wacts' (m : Bytes) : List (Act Toy Bytes) := [.op (.handle (Message.newSign2 2 (-19298))), .op (.handle (Message.newSign2 3 33104)), .write m]
abbrev w3 (m : Bytes) := wst (wacts' m) w2.1

theorem wacts3 (m : Bytes) (h : (perform SI Sign.seeMessage w2.1 (wacts' m)).isSome = true) : Acts SI Sign.seeMessage w2.1 (w3 m).1 (w3 m).2 := done_acts _ h

abbrev w4 (m : Bytes) : State Toy (Sign.Round Toy) × List (Message Toy) := (processAll SI .reversed (coins []) (w3 m).2).getD ((w3 m).2, [])

theorem w4_step (m : Bytes) (h : (processAll SI .reversed (coins []) (w3 m).2).isSome = true) : processAll SI .reversed (coins []) (w3 m).2 = some (w4 m) := by
  obtain ⟨x, hx⟩ := Option.isSome_iff_exists.mp h
  simp only [w4]
  rw [hx]
  rfl

/-- `C94_sign_last`, `C94_sign_both`, `C94_sign_output`. -/
example := C94_sign_last (skey 1) key ids [1, 2, 3] 10 0 _ new1 wacts1 (by decide +kernel) _ _ w2_step (by decide +kernel) (wacts3 [7, 7, 7] (by decide +kernel)) (by decide +kernel)
example := C94_sign_last (skey 1) key ids [1, 2, 3] 10 0 _ new1 wacts1 (by decide +kernel) _ _ w2_step (by decide +kernel) (wacts3 [2, 2, 2] (by decide +kernel)) (by decide +kernel)
example : (w4 [7, 7, 7]).1.err = some ⟨0, 2, .badSignature⟩ ∧ (w4 [2, 2, 2]).1.err = none ∧ (w4 [2, 2, 2]).1.round.output.signature.isSome = true := by decide +kernel
example := C94_sign_both (skey 1) key ids [1, 2, 3] 10 0 _ new1 (by decide) (by decide +kernel) (by decide +kernel) wacts1 (by decide +kernel) _ _ w2_step (by decide +kernel)
  (wacts3 [2, 2, 2] (by decide +kernel)) (by decide +kernel) _ _ _ _ (w4_step _ (by decide +kernel)) ((w4 [2, 2, 2]).1.round.output.signature.get (by decide +kernel)) (by decide +kernel)

/-- All of it in one history. -/
def wall : List (Act Toy Bytes) := wacts ++ [.op (.processAll .insertion (coins []))] ++ wacts' [2, 2, 2] ++ [.op (.processAll .reversed (coins [])), .write [0], .op (.advance 3)]

example := C94_sign_output (skey 1) key ids [1, 2, 3] 10 0 _ new1 (done_acts (impl := SI) (see := Sign.seeMessage) wall (by decide +kernel))
  ((wst wall (start r1)).2.round.output.signature.get (by decide +kernel)) (by decide +kernel)

/-! ### The list of parties -/

/-- A key generation of parties 1, 2, 3, for which the caller writes 1, 2, 4. -/
theorem session124 : Keygen.newKeygenState toySha 1 [1, 2, 4] 1 10 0 = .ok (session [1, 2, 4] 1 1) := session_ok (by decide) (by decide) (by decide +kernel)

/-- The session of 1, 2, 4 from its start, and after it. -/
abbrev k1 : State Toy (Keygen.Round Toy) × Ret Toy :=
  (State.step KI (session [1, 2, 4] 1 1) (.processAll .insertion (coins [5, 6, 7]))).getD (session [1, 2, 4] 1 1, .nothing)

theorem k1_step : State.step KI (session [1, 2, 4] 1 1) (.processAll .insertion (coins [5, 6, 7])) = some k1 := by
  obtain ⟨x, hx⟩ := Option.isSome_iff_exists.mp
    (show (State.step KI (session [1, 2, 4] 1 1) (.processAll .insertion (coins [5, 6, 7]))).isSome = true by decide +kernel)
  simp only [k1]
  rw [hx]
  rfl

def kops : List (Op Toy) := [.handle com2, .handle (Message.newKeyGen1 4 ⟨0, 1⟩ [Toy.of 9, Toy.of 10]), .processAll .insertion (coins []),
  .handle share2, .handle (Message.newKeyGen2 4 1 19), .processAll .insertion (coins [])]

/-- `C94_keygen_other_parties`: a whole session of 1, 2, 4, of which the output is for 1, 2, 4. -/
example := C94_keygen_other_parties 1 ids [1, 2, 4] 1 10 0 _ _ session1 session124 (by decide) (by decide) rfl .insertion (coins [5, 6, 7]) k1.2
  (hist_cons.mpr ⟨_, k1_step, hist_more kops (by decide +kernel)⟩)
example : (more k1.1 kops).2.done = true ∧ (more k1.1 kops).2.err = none ∧
    (more k1.1 kops).2.round.output.pub.map (·.partyIDs) = some [1, 2, 4] := by decide +kernel

abbrev kst (as : List (Act Toy (List ID))) : List (Act Toy (List ID) × Ret Toy) × State Toy (Keygen.Round Toy) := done KI Keygen.seeIDs (session ids 1 1) as

/-- The caller writes 1, 2, 4 when all commitments of 1, 2, 3 are there, and 1, 5, 6 when all shares are there. -/
def kacts1 : List (Act Toy (List ID)) := [.op (.processAll .insertion (coins [5, 6, 7])), .op (.handle com2), .op (.handle com3), .write [1, 2, 4]]
def kacts2 : List (Act Toy (List ID)) := kacts1 ++ [.op (.processAll .insertion (coins [])), .write ids, .op (.handle share2), .op (.handle share3), .write [1, 5, 6],
  .op (.processAll .insertion (coins [])), .write []]

/-- `C94_keygen_output`: the output has 1, 5, 6. -/
example := C94_keygen_output 1 ids 1 10 0 _ session1 (done_acts (impl := KI) (see := Keygen.seeIDs) kacts2 (by decide +kernel))
  ((kst kacts2).2.round.output.pub.get (by decide +kernel)) (by decide +kernel)
example : (kst kacts2).2.round.output.pub.map (fun P => (P.partyIDs, P.shares.keys)) = some ([1, 5, 6], [1, 5, 6]) := by decide +kernel

abbrev k2 : State Toy (Keygen.Round Toy) × Ret Toy := (State.step KI (kst kacts1).2 (.processAll .insertion (coins []))).getD ((kst kacts1).2, .nothing)

theorem k2_step : State.step KI (kst kacts1).2 (.processAll .insertion (coins [])) = some (k2.1, .messages (returned k2.2)) := by
  obtain ⟨x, hx⟩ := Option.isSome_iff_exists.mp (show (State.step KI (kst kacts1).2 (.processAll .insertion (coins []))).isSome = true by decide +kernel)
  rw [← isReturn_eq (r := k2.2) (by decide +kernel)]
  simp only [k2]
  rw [hx]
  rfl

/-- `C94_keygen_dealt`: to 2 and 4. -/
example : (returned k2.2).map (fun m => (m.header.toID, m.keyGen2.isSome)) = [(2, true), (4, true)] := by decide +kernel
example := C94_keygen_dealt 1 ids 1 10 0 _ session1 (done_acts (impl := KI) (see := Keygen.seeIDs) kacts1 (by decide +kernel)) _ _ _ k2_step
  ((returned k2.2).head (by decide +kernel)) (by decide +kernel) (by decide +kernel)

/-- `C94_sign_no_share`: party 4 is written; a commitment of party 3 that is the identity makes the session fail, and not crash. -/
def iacts : List (Act Toy (List ID)) := [.op (.processAll .insertion (coins [13, 14])), .op (.handle n2), .op (.handle (Message.newSign1 3 (Toy.of 11) (Toy.of 0))), .write [1, 2, 4]]
abbrev ist := done SI Sign.seeIDs (start r1) iacts
abbrev ist' : State Toy (Sign.Round Toy) × List (Message Toy) := (processAll SI .insertion (coins []) ist.2).getD (ist.2, [])

theorem ist_step : processAll SI .insertion (coins []) ist.2 = some ist' := by
  obtain ⟨x, hx⟩ := Option.isSome_iff_exists.mp (show (processAll SI .insertion (coins []) ist.2).isSome = true by decide +kernel)
  simp only [ist']
  rw [hx]
  rfl

example := C94_sign_no_share (skey 1) key ids [1, 2, 3] 10 0 _ new1 (done_acts (impl := SI) (see := Sign.seeIDs) iacts (by decide +kernel)) (by decide +kernel) (by decide +kernel)
  4 (by decide +kernel) (by decide) _ _ _ _ ist_step
example : ist'.1.done = true ∧ ist'.1.err = some ⟨3, 1, .identityCommitment⟩ := by decide +kernel

/-- With the commitments of everybody it crashes. -/
def iacts' : List (Act Toy (List ID)) := [.op (.processAll .insertion (coins [13, 14])), .op (.handle n2), .op (.handle n3), .write [1, 2, 4]]
example : (perform SI Sign.seeIDs (start r1) iacts').isSome = true ∧ (perform SI Sign.seeIDs (start r1) (iacts' ++ [.op (.processAll .insertion (coins []))])).isSome = false := by
  decide +kernel

end Verif.Cases
