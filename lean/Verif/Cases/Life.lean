import Verif.Cases.Sign
import Verif.Props.Life

/-!
For each theorem of `Props/Life.lean` that has hypotheses, a concrete case that meets them.
-/

namespace Verif.Cases

open State Props Props.Demo

/-- Three hash values. -/
def hashOf (n : UInt8) : Bytes := n :: List.replicate 63 0

/-- Commitments of the honest signers made from what is chosen, and given ones of the others. -/
def makeD (ids honest : List ID) (z e : ID → Scalar) (a : ID → Bytes) (b : Bytes) (D : ID → Toy) (i : ID) : Toy :=
  if i ∈ honest then Spec.simulatedD (Spec.weightedShare key ids i) (z i) (e i) (a i) b else D i
def makeE (honest : List ID) (e : ID → Scalar) (E : ID → Toy) (i : ID) : Toy := if i ∈ honest then e i • base else E i

/-- All three sign, parties 1 and 2 are honest. -/
def script1 : Spec.Script Toy where
  ids := ids
  message := [1, 2, 3]
  honest := [1, 2]
  z i := if i = 1 then 100 else 200
  e i := if i = 1 then 14 else 16
  a i := if i = 1 then hashOf 7 else hashOf 8
  b := hashOf 9
  D := makeD ids [1, 2] (fun i => if i = 1 then 100 else 200) (fun i => if i = 1 then 14 else 16) (fun i => if i = 1 then hashOf 7 else hashOf 8) (hashOf 9)
    fun _ => Toy.of 11
  E := makeE [1, 2] (fun i => if i = 1 then 14 else 16) fun _ => Toy.of 99

/-- Parties 1 and 3 sign the same message, party 1 is honest. -/
def script2 : Spec.Script Toy where
  ids := [1, 3]
  message := [1, 2, 3]
  honest := [1]
  z _ := 300
  e _ := 17
  a _ := hashOf 4
  b := hashOf 5
  D := makeD [1, 3] [1] (fun _ => 300) (fun _ => 17) (fun _ => hashOf 4) (hashOf 5) fun _ => Toy.of 11
  E := makeE [1] (fun _ => 17) fun _ => Toy.of 99

theorem scripts_made : ∀ v ∈ [script1, script2], v.Made (Spec.weightedShare key) := by
  unfold Spec.Script.Made
  decide +kernel

/-- `C100_fresh`. -/
theorem scripts_fresh : Spec.Fresh sumSha key.groupKey [script1, script2] :=
  C100_fresh key.groupKey [script1, script2] (by decide) (by unfold Spec.Differ; decide +kernel) (by decide +kernel) (by decide +kernel)
    (by decide +kernel) (by decide +kernel)

theorem scripts_length : ∀ p ∈ [script1, script2].flatMap fun v => v.table sumSha key.groupKey, p.2.length = 64 := by decide +kernel

/-- The hash function of the two sessions. -/
def lifeSha : Sha512 := Spec.reprogram sumSha _ scripts_length

/-- The session of party 1 in the first. -/
def lifeStart : State Toy (Sign.Round Toy) := newBaseState (Sign.impl lifeSha) r1 10 0

/-- Its first nonce. -/
def lifeNonce : Scalar := 100 - (Spec.leValue (hashOf 7) : Scalar) * 14 - (Spec.leValue (hashOf 9) : Scalar) * (Spec.weight 1 ids * 45)

/-- What happens in it. -/
def lifeOps : List (Op Toy) := [.processAll .insertion (coins [lifeNonce, 14]), .handle (Message.newSign1 3 (Toy.of 11) (Toy.of 99)),
  .handle (Message.newSign1 2 (script1.D 2) (script1.E 2)), .processAll .reversed (coins [lifeNonce, 14])]

/-- The history. -/
def lifeAfter : List (Op Toy × Ret Toy) × State Toy (Sign.Round Toy) := (run (Sign.impl lifeSha) lifeStart lifeOps).getD ([], lifeStart)

theorem lifeRun : run (Sign.impl lifeSha) lifeStart lifeOps = some lifeAfter := by
  have h : (run (Sign.impl lifeSha) lifeStart lifeOps).isSome = true := by decide +kernel
  obtain ⟨x, hx⟩ := Option.isSome_iff_exists.mp h
  rw [hx]
  simp [lifeAfter, hx]

/-- It sends both messages. -/
example : Spec.emitted lifeAfter.1 = [Message.newSign1 1 (script1.D 1) (script1.E 1), Message.newSign2 1 100] := by decide +kernel

/-- `C100_life`. -/
example : Spec.emitted lifeAfter.1 <+: [Message.newSign1 1 (script1.D 1) (script1.E 1), Message.newSign2 1 (script1.z 1)] := by
  have hops : lifeAfter.1.map Prod.fst = lifeOps := run_ops lifeRun
  refine C100_life (sha := sumSha) key (fun i => ⟨i, (skey i).secret, (skey i).pub⟩) (fun _ => rfl) [script1, script2] (by decide +kernel) scripts_made scripts_fresh scripts_length script1
    (by simp) (by decide) 1 (by decide) 10 0 lifeStart lifeAfter.2 (newSignState_ok.mpr ⟨r1, sround_some 1 _, rfl⟩) _ (run_hist lifeRun) ?_ ?_
  · intro ord c r hm
    have := List.mem_map_of_mem (f := Prod.fst) hm
    rw [hops] at this
    simp only [lifeOps, List.mem_cons, Op.processAll.injEq, List.not_mem_nil, or_false, reduceCtorEq, false_or] at this
    rcases this with ⟨_, rfl⟩ | ⟨_, rfl⟩ <;> exact ⟨by decide +kernel, by decide +kernel⟩
  · rintro j - - D E ⟨m, k, hm, _, rfl, _, hk, rfl, rfl, _⟩
    have := List.mem_map_of_mem (f := Prod.fst) hm
    rw [hops] at this
    simp only [lifeOps, List.mem_cons, Op.handle.injEq, List.not_mem_nil, or_false, reduceCtorEq, false_or] at this
    rcases this with rfl | rfl <;> cases hk <;> exact ⟨rfl, rfl⟩

/-- `C100_binding_fresh`: party 3 answers with commitments that depend on those of party 1. -/
example (Q : Finset Bytes) : {z : Scalar | Spec.bindingInput sumSha 3 [1, 2, 3] (Spec.commitmentList [1, 3]
    (fun j => if j = 1 then Spec.simulatedD (Toy.of 45) z 14 (hashOf 7) (hashOf 9) else Spec.simulatedD (Toy.of 45) z 14 (hashOf 7) (hashOf 9) + Toy.of 11)
    (fun _ => Toy.of 14)) ∈ Q}.ncard ≤ Q.card :=
  C100_binding_fresh (Toy.of 45) 14 (hashOf 7) (hashOf 9) [1, 3] [1, 2, 3] 1 (by decide) (fun x j => if j = 1 then x else x + Toy.of 11) (fun _ _ => Toy.of 14)
    (fun _ => rfl) 3 Q

/-- `C100_challenge_fresh`. -/
example (Q : Finset Bytes) := C100_challenge_fresh (sha := sumSha) key.groupKey script1 (by decide) 2 (by decide) (by decide) (by decide +kernel) Q

/-- `C100_values`. -/
example := C100_values scripts_fresh scripts_length (v := script2) (by simp)

end Verif.Cases
