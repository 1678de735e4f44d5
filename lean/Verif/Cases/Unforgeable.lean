import Verif.Props.Unforgeable
import Verif.Cases.Life

/-!
For each theorem of `Props/Unforgeable.lean` that has hypotheses, a concrete case that meets them.
-/

namespace Verif.Cases

open State Props Props.Demo Verif.Spec

/-- The key of the secret 21; the honest signer 1 has drawn the nonces 13 and 14 for one session, and 17 and 18 for another. -/
def vault : Secrets 2 := ⟨21, fun k => if k = 0 then 13 else 17, fun k => if k = 0 then 14 else 18⟩

/-- Signer 3 has the share 93, so that of signer 1 is two thirds of the secret plus 31: this is 45. -/
def vaultBoard : Board Toy 2 := vault.board (fun _ => 1) (fun _ => 2 / 3) fun _ => 31
example : (2 / 3 * 21 + 31 : Scalar) = 45 := by decide +kernel

/-- The request of session 0: all three sign, with the commitments of the table. -/
def ask0 : Request Toy := ⟨[1, 2, 3], [1, 2, 3], fun i => (table i).1, fun i => (table i).2⟩

/-- The request of session 1: signers 1 and 3 sign `n`. -/
def ask1 (n : UInt8) : Request Toy := ⟨[1, 3], [n], fun i => if i = 1 then Toy.of 17 else Toy.of 4, fun i => if i = 1 then Toy.of 18 else Toy.of 5⟩

/-- Somebody who knows the secret of the key, asks for a share, hashes the string of a challenge, asks for another share, and says a signature for `[9]`. -/
def insider : Attacker Toy 2 :=
  .sign 0 ask0 fun _ => .hash (challengeInput (Toy.of 5) (Toy.of 21) [9]) fun h => .sign 1 (ask1 (h.getD 0 0)) fun _ =>
    .say [9] ⟨Toy.of 5, 5 + (leValue h : Scalar) * 21⟩

/-- Toy logarithms. -/
def toyLog (a : Toy) : Scalar := a
theorem toyLog_spec (a : Scalar) : toyLog (a • (base : Toy)) = a := mul_one a

/-- It forges, and both requests are answered. -/
example : (insider.play vaultBoard sumSha (vault.share vaultBoard sumSha) []).Forged sumSha (Toy.of 21) := by unfold Ending.Forged; decide +kernel
example : (insider.play vaultBoard sumSha (vault.share vaultBoard sumSha) []).signed.map Prod.fst = [0, 1] := by decide +kernel

/-- A session is answered once. -/
example : ((Attacker.sign 0 ask0 fun _ => .sign 0 ask0 fun _ => .say [9] ⟨Toy.of 5, 0⟩ : Attacker Toy 2).play vaultBoard sumSha (vault.share vaultBoard sumSha) []).signed.length = 1 := by
  decide +kernel

/-- Run twice, it gives the secret and the four nonces; four logarithms are asked for.  The request of session 0 comes before the fork and is the same in both
runs; that of session 1 is another. -/
example : (solve vaultBoard insider sumSha ⟨hashOf 3, by decide⟩).value toyLog = (21, [(13, 14), (17, 18)]) := by decide +kernel
example : ((solve vaultBoard insider sumSha ⟨hashOf 3, by decide⟩).asked toyLog).length = 4 := C102_logs _ _ _ _ _

/-- The parties 3 and 7 of threshold 2, who take part in a session of signer 1, and then put their shares together as if these were all that is needed. -/
def pair (y : Fin (UInt16.toNat 2) → Scalar) (C : List Toy) (D E : Fin 1 → Toy) (toss : Bool) : Attacker Toy 1 :=
  .sign 0 ⟨[1, 3, 7], [1, 2, 3], fun i => if i = 1 then D 0 else Toy.of 4, fun i => if i = 1 then E 0 else Toy.of 5⟩ fun z =>
    .hash (challengeInput (Toy.of 5) (C.getD 0 (Toy.of 0)) [9]) fun h =>
      .say [9] ⟨Toy.of 5, 5 + (leValue h : Scalar) * (y ⟨0, by decide⟩ + y ⟨1, by decide⟩) + if toss then z.getD 0 else 0⟩

def pairIDs (j : Fin (UInt16.toNat 2)) : ID := if j.val = 0 then 3 else 7

/-- `C102_bounded`, `C102_coalition`, `C102_forgery_bound`: for this coalition. -/
example : ∃ (dom : Finset (List UInt8)) (N : Nat),
    (prob fun p : (Secrets 1 × (Fin (UInt16.toNat 2) → Scalar)) × Bool × (dom → Block) =>
      (Coalition.play pair pairIDs (fun _ => 1) (oracle sumSha dom p.2.2) p.1.1 p.1.2 p.2.1).Forged (oracle sumSha dom p.2.2) (p.1.1.x • base)) ≤
      Real.sqrt (N * (prob fun p : (Secrets 1 × (Fin (UInt16.toNat 2) → Scalar)) × Bool × (dom → Block) × Block =>
        (Coalition.solve pair pairIDs (fun _ => 1) (oracle sumSha dom p.2.2.1) (p.1.1.x • base) (fun k => p.1.1.d k • base) (fun k => p.1.1.e k • base) p.1.2 p.2.1
          p.2.2.2).value toyLog = (p.1.1.x, List.ofFn fun k => (p.1.1.d k, p.1.1.e k))) + N ^ 3 / 2 ^ 250) := by
  have hT : Function.Injective pairIDs := by unfold pairIDs; decide +kernel
  have h0 : ∀ j, pairIDs j ≠ 0 := by unfold pairIDs; decide +kernel
  obtain ⟨dom, N, h⟩ := C102_bounded (t := 2) pairIDs hT h0 (fun _ => 1) pair
  have := C102_coalition sumSha (t := 2) pairIDs hT h0 (fun _ => 1) pair dom N (fun s c toss O => h _ s c toss) toyLog toyLog_spec
  exact ⟨dom, N, C102_forgery_bound sumSha (t := 2) pairIDs hT h0 (fun _ => 1) pair dom N (fun s c toss O => h _ s c toss) toyLog toyLog_spec _ le_rfl⟩

/-- The same two, who contribute `1 + 2 X + 3 X²` or `4 + 5 X + 6 X²` to the key. -/
def joining (y : Fin (UInt16.toNat 2) → Scalar) (C : List Toy) (D E : Fin 1 → Toy) (toss : Bool) : (Fin (UInt16.toNat 2 + 1) → Scalar) × Attacker Toy 1 :=
  (fun i => i.val + if toss then 1 else 4, pair y C D E toss)

/-- `C102_joiners_bounded`, `C102_joiners`. -/
example : ∃ (dom : Finset (List UInt8)) (N : Nat),
    let ε := prob fun p : (Secrets 1 × (Fin (UInt16.toNat 2) → Scalar) × Bool) × (dom → Block) =>
      (Joiners.play joining pairIDs (fun _ => 1) (oracle sumSha dom p.2) p.1.1 p.1.2.1 p.1.2.2).Forged (oracle sumSha dom p.2)
        ((Joiners.secrets joining pairIDs p.1.1 p.1.2.1 p.1.2.2).x • base)
    ε ^ 2 / N - N ^ 2 / 2 ^ 250 ≤ prob fun p : (Secrets 1 × (Fin (UInt16.toNat 2) → Scalar) × Bool) × (dom → Block) × Block =>
      (Joiners.solve joining pairIDs (fun _ => 1) (oracle sumSha dom p.2.1) (p.1.1.x • base) (fun k => p.1.1.d k • base) (fun k => p.1.1.e k • base) p.1.2.1
        p.1.2.2 p.2.2).value toyLog = (p.1.1.x, List.ofFn fun k => (p.1.1.d k, p.1.1.e k)) := by
  have hT : Function.Injective pairIDs := by unfold pairIDs; decide +kernel
  have h0 : ∀ j, pairIDs j ≠ 0 := by unfold pairIDs; decide +kernel
  obtain ⟨dom, N, h⟩ := C102_joiners_bounded (t := 2) pairIDs hT h0 (fun _ => 1) joining
  exact ⟨dom, N, C102_joiners sumSha (t := 2) pairIDs hT h0 (fun _ => 1) joining dom N (fun s c toss O => h _ s c toss) toyLog toyLog_spec⟩

/-- `C102_forger_gives_logs`: somebody who asks for no hash value; the strings hashed are those of `dull'`, for every oracle. -/
def dull' : Attacker Toy 2 := .say [9] ⟨Toy.of 5, 7⟩
example := C102_forger_gives_logs (T := Unit) sumSha vault (fun _ => 1) (fun _ => 2 / 3) (fun _ => 31) (fun _ => dull')
  {challengeInput (Toy.of 5) (vault.x • base) [9]} 1 (fun _ _ => ⟨fun x hx => by
    have : x = challengeInput (Toy.of 5) (vault.x • base) [9] := List.mem_singleton.mp hx
    rw [this]
    exact Finset.mem_singleton_self _, le_refl 1⟩) toyLog toyLog_spec

/-- `C102_session`: the session of signer 1, after it has sent its share. -/
example := C102_session (skey 1) key ids [1, 2, 3] 10 0 _ new1 (by decide) vault (fun _ => 1) (fun _ => 2 / 3) (fun _ => 31) 0 rfl (by decide +kernel)
  (by decide +kernel) s2 (by decide +kernel)

end Verif.Cases
