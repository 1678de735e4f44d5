import Verif.Cases.Network
import Verif.Cases.Sign
import Verif.Props.RandomView

/-!
For each theorem of `Props/Random.lean` and `Props/RandomView.lean` that has hypotheses, a concrete case that meets them.
-/

namespace Verif.Cases

open State Props Props.Demo Verif.Random

/-- A source that counts its calls in every byte. -/
def counting : Source := fun k n => (List.replicate n (UInt8.ofNat (k + 1)), false)

/-- What it gives. -/
def countingBlock (k : Nat) : Spec.Block := ⟨List.replicate 64 (UInt8.ofNat (k + 1)), List.length_replicate ..⟩

theorem counting_delivers : Spec.Delivers counting countingBlock := fun _ => rfl

/-- A source that gives one byte per call. -/
def slow : Source := fun k _ => ([UInt8.ofNat (k + 1)], false)

/-- A source of which only the first call succeeds. -/
def broken : Source := fun k n => if k = 0 then counting k n else ([], true)

example := C92_keygen (sha := toySha) counting countingBlock counting_delivers (round0 ids 1 1) (by decide +kernel) 0

/-- The message of `C92_keygen` is sent. -/
example : ((keygen0 toySha counting (round0 ids 1 1) 0).map fun x => (x.1 matches .ok (_, [_]), x.2)) = some (true, 3) := by
  rw [C92_keygen counting countingBlock counting_delivers _ (by decide +kernel)]
  decide +kernel

theorem r1_self : r1.parties.get? r1.selfID ≠ none := by
  rw [← Option.isSome_iff_ne_none]
  decide +kernel

example := C92_sign counting countingBlock counting_delivers r1 r1_self 5

/-- The nonces of `C92_sign` are different in the next session. -/
example : ∃ r r' m m', sign0 counting r1 0 = some (.ok (r, m), 2) ∧ sign0 counting r1 2 = some (.ok (r', m'), 4) ∧ r.d ≠ r'.d ∧ r.e ≠ r'.e ∧ r.d ≠ r.e := by
  rw [C92_sign counting countingBlock counting_delivers r1 r1_self, C92_sign counting countingBlock counting_delivers r1 r1_self]
  obtain ⟨p, hp⟩ := Option.ne_none_iff_exists'.mp r1_self
  simp only [Sign.generate0, hp, Outcome.deref, Outcome.ok_bind]
  refine ⟨_, _, _, _, rfl, rfl, ?_, ?_, ?_⟩
  · show Spec.coinsFrom countingBlock 0 0 ≠ Spec.coinsFrom countingBlock 2 0
    decide +kernel
  · show Spec.coinsFrom countingBlock 0 1 ≠ Spec.coinsFrom countingBlock 2 1
    decide +kernel
  · show Spec.coinsFrom countingBlock 0 0 ≠ Spec.coinsFrom countingBlock 0 1
    decide +kernel

example := C92_generateSecrets (G := Toy) counting countingBlock counting_delivers ids 1 (by decide) 0

example := C92_coefficient (ε := GoErr) counting 0 1 (Spec.scalarOf (countingBlock 0)) (coefficient_full counting_delivers 0)

/-- `C92_coefficient`, `C92_pieces` with 64 calls for one coefficient. -/
theorem slow_coefficient : coefficient (ε := GoErr) slow 0 = some (.ok (Spec.scalarOf ⟨(List.range 64).map fun k => UInt8.ofNat (k + 1), by simp⟩), 64) := by
  have := C92_pieces (ε := GoErr) slow ⟨(List.range 64).map fun k => UInt8.ofNat (k + 1), by simp⟩ ((List.range 64).map fun k => [UInt8.ofNat (k + 1)]) 0
    (by decide) (by decide) (by intro i hi m; simp [slow])
  simpa using this

example := And.intro slow_coefficient (C92_coefficient slow 0 64 _ slow_coefficient)

example := C92_keygen_rest (sha := toySha) (st ops2).round (by decide +kernel) .insertion (coins [5]) (coins [6])

example := C92_sign_rest (sha := sumSha) (at1 sops1).2.round (by decide +kernel) .insertion (coins [5]) (coins [6])

/-- Each failure of `C92_fails`. -/
example := And.intro ((C92_fails (sha := toySha) broken 1 (round0 ids 1 1) r1 r1_self).1 rfl) (And.intro ((C92_fails (sha := toySha) broken 3 (round0 ids 1 1) r1 r1_self).2.1 rfl)
  ((C92_fails (sha := toySha) broken 0 (round0 ids 1 1) r1 r1_self).2.2 rfl rfl))

example := C92_short_read slow (fun k => UInt8.ofNat (k + 1)) (fun _ _ => rfl) r1 r1_self 0

example (kcoins : ID → Coins) (message : Bytes) : ∃ (secret : ID → SecretShare Toy) (pub : ID → Public Toy) (init : ID → State Toy (Sign.Round Toy)),
    Spec.SignSetup toySha ids 1 (Spec.jointPoly ids 1 kcoins) message secret pub (fun _ => 10) (fun _ => 0) init ∧ (0.9999 : ℝ) ≤ 1 - 2 * ids.length / 2 ^ 252 := by
  obtain ⟨secret, pub, init, h⟩ := setup_sign3 kcoins message
  have := C92_signing h
  exact ⟨secret, pub, init, h, by norm_num [ids]⟩

example := C92_secrecy (t := 2) ![3, 7] (by decide) (by decide) 10 11 fun s => s 0 = 4 ∧ s 1 = 5

/-- `C92_view` for party 1 of three, of which party 3 wants to know whether the first message sent has the scalar 7 as nonce. -/
example := C92_view (G := Toy) (sha := toySha) (self := 1) (ids := ids) (t := 1) (timeout := 10) (now := 0) 5 (by decide) (fun _ => 3) (fun i j _ => Subsingleton.elim (α := Fin 1) i j)
  (by decide) (by decide) session1 fun h => ∃ ord com, (Op.processAll ord (fun _ => 0), Ret.messages [Message.newKeyGen1 1 ⟨0, 7⟩ com]) ∈ h

end Verif.Cases
