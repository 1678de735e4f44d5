import Verif.Cases.Session
import Verif.Props.KeygenRogue
import Verif.Props.KeygenJson

/-!
For each theorem of `Props/Keygen.lean`, `KeygenAbort.lean`, `KeygenOut.lean`, `KeygenRogue.lean`, `KeygenNet.lean`, `Order.lean` and
`Helpers.lean` that has hypotheses, a concrete case that meets them.
-/

namespace Verif.Cases

open State Props Props.Demo

/-- `C34_accepted`, `C34_accepts`, `C34_refused`: three parties; threshold 0, threshold 3, and party 4. -/
example := C34_accepted 1 ids 1 10 0 _ session1
example := C34_accepts (G := Toy) (sha := toySha) 2 ids 2 10 0 (by decide) (by decide) (by decide) (by decide) (by decide)
example := And.intro (C34_refused (G := Toy) (sha := toySha) 1 ids 0 10 0 (by decide))
  (And.intro (C34_refused (G := Toy) (sha := toySha) 1 ids 3 10 0 (by decide)) (C34_refused (G := Toy) (sha := toySha) 4 ids 1 10 0 (by decide)))

/-- `C38_shares_match`: the session that succeeds. -/
example := C38_shares_match 1 ids 1 10 0 _ session1 (by decide) hist3 (by decide +kernel) (by decide +kernel)

/-- `C55_keygen`, `C83_keygen`: the same. -/
example := C55_keygen 1 ids 1 10 0 _ session1 (by decide) hist3 (by decide +kernel) (by decide +kernel)
example := C83_keygen 1 ids 1 10 0 _ session1 (by decide) hist3 (by decide +kernel) (by decide +kernel)

/-- Party 2 sends a share that does not match its commitments. -/
def badShare : List (Op Toy) := ops2 ++ [.handle (Message.newKeyGen2 2 1 16)]

/-- The abort in round 2. -/
def abort2 : List (Op Toy) := badShare ++ [.processAll .insertion (coins [])]

/-- Party 2 sends a proof that does not verify (the challenge is always 5 here). -/
def abort1 : List (Op Toy) := ops0 ++ [.handle (Message.newKeyGen1 2 ⟨5, 1⟩ [Toy.of 7, Toy.of 8]), .handle com3, .processAll .insertion (coins [])]

/-- `C30_keygen_blame`: in round 2, and in round 1. -/
example := C30_keygen_blame 1 ids 1 10 0 _ session1 (by decide) (hist abort2 (by decide +kernel)) ⟨2, 2, .vssFailed⟩ (by decide +kernel) (by decide)
example := C30_keygen_blame 1 ids 1 10 0 _ session1 (by decide) (hist abort1 (by decide +kernel)) ⟨2, 1, .zkFailed⟩ (by decide +kernel) (by decide)

/-- A message that `Spec.GotCommitments` speaks of. -/
theorem got {ops : List (Op Toy)} {m : Message Toy} {k : KeyGen1 Toy} (h : accepted m (after ops).1 = true) (h1 : Spec.ForUs 1 ids m)
    (h2 : m.header.type = 1) (h3 : m.keyGen1 = some k) : Spec.GotCommitments 1 ids (after ops).1 m.header.fromID k.commitments :=
  ⟨m, k, mem_of_accepted h, h1, rfl, h2, h3, rfl⟩

/-- `C38_mismatch_aborts`: just before the abort in round 2. -/
example := C38_mismatch_aborts 1 ids 1 10 0 _ session1 (by decide) (hist badShare (by decide +kernel)) (by decide +kernel) (by decide +kernel) (by decide +kernel)
  (fun m hm => by
    have h : ∀ x ∈ (st badShare).received, x.2.all (fun m => decide (m.keyGen2 ≠ none)) = true := by decide +kernel
    simpa using h _ hm)
  ⟨Message.newKeyGen2 2 1 16, ⟨16⟩, [Toy.of 7, Toy.of 8], by decide +kernel, rfl, got (m := com2) (by decide +kernel) (by decide +kernel) rfl rfl,
    by decide +kernel⟩ .reversed (coins [])

/-- `C41_output_iff_success`: before the end, after the end, after an abort. -/
example := And.intro (C41_output_iff_success 1 ids 1 10 0 _ session1 (by decide) hist2)
  (And.intro (C41_output_iff_success 1 ids 1 10 0 _ session1 (by decide) hist3)
    (C41_output_iff_success 1 ids 1 10 0 _ session1 (by decide) (hist abort2 (by decide +kernel))))

/-- `C41_output_final`: messages and time after the end. -/
example := C41_output_final (sha := toySha) (hist_more (s := st ops3) [.handle share2, .processAll .insertion (coins [1]), .advance 100, .fire, .callback]
  (by decide +kernel)) (by decide +kernel)

/-- `C66_keygen_wiped`: after success and after an abort. -/
example := And.intro (C66_keygen_wiped 1 ids 1 10 0 _ session1 (by decide) hist3 (by decide +kernel))
  (C66_keygen_wiped 1 ids 1 10 0 _ session1 (by decide) (hist abort2 (by decide +kernel)) (by decide +kernel))

/-- The timer fires in round 1. -/
def late : List (Op Toy) := ops0 ++ [.advance 100, .fire]

/-- `C33_keygen_timeout_crashes`, `C33_keygen_timeout_safe_partial`. -/
example := C33_keygen_timeout_crashes 1 ids 1 10 0 (by decide) _ session1
example := C33_keygen_timeout_safe_partial 1 ids 1 10 0 _ session1 (by decide)
  (hist late (by decide +kernel)) (by decide +kernel)

/-- Party 2 sends no commitments. -/
def empty1 : List (Op Toy) := ops0 ++ [.handle (Message.newKeyGen1 2 ⟨0, 1⟩ []), .handle (Message.newKeyGen1 3 ⟨0, 0⟩ [Toy.of 9])]

/-- `C22_bad_payload_crashes`. -/
example := C22_bad_payload_crashes 1 ids 1 10 0 _ session1 (by decide) (hist empty1 (by decide +kernel)) (by decide +kernel) (by decide +kernel) (by decide +kernel)
  (Message.newKeyGen1 2 ⟨0, 1⟩ []) (by decide +kernel) (Or.inr ⟨_, rfl, rfl⟩)
  (fun m hm hne => by
    have h : (st empty1).received = [(2, some (Message.newKeyGen1 2 ⟨0, 1⟩ [])), (3, some (Message.newKeyGen1 3 ⟨0, 0⟩ [Toy.of 9]))] := by decide +kernel
    rw [h] at hm
    simp only [List.mem_cons, Prod.mk.injEq, Option.some.injEq, List.not_mem_nil, or_false] at hm
    rcases hm with ⟨_, rfl⟩ | ⟨_, rfl⟩
    · exact absurd rfl hne
    · exact ⟨_, rfl, by simp, rfl⟩) .insertion (coins [])

/-- `C39_public_on_polynomial`, `C39_own_share_exact`, `C39_own_share_partial`. -/
example := C39_public_on_polynomial 1 ids 1 10 0 _ session1 (by decide) hist3 (by decide +kernel) (by decide +kernel)
example := C39_own_share_exact 1 ids 1 10 0 _ session1 (by decide) hist3 (by decide +kernel) (by decide +kernel)
example := C39_own_share_partial 1 ids 1 10 0 _ session1 (by decide) hist3 (by decide +kernel) (by decide +kernel)
  (fun id c ⟨m, k, h1, _, _, _, h5, h6⟩ => by
    have h : (after ops3).1.all (fun x => match x with
      | (.handle m, .handled none) => m.keyGen1.all fun k => decide (k.commitments.length = 2)
      | _ => true) = true := by decide +kernel
    have h := List.all_eq_true.mp h _ h1
    simp only [h5] at h
    rw [← h6]
    simpa using h)

/-- `C40_rogue_key_refuted`: party 2 of two is the attacker. -/
example := C40_rogue_key_refuted (G := Toy) toySha [1, 2] (by decide) (by decide) 1 2 (by decide) [1] (by decide) (by decide) (by decide)

/-- Party 3 of the same key generation. -/
def ops3' : List (Op Toy) := [.processAll .insertion (coins [9, 10, 1]), .handle com2, .handle (Message.newKeyGen1 1 ⟨0, 7⟩ [Toy.of 5, Toy.of 6]),
  .processAll .insertion (coins []), .handle (Message.newKeyGen2 1 3 23), .handle (Message.newKeyGen2 2 3 31), .processAll .insertion (coins [])]

/-- Party 1 or 3. -/
def sess (j : ID) : State Toy (Keygen.Round Toy) := session ids 1 j
def run13 (j : ID) : List (Op Toy × Ret Toy) × State Toy (Keygen.Round Toy) := more (sess j) (if j = 1 then ops3 else ops3')

theorem got' {h : List (Op Toy × Ret Toy)} {j : ID} {m : Message Toy} {k : KeyGen1 Toy} (h0 : accepted m h = true) (h1 : Spec.ForUs j ids m)
    (h2 : m.header.type = 1) (h3 : m.keyGen1 = some k) : Spec.GotCommitments j ids h m.header.fromID k.commitments :=
  ⟨m, k, mem_of_accepted h0, h1, rfl, h2, h3, rfl⟩

/-- `C40_contribution_known_partial`: parties 1 and 3 are honest, party 2 is the dealer. -/
example := C40_contribution_known_partial toySha ids (by decide) 1 2 (by decide) [Toy.of 7, Toy.of 8] (by decide) [1, 3] (by decide) (by decide) (by decide)
  (fun _ => 10) (fun _ => 0) sess (fun j => (run13 j).2) (fun j => (run13 j).1)
  (by intro j hj; fin_cases hj <;> exact session_ok (by decide) (by decide) (by decide +kernel))
  (by intro j hj; exact hist_more _ (by fin_cases hj <;> decide +kernel))
  (by decide +kernel)
  (by intro j hj; fin_cases hj <;> exact got' (m := com2) (by decide +kernel) (by decide +kernel) rfl rfl)

/-- `C35_honest_keygen`, `C36_honest_keygen_completes`: at the start, for every choice of coins. -/
example (c : ID → Coins) := C35_honest_keygen keygen_setup c _ (.refl _)
example (c : ID → Coins) := C36_honest_keygen_completes keygen_setup c _ (.refl _)

/-- `C35_honest_keygen`, `C37_shares_interpolate`: at the end, which exists by C36. -/
example (c : ID → Coins) : ∃ N, Spec.Path KI ids c (Spec.Net.start (session ids 1)) N ∧ (∀ i ∈ ids, Spec.KeygenResult ids 1 (Spec.jointPoly ids 1 c) i (N.state i).round) ∧
    ∃ (secret : ID → SecretShare Toy) (pub : Public Toy), pub.groupKey = ([1, 3].map fun i => Spec.weight i [1, 3] * (secret i).secret).sum • (base : Toy) := by
  obtain ⟨N, hN, hd⟩ := C36_honest_keygen_completes keygen_setup c _ (.refl _)
  have hsub : ∀ i ∈ [(1 : ID), 3], i ∈ ids := by decide
  obtain ⟨pub, hpub, _⟩ := (hd 2 (by decide)).2.2.2
  exact ⟨N, hN, fun i hi => (C35_honest_keygen keygen_setup c N hN).2.2.2.2 i hi (hd i hi).1, fun i => (N.state i).round.output.secretKey.getD ⟨0, 0, Toy.of 0⟩, pub,
    C37_shares_interpolate keygen_setup c N hN [1, 3] (by decide) hsub (by decide) (fun i hi => (hd i (hsub i hi)).1) _
      (fun i hi => by simp [(hd i (hsub i hi)).2.2.1]) 2 (by decide) (hd 2 (by decide)).1 pub hpub⟩

/-- `C37_few_shares`: one share of a sharing with threshold 1. -/
example := C37_few_shares 1 ids (fun _ => coins [5, 6]) [2] (by decide) (by decide) 42

theorem start1 : Keygen.Start (round0 ids 1 1) 1 ids 1 := by
  obtain ⟨r₀, h1, h2⟩ := start_of_new session1 (by decide)
  have h : r₀ = round0 ids 1 1 := (congrArg State.round h2).symm
  rwa [h] at h1

/-- `C31_keygen_order`: the two broadcasts of round 1 in the other order. -/
example : ∃ s u u' out, (∃ h, Hist KI (session ids 1 1) h s) ∧ processAll KI .insertion (coins []) (deliver KI s [com2, com3]) = some (u, out) ∧
    processAll KI .reversed (coins []) (deliver KI s [com3, com2]) = some (u', out) ∧ Spec.SameState Spec.SameKeygen u u' := by
  obtain ⟨h, s, h1, h2, ⟨u, out, h3, h4⟩, h5⟩ := keygen_round1
  obtain ⟨u', h6, h7⟩ := C31_keygen_order start1 h1 h2 (List.Perm.swap _ _ _) h5 .insertion .reversed (coins []) h3 h4
  exact ⟨s, u, u', out, ⟨h, h1⟩, h3, h6, h7⟩

/-- `C67_keygen_sends`, `C64_keygen_encodes`: in round 1, when one message was sent, and at the end, when three were. -/
example := And.intro (C67_keygen_sends 1 ids 1 10 0 _ session1 (by decide) hist1) (C67_keygen_sends 1 ids 1 10 0 _ session1 (by decide) hist3)
example : (Spec.emitted (after ops1).1).length = 1 ∧ (Spec.emitted (after ops3).1).length = 3 := by decide +kernel
example := C64_keygen_encodes 1 ids 1 10 0 _ session1 (by decide) hist3

end Verif.Cases
