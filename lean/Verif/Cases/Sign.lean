import Verif.Cases.Session
import Verif.Props.SignAgree
import Verif.Props.SignView
import Verif.Props.SignBind

/-!
For each theorem of `Props/Sign.lean`, `SignAgree.lean`, `SignBind.lean`, `SignBlame.lean`, `SignNet.lean`, `SignView.lean` and the signing
theorems of `Order.lean` and `Helpers.lean` that has hypotheses, a concrete case that meets them.
-/

namespace Verif.Cases

open State Props Props.Demo Polynomial

/-- Signing over the small group. -/
abbrev SI : RoundImpl Toy (Sign.Round Toy) := Sign.impl sumSha

theorem sround_some (i : ID) (h : (sround i).isSome = true) : Sign.newRound ids (skey i) key [1, 2, 3] = .ok ((sround i).get h) := by
  have h' := Option.some_get h
  generalize (sround i).get h = r at h'
  unfold sround at h'
  split at h'
  · cases h'; assumption
  · cases h'

/-- The sessions of parties 1 and 2, who sign with party 3. -/
def r1 : Sign.Round Toy := (sround 1).get (by decide +kernel)
def r2 : Sign.Round Toy := (sround 2).get (by decide +kernel)
def start (r : Sign.Round Toy) : State Toy (Sign.Round Toy) := newBaseState SI r 10 0

theorem new1 : Sign.newSignState sumSha ids (skey 1) key [1, 2, 3] 10 0 = .ok (start r1) := newSignState_ok.mpr ⟨_, sround_some 1 _, rfl⟩
theorem new2 : Sign.newSignState sumSha ids (skey 2) key [1, 2, 3] 10 0 = .ok (start r2) := newSignState_ok.mpr ⟨_, sround_some 2 _, rfl⟩

/-- What happens in a session. -/
def safter (s : State Toy (Sign.Round Toy)) (ops : List (Op Toy)) : List (Op Toy × Ret Toy) × State Toy (Sign.Round Toy) := (run SI s ops).getD ([], s)

theorem shist {s : State Toy (Sign.Round Toy)} (ops : List (Op Toy)) (h : (run SI s ops).isSome = true) : Hist SI s (safter s ops).1 (safter s ops).2 := by
  obtain ⟨x, hx⟩ := Option.isSome_iff_exists.mp h
  refine run_hist (ops := ops) (hx.trans ?_)
  simp [safter, hx]

/-- Round 1 of party 1. -/
def sops1 : List (Op Toy) := [.processAll .insertion (coins [13, 14])]

/-- The commitments of the others, of which party 3 has sent different ones elsewhere. -/
def n2 : Message Toy := Message.newSign1 2 (Toy.of 15) (Toy.of 16)
def n3 : Message Toy := Message.newSign1 3 (Toy.of 11) (Toy.of 99)

/-- Round 2. -/
def sops2 : List (Op Toy) := sops1 ++ [.handle n2, .handle n3, .processAll .insertion (coins [])]

/-- All shares are there. -/
def sops3 : List (Op Toy) := sops2 ++ [.handle (Message.newSign2 2 (-19298)), .handle (Message.newSign2 3 33104)]

/-- The end. -/
def sops4 : List (Op Toy) := sops3 ++ [.processAll .reversed (coins [])]

/-- Party 2, with the same commitments. -/
def tops2 : List (Op Toy) := [.processAll .insertion (coins [15, 16]), .handle n3, .handle (Message.newSign1 1 (Toy.of 13) (Toy.of 14)), .processAll .insertion (coins [])]
def tops4 : List (Op Toy) := tops2 ++ [.handle (Message.newSign2 1 18190), .handle (Message.newSign2 3 33104), .processAll .reversed (coins [])]

/-- A bad share of party 2, and a commitment of party 3 that is the identity. -/
def sbad2 : List (Op Toy) := sops2 ++ [.handle (Message.newSign2 2 5), .handle (Message.newSign2 3 33104), .processAll .reversed (coins [])]
def sbad1 : List (Op Toy) := sops1 ++ [.handle n2, .handle (Message.newSign1 3 (Toy.of 11) (Toy.of 0)), .processAll .insertion (coins [])]

/-- A timeout. -/
def stimeout : List (Op Toy) := sops1 ++ [.handle n2, .advance 10, .fire, .callback]

/-- The states of party 1. -/
abbrev at1 (ops : List (Op Toy)) : List (Op Toy × Ret Toy) × State Toy (Sign.Round Toy) := safter (start r1) ops
abbrev at2 (ops : List (Op Toy)) : List (Op Toy × Ret Toy) × State Toy (Sign.Round Toy) := safter (start r2) ops

theorem s1 : Hist SI (start r1) (at1 sops1).1 (at1 sops1).2 := shist _ (by decide +kernel)
theorem s2 : Hist SI (start r1) (at1 sops2).1 (at1 sops2).2 := shist _ (by decide +kernel)
theorem s4 : Hist SI (start r1) (at1 sops4).1 (at1 sops4).2 := shist _ (by decide +kernel)
theorem t2 : Hist SI (start r2) (at2 tops2).1 (at2 tops2).2 := shist _ (by decide +kernel)
theorem t4 : Hist SI (start r2) (at2 tops4).1 (at2 tops4).2 := shist _ (by decide +kernel)
theorem b2 : Hist SI (start r1) (at1 sbad2).1 (at1 sbad2).2 := shist _ (by decide +kernel)
theorem b1 : Hist SI (start r1) (at1 sbad1).1 (at1 sbad1).2 := shist _ (by decide +kernel)

/-! ### Sign.lean -/

/-- `C42_accepted`, `C42_accepts`: two of the three parties of a key with threshold 1. -/
example := C42_accepted (skey 1) key ids [1, 2, 3] 10 0 _ new1
example := C42_accepts (sha := sumSha) (skey 1) key [1, 3] [1, 2, 3] 10 0 (by decide) (by decide) (by decide) (by decide +kernel)

/-- `C42_single_signer_accepted`. -/
example := C42_single_signer_accepted (sha := sumSha) (skey 1) key [1, 2, 3] 10 0 (by decide) (by decide) (by decide) (by decide +kernel)

/-- `C42_missing_share_crashes`: a key without the share of party 2. -/
example := C42_missing_share_crashes (sha := sumSha) (skey 1) ⟨ids, 1, [(1, Toy.of 45), (3, Toy.of 93)], Toy.of 21⟩ [1, 2] [1, 2, 3] 10 0
  (by decide) (by decide) (by decide) (by decide) ⟨2, by decide, by decide +kernel⟩

/-- `C42_refused`: the owner does not sign; party 7 is no party; a key with a party 0. -/
example := C42_refused (sha := sumSha) (skey 1) key [2, 3] [1, 2, 3] 10 0 (by decide +kernel) (Or.inl (by decide))
example := C42_refused (sha := sumSha) (skey 1) ⟨ids, 1, [(1, Toy.of 45), (7, Toy.of 93)], Toy.of 21⟩ [1, 7] [1, 2, 3] 10 0 (by decide +kernel) (Or.inr (Or.inl (by decide)))
example := C42_refused (sha := sumSha) (skey 1) ⟨[0, 1], 1, [(0, Toy.of 21), (1, Toy.of 45)], Toy.of 21⟩ [0, 1] [1, 2, 3] 10 0 (by decide +kernel) (Or.inr (Or.inr (by decide)))

/-- `C45_honest_share_passes`: nonces 13 and 14. -/
example := C45_honest_share_passes sumSha ids [1, 2, 3] (Toy.of 21) (fun i => (table i).1) (fun i => (table i).2) 1 13 14 45 (by decide +kernel) (by decide +kernel)

/-- `C44_no_signature_without_success`: in round 2, and after an abort. -/
example := And.intro (C44_no_signature_without_success (skey 1) key ids [1, 2, 3] 10 0 _ new1 (by decide) s2 (by decide +kernel))
  (C44_no_signature_without_success (skey 1) key ids [1, 2, 3] 10 0 _ new1 (by decide) b2 (by decide +kernel))

/-- `C44_output_verifies`, `C44_success_has_signature`, `C46_success_needs_key`: the session that succeeds. -/
example := C44_output_verifies (skey 1) key ids [1, 2, 3] 10 0 _ new1 (by decide) s4 ((at1 sops4).2.round.output.signature.get (by decide +kernel)) (by simp)
example := C44_success_has_signature (skey 1) key ids [1, 2, 3] 10 0 _ new1 (by decide) s4 (by decide +kernel) (by decide +kernel)
example := C46_success_needs_key (skey 1) key ids [1, 2, 3] 10 0 _ new1 (by decide) (by decide +kernel) s4 (by decide +kernel) (by decide +kernel)

/-- Party 1 signs alone. -/
theorem alone : ∃ s, Sign.newSignState toySha [1] (skey 1) key [1, 2, 3] 10 0 = .ok s :=
  C42_single_signer_accepted (sha := toySha) (skey 1) key [1, 2, 3] 10 0 (by decide) (by decide) (by decide) (by decide +kernel)

/-- `C46_t_signers_fail`: one signer, the secret polynomial is `21 + 24 X`, and the challenge is 5. -/
example : ∃ s, Sign.newSignState toySha [1] (skey 1) key [1, 2, 3] 10 0 = .ok s ∧ s.round.output.signature = none := by
  obtain ⟨s, hs⟩ := alone
  refine ⟨s, hs, (C46_t_signers_fail (skey 1) key [1] [1, 2, 3] 10 0 s hs (by decide) (C 21 + C 24 * X) ?_ ?_ ?_ ?_ .nil ?_).2⟩
  · simp only [eval_add, eval_C, eval_mul, eval_X, mul_zero, add_zero]; decide +kernel
  · simp only [eval_add, eval_C, eval_mul, eval_X]; decide +kernel
  · intro id hid
    simp only [eval_add, eval_C, eval_mul, eval_X]
    obtain rfl := List.mem_singleton.mp hid
    decide +kernel
  · have h : (24 : Scalar) ≠ 0 := by decide +kernel
    have := natDegree_linear (b := (21 : Scalar)) h
    rw [add_comm] at this
    simpa using this
  · intro D E _
    show ((Spec.leValue (5 :: List.replicate 63 0) : ℕ) : Scalar) ≠ 0
    decide +kernel

/-! ### SignAgree.lean -/

/-- Both have seen the commitments of the table. -/
theorem alike {ops ops' : List (Op Toy)} (h : inTable 1 (at1 ops).1 = true) (h' : inTable 2 (at2 ops').1 = true) :
    ∀ D E D' E', Spec.Commitments (skey 1).id ids (at1 ops).1 D E → Spec.Commitments (skey 2).id ids (at2 ops').1 D' E' → ∀ id ∈ ids, D id = D' id ∧ E id = E' id := by
  intro D E D' E' hc hc' id hid
  obtain ⟨g1, g2⟩ := of_inTable h hc id hid
  obtain ⟨g3, g4⟩ := of_inTable h' hc' id hid
  exact ⟨g1.trans g3.symm, g2.trans g4.symm⟩

/-- `C75_same_nonce_same_signature`, `C75_same_signature`: parties 1 and 2 at the end. -/
example := C75_same_nonce_same_signature (skey 1) (skey 2) key ids ids [1, 2, 3] 10 0 10 0 _ _ new1 new2 (by decide) (by decide) s4 t4
  ((at1 sops4).2.round.output.signature.get (by decide +kernel)) ((at2 tops4).2.round.output.signature.get (by decide +kernel)) (by simp) (by simp) (by decide +kernel)
example := C75_same_signature (skey 1) (skey 2) key ids [1, 2, 3] 10 0 10 0 _ _ new1 new2 (by decide) s4 t4 (alike (by decide +kernel) (by decide +kernel))
  (by decide +kernel) (by decide +kernel)

/-- `C75_share_accepted_iff`: the share of party 1 when party 2 waits for it. -/
example := C75_share_accepted_iff (skey 1) (skey 2) key ids [1, 2, 3] 10 0 10 0 _ _ new1 new2 (by decide) (by decide +kernel) s2 t2
  (Message.newSign2 1 18190) ⟨18190⟩ (by decide +kernel) rfl (by decide +kernel) (by decide +kernel)
  (fun D E D' E' hc hc' => alike (by decide +kernel) (by decide +kernel) D E D' E' hc hc' 1 (by decide))

/-- `C75_framed_refuted`. -/
example := C75_framed_refuted .reversed (Or.inr rfl)

/-! ### SignBind.lean -/

/-- `C48_commitment_list_injective`, `C48_binding_input_injective`: functions that agree on the signers only. -/
example := C48_commitment_list_injective ids ids (fun i => (table i).1) (fun i => (table i).2) (fun i => if i = 9 then Toy.of 1 else (table i).1)
  (fun i => (table i).2) (by decide +kernel)
example := C48_binding_input_injective sumSha 1 1 [1, 2, 3] [3, 2, 1] ids ids (fun i => (table i).1) (fun i => (table i).2)
  (fun i => if i = 9 then Toy.of 1 else (table i).1) (fun i => (table i).2) (by decide +kernel)

/-- A round in which all commitments are there. -/
def rcom : Sign.Round Toy := { r1 with parties := r1.parties.map fun x => (x.1, { x.2 with Di := some (table x.1).1, Ei := some (table x.1).2 }) }

/-- `C48_factors_are_hashes`. -/
example := C48_factors_are_hashes sumSha rcom (fun i => (table i).1) (fun i => (table i).2) (by
  intro id hid
  have h : ∀ id ∈ rcom.partyIDs, (rcom.parties.get? id).any (fun p => decide (p.Di = some (table id).1 ∧ p.Ei = some (table id).2)) = true := by decide +kernel
  obtain ⟨p, hp, hq⟩ := (Option.any_eq_true _ _).mp (h id hid)
  exact ⟨p, hp, by simpa using hq⟩)

/-! ### SignBlame.lean -/

/-- `C49_identity_refused`: round 1, after the message of party 2 was processed or not, a message of party 3. -/
example := C49_identity_refused (skey 1) key ids [1, 2, 3] 10 0 _ new1 (by decide) s1 (by decide +kernel) (by decide +kernel) [] _ (.nil _)
  (Message.newSign1 3 (Toy.of 11) (Toy.of 0)) ⟨Toy.of 11, Toy.of 0⟩ (by decide) rfl
example : ∃ r e, (Sign.impl sumSha).processMessage (at1 sops1).2.round (some n2) = .ok r ∧
    (Sign.impl sumSha).processMessage r (some (Message.newSign1 3 (Toy.of 11) (Toy.of 0))) = .err (e, r) ∧ e.partyID = 3 := by
  obtain ⟨r, hr⟩ := (C49_identity_refused (skey 1) key ids [1, 2, 3] 10 0 _ new1 (by decide) s1 (by decide +kernel) (by decide +kernel) [] _ (.nil _)
    n2 ⟨Toy.of 15, Toy.of 16⟩ (by decide) rfl).2 (by decide +kernel) (by decide +kernel)
  obtain ⟨e, he⟩ := (C49_identity_refused (skey 1) key ids [1, 2, 3] 10 0 _ new1 (by decide) s1 (by decide +kernel) (by decide +kernel) [some n2] r (.cons hr (.nil _))
    (Message.newSign1 3 (Toy.of 11) (Toy.of 0)) ⟨Toy.of 11, Toy.of 0⟩ (by decide) rfl).1 (by decide +kernel)
  exact ⟨r, e, hr, he⟩

/-- `C45_share_accepted_iff`: round 2. -/
example := C45_share_accepted_iff (skey 1) key ids [1, 2, 3] 10 0 _ new1 (by decide) s2 (by decide +kernel) (by decide +kernel)

/-- `C45_no_unattributed_failure`: a timeout; the weighted shares `3 * 45 - 3 * 69 + 93` are the group key 21. -/
example := C45_no_unattributed_failure (skey 1) key ids [1, 2, 3] 10 0 _ new1 (by decide) (by decide +kernel) (by decide +kernel)
  (shist stimeout (by decide +kernel)) ⟨0, 1, .timeout⟩ (by decide +kernel) rfl

/-- `C47_at_most_one_share`, `C64_sign_encodes`: at the end, when two messages were sent. -/
example := C47_at_most_one_share (skey 1) key ids [1, 2, 3] 10 0 _ new1 (by decide) s4
example := C64_sign_encodes (skey 1) key ids [1, 2, 3] 10 0 _ new1 (by decide) s4
example : (Spec.emitted (at1 sops4).1).length = 2 := by decide +kernel

/-- `C45_sent_share_valid`, `C45_honest_share_accepted`: the share of party 1, and party 2 that waits for it. -/
example := C45_sent_share_valid (skey 1) key ids [1, 2, 3] 10 0 _ new1 (by decide) (by decide +kernel) s2 (Message.newSign2 1 18190) ⟨18190⟩ (by decide +kernel) rfl
example := C45_honest_share_accepted (skey 1) (skey 2) key ids [1, 2, 3] 10 0 10 0 _ _ new1 new2 (by decide) (by decide +kernel) s2 t2
  (alike (by decide +kernel) (by decide +kernel)) (Message.newSign2 1 18190) ⟨18190⟩ (by decide +kernel) rfl (by decide +kernel) (by decide +kernel) [] _ (.nil _)

/-- `C30_sign_blame`: in round 2 and in round 1. -/
example := C30_sign_blame (skey 1) key ids [1, 2, 3] 10 0 _ new1 (by decide) b2 ⟨2, 2, .badSigShare⟩ (by decide +kernel) (by decide)
example := C30_sign_blame (skey 1) key ids [1, 2, 3] 10 0 _ new1 (by decide) b1 ⟨3, 1, .identityCommitment⟩ (by decide +kernel) (by decide)

/-- `C66_sign_wiped`: after success and after an abort. -/
example := And.intro (C66_sign_wiped (skey 1) key ids [1, 2, 3] 10 0 _ new1 s4 (by decide +kernel)) (C66_sign_wiped (skey 1) key ids [1, 2, 3] 10 0 _ new1 b2 (by decide +kernel))

/-- `C33_sign_timeout_safe`: before the first `ProcessAll`, with the timer fired. -/
def slate : List (Op Toy) := [.advance 10, .fire]
example := C33_sign_timeout_safe (skey 1) key ids [1, 2, 3] 10 0 _ new1 (shist slate (by decide +kernel))

/-! ### SignNet.lean -/

/-- `C43_honest_sign`, `C43_keygen_then_sign`: parties 1 and 3 of a key generation by three; see the proof of `Demo.network`. -/
example := network (fun _ => coins [5, 6, 7]) (fun _ => coins [3, 4]) (by decide +kernel) [1, 2, 3]

/-! ### Order.lean -/

theorem sstart1 : Sign.Start r1 (skey 1) key ids [1, 2, 3] := ⟨sround_some 1 _, by decide⟩

/-- `C31_sign_order`: the commitments of round 1 in the other order. -/
example : ∃ u u' out, processAll SI .insertion (coins []) (deliver SI (at1 sops1).2 [n2, n3]) = some (u, out) ∧
    processAll SI .reversed (coins []) (deliver SI (at1 sops1).2 [n3, n2]) = some (u', out) ∧ Spec.SameState Eq u u' := by
  have h : ((processAll SI .insertion (coins []) (deliver SI (at1 sops1).2 [n2, n3])).map fun x => x.1.err) = some none := by decide +kernel
  obtain ⟨⟨u, out⟩, h1, h2⟩ := Option.map_eq_some_iff.mp h
  have hm : Spec.RoundMessages SI (at1 sops1).2 [n2, n3] := by
    refine ⟨?_, ?_, by decide, by decide +kernel⟩
    · have e1 : SI.selfID (at1 sops1).2.round = 1 := by decide +kernel
      have e2 : SI.partyIDs (at1 sops1).2.round = ids := by decide +kernel
      rw [e1, e2]
      intro m hm
      fin_cases hm <;> exact ⟨by decide, Or.inl rfl, by decide +kernel⟩
    · decide +kernel
  obtain ⟨u', h3, h4⟩ := C31_sign_order sstart1 s1 (by decide +kernel) (List.Perm.swap _ _ _) hm .insertion .reversed (coins []) h1 h2
  exact ⟨u, u', out, h1, h3, h4⟩

/-! ### SignView.lean -/

/-- `C90_programmed`. -/
example := C90_programmed (b := digestB) (hb := by decide) (i := 1) (ids := [1, 3]) (by decide)
  (show Spec.Unused toySha [1, 3] [1, 2, 3] key.groupKey 1 simulated.D simulated.E digestA (by decide) by unfold Spec.Unused; decide +kernel)

end Verif.Cases
