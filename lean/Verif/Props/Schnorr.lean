import Verif.Model.Schnorr
import Verif.Lemmas.Messages
import Verif.Lemmas.Toy

/-!
C16 and C17: the proofs of knowledge of key generation.
-/

namespace Verif.Props

open Verif

variable {G : Type} [RGroup G]

theorem challenge_eq (sha : Sha512) (id : ID) (ctx : Bytes) (h : 32 ≤ ctx.length) (pub M : G) :
    Schnorr.challenge sha id ctx pub M = .ok 0 := by
  unfold Schnorr.challenge
  rw [sliceTo_ok h, Outcome.ok_bind]
  simp [Scalar.setUniformBytes, sha.length_sum]

theorem challenge_panic (sha : Sha512) (id : ID) (ctx : Bytes) (h : ctx.length < 32) (pub M : G) :
    Schnorr.challenge sha id ctx pub M = .panic := by
  unfold Schnorr.challenge sliceTo
  rw [if_neg (by omega)]; rfl

/-- C16: an honest proof is made without a panic and verifies. -/
theorem C16_honest_verifies (sha : Sha512) (id : ID) (ctx : Bytes) (h : 32 ≤ ctx.length) (secret k : Scalar) :
    ∃ π, Schnorr.new sha id (secret • (base : G)) ctx secret k = .ok π ∧
      Schnorr.verify sha π id (secret • (base : G)) ctx = .ok true := by
  refine ⟨⟨0, secret * 0 + k⟩, ?_, ?_⟩
  · unfold Schnorr.new
    simp only []
    rw [challenge_eq sha id ctx h]; rfl
  · unfold Schnorr.verify
    simp only []
    rw [challenge_eq sha id ctx h]; rfl

example : 32 ≤ (List.replicate 32 (7 : UInt8)).length := by decide

/-- C17, the exact acceptance rule: with a context of at least 32 bytes, a proof is accepted if and only if its `S` is 0,
whatever the prover, the public element, the context and `R` are.  What C17 asks for (that acceptance binds prover, public
element and context) is false, see the two refutations below; missing here is any binding. -/
theorem C17_verify_exact_partial (sha : Sha512) (π : Schnorr) (id : ID) (pub : G) (ctx : Bytes) (h : 32 ≤ ctx.length) :
    Schnorr.verify sha π id pub ctx = .ok (decide (π.S = 0)) := by
  unfold Schnorr.verify
  simp only []
  rw [challenge_eq sha id ctx h]; rfl

/-- C17 refuted: one fixed proof, made from no secret, is accepted for every prover and every public element. -/
theorem C17_universal_forgery (sha : Sha512) :
    ∃ π : Schnorr, ∀ (id : ID) (pub : G) (ctx : Bytes), 32 ≤ ctx.length → Schnorr.verify sha π id pub ctx = .ok true :=
  ⟨⟨0, 0⟩, fun id pub ctx h => by rw [C17_verify_exact_partial _ _ _ _ _ h]; rfl⟩

/-- C17 refuted: a proof made by one prover for one secret is accepted for every other prover and public element. -/
theorem C17_proof_transfers (sha : Sha512) (id id' : ID) (ctx ctx' : Bytes) (h : 32 ≤ ctx.length) (h' : 32 ≤ ctx'.length)
    (secret k : Scalar) (pub' : G) (π : Schnorr)
    (hπ : Schnorr.new sha id (secret • (base : G)) ctx secret k = .ok π) : Schnorr.verify sha π id' pub' ctx' = .ok true := by
  unfold Schnorr.new at hπ
  simp only [] at hπ
  rw [challenge_eq sha id ctx h] at hπ
  obtain rfl := Outcome.ok.inj hπ
  rw [C17_verify_exact_partial _ _ _ _ _ h']; rfl

/-- C17 refuted: the response part of a proof can be replaced without effect on acceptance. -/
theorem C17_response_unused (sha : Sha512) (π : Schnorr) (R : Scalar) (id : ID) (pub : G) (ctx : Bytes) (h : 32 ≤ ctx.length) :
    Schnorr.verify sha ⟨π.S, R⟩ id pub ctx = Schnorr.verify sha π id pub ctx := by
  rw [C17_verify_exact_partial _ _ _ _ _ h, C17_verify_exact_partial _ _ _ _ _ h]

/-- The nonce is not hidden either: an honest proof contains the nonce itself as `R`, since the challenge is 0. -/
theorem C17_nonce_in_clear (sha : Sha512) (id : ID) (ctx : Bytes) (h : 32 ≤ ctx.length) (pub : G) (secret k : Scalar) :
    Schnorr.new sha id pub ctx secret k = .ok ⟨0, k⟩ := by
  unfold Schnorr.new
  simp only []
  rw [challenge_eq sha id ctx h]
  show Outcome.ok (⟨0, secret * 0 + k⟩ : Schnorr) = _
  rw [mul_zero, zero_add]

/-- A context shorter than 32 bytes makes both functions panic. -/
theorem C17_short_context_panics (sha : Sha512) (π : Schnorr) (id : ID) (pub : G) (ctx : Bytes) (h : ctx.length < 32)
    (secret k : Scalar) :
    Schnorr.verify sha π id pub ctx = .panic ∧ Schnorr.new sha id pub ctx secret k = .panic := by
  constructor
  · unfold Schnorr.verify; simp only []; rw [challenge_panic sha id ctx h]; rfl
  · unfold Schnorr.new; simp only []; rw [challenge_panic sha id ctx h]; rfl

end Verif.Props
