import Verif.Props.SignView
import Verif.Props.Schnorr

/-!
C98: what the code hashes, and for which purposes two hashed strings can be the same.
-/

namespace Verif.Props

open State Sign Outcome

variable {G : Type} [RGroup G]

/-- The constant with which the strings of the binding factors start. -/
def Spec.tag : Bytes := "FROST-SHA512".toList.map fun c => UInt8.ofNat c.toNat

theorem tag_length : Spec.tag.length = 12 := by decide +kernel

theorem tag_eq : Spec.tag = hashDomainSeparation := by decide +kernel

theorem bindingInput_tag (sha : Sha512) (i : ID) (m B : Bytes) : Spec.bindingInput sha i m B = Spec.tag ++ (Spec.be2 i ++ (sha.sum m ++ B)) := by
  unfold Spec.bindingInput Spec.tag
  simp only [List.append_assoc]

/-- What is hashed when signers `ids` sign `message` under the key `A`: the message; for the binding factors; for the challenge. -/
inductive Spec.Hashed (sha : Sha512) (ids : List ID) (message : Bytes) (A : G) : Bytes → Prop
  | digest : Spec.Hashed sha ids message A message
  | binding (i : ID) (hi : i ∈ ids) (D E : ID → G) : Spec.Hashed sha ids message A (Spec.bindingInput sha i message (Spec.commitmentList ids D E))
  | challenge (R : G) : Spec.Hashed sha ids message A (Spec.challengeInput R A message)

theorem commitmentList_length (ids : List ID) (D E : ID → G) : (Spec.commitmentList ids D E).length = 66 * ids.length := by
  unfold Spec.commitmentList
  induction ids with
  | nil => rfl
  | cons a l ih =>
    simp only [List.flatMap_cons, List.length_append, be2_length, RGroup.bytes_length, List.length_cons] at ih ⊢
    rw [ih]
    omega

/-- The loop that builds the buffer either stops, whatever was in the buffer before, or appends a list `B` of commitments. -/
theorem rhoBufferLoop_cases (parties : GoMap (Signer G)) (ids : List ID) :
    (∃ D E : ID → G, ∀ b, rhoBufferLoop parties ids b = .ok (b ++ Spec.commitmentList ids D E)) ∨ ∀ b, rhoBufferLoop parties ids b = .panic := by
  classical
  by_cases hc : ∀ id ∈ ids, ∃ p D E, parties.get? id = some p ∧ p.Di = some D ∧ p.Ei = some E
  · left
    refine ⟨fun id => if h : id ∈ ids then (hc id h).choose_spec.choose else 0,
      fun id => if h : id ∈ ids then (hc id h).choose_spec.choose_spec.choose else 0, fun b => ?_⟩
    refine rhoBufferLoop_eq parties _ _ ids b fun id hid => ⟨(hc id hid).choose, ?_⟩
    have h := (hc id hid).choose_spec.choose_spec.choose_spec
    simp only [hid, dif_pos]
    exact h
  · right
    clear * - hc
    induction ids with
    | nil => exact absurd (fun _ h => by cases h) hc
    | cons a l ih =>
      intro b
      unfold rhoBufferLoop
      cases h1 : parties.get? a with
      | none => rfl
      | some p =>
        simp only [deref_some, ok_bind]
        cases h2 : p.Di with
        | none => rfl
        | some D =>
          simp only [deref_some, ok_bind]
          cases h3 : p.Ei with
          | none => rfl
          | some E =>
            simp only [deref_some, ok_bind]
            refine ih (fun h => hc fun id hid => ?_) _
            rcases List.mem_cons.mp hid with rfl | hid
            · exact ⟨p, D, E, h1, h2, h3⟩
            · exact h id hid

theorem rhoLoop_sha {sha sha' : Sha512} {rest : Bytes} (ids : List ID) (x : ID) (parties : GoMap (Signer G))
    (h : ∀ i ∈ ids, sha'.sum (hashDomainSeparation ++ i.bytes ++ rest) = sha.sum (hashDomainSeparation ++ i.bytes ++ rest)) :
    rhoLoop sha' ids (hashDomainSeparation ++ x.bytes ++ rest) parties = rhoLoop sha ids (hashDomainSeparation ++ x.bytes ++ rest) parties := by
  induction ids generalizing x parties with
  | nil => rfl
  | cons a l ih =>
    unfold rhoLoop
    simp only [overwriteID_eq]
    rw [h a (List.mem_cons_self ..)]
    cases parties.get? a with
    | none => rfl
    | some p =>
      simp only [deref_some, ok_bind]
      exact ih a _ fun i hi => h i (List.mem_cons_of_mem _ hi)

theorem computeRhos_sha {sha sha' : Sha512} (r : Sign.Round G)
    (h : ∀ x, Spec.Hashed sha r.partyIDs r.message r.groupKey x → sha'.sum x = sha.sum x) : computeRhos sha' r = computeRhos sha r := by
  unfold computeRhos
  simp only []
  rw [h _ .digest]
  rcases rhoBufferLoop_cases r.parties r.partyIDs with ⟨D, E, hb⟩ | hb
  · rw [hb, ok_bind, ok_bind, List.append_assoc (hashDomainSeparation ++ r.selfID.bytes)]
    refine rhoLoop_sha _ _ _ fun i hi => ?_
    have := h _ (.binding i hi D E)
    rw [bindingInput_tag, tag_eq, ← be16_eq_be2, ← List.append_assoc] at this
    exact this
  · rw [hb]
    rfl

theorem computeChallenge_sha {sha sha' : Sha512} {R A : G} {m : Bytes}
    (h : sha'.sum (Spec.challengeInput R A m) = sha.sum (Spec.challengeInput R A m)) : computeChallenge sha' R A m = computeChallenge sha R A m := by
  unfold computeChallenge
  simp only []
  have : sha'.sum (RGroup.bytesEd25519 R ++ PublicKey.toEd25519 A ++ m) = sha.sum (RGroup.bytesEd25519 R ++ PublicKey.toEd25519 A ++ m) := h
  rw [this]

/-- C98: a signer hashes nothing else.  With another hash function that agrees on these strings it does the same in every round, in whatever
state it is. -/
theorem C98_sign_hashes {sha sha' : Sha512} (r : Sign.Round G)
    (h : ∀ x, Spec.Hashed sha r.partyIDs r.message r.groupKey x → sha'.sum x = sha.sum x) (ord : MapOrder) (coins : Coins) (msg : Option (Message G)) :
    (impl sha').generateMessages ord coins r = (impl sha).generateMessages ord coins r ∧ (impl sha').processMessage r msg = (impl sha).processMessage r msg := by
  refine ⟨?_, rfl⟩
  unfold impl
  simp only []
  cases r.stage with
  | r0 => rfl
  | r1 =>
    simp only []
    unfold generate1
    rw [computeRhos_sha r h]
    cases computeRhos sha r with
    | panic => rfl
    | err e => rfl
    | ok parties =>
      simp only []
      cases nonceLoop (ord.order _ parties) parties 0 with
      | panic => rfl
      | err e => rfl
      | ok x =>
        simp only []
        rw [computeChallenge_sha (h _ (.challenge _))]
  | r2 =>
    simp only []
    unfold generate2 PublicKey.verify
    simp only []
    rw [computeChallenge_sha (h _ (.challenge _))]

/-- C98: the string hashed for a binding factor is one hashed for a challenge under the key `A` in exactly one case: the encoding of `R` is the tag,
the signer and the first 18 bytes of the digest of the message, the encoding of `A` is the next 32 bytes of that digest, and the rest is the other
message. -/
theorem C98_binding_is_challenge (sha : Sha512) (i : ID) (m m' B : Bytes) (R A : G) :
    Spec.bindingInput sha i m B = Spec.challengeInput R A m' ↔
      RGroup.bytesEd25519 R = Spec.tag ++ Spec.be2 i ++ (sha.sum m).take 18 ∧ RGroup.bytesEd25519 A = ((sha.sum m).drop 18).take 32 ∧
        m' = (sha.sum m).drop 50 ++ B := by
  have hl := sha.length_sum m
  have hs : sha.sum m = (sha.sum m).take 18 ++ (((sha.sum m).drop 18).take 32 ++ (sha.sum m).drop 50) := by
    rw [show (sha.sum m).drop 50 = ((sha.sum m).drop 18).drop 32 by rw [List.drop_drop], List.take_append_drop, List.take_append_drop]
  have key : Spec.bindingInput sha i m B =
      (Spec.tag ++ Spec.be2 i ++ (sha.sum m).take 18) ++ (((sha.sum m).drop 18).take 32 ++ ((sha.sum m).drop 50 ++ B)) := by
    rw [bindingInput_tag]
    conv_lhs => rw [hs]
    simp only [List.append_assoc]
  rw [key, Spec.challengeInput, List.append_assoc (RGroup.bytesEd25519 R)]
  constructor
  · intro h
    obtain ⟨h1, h⟩ := List.append_inj h (by
      simp only [List.length_append, tag_length, be2_length, List.length_take, hl, RGroup.bytesEd25519_length]; omega)
    obtain ⟨h2, h3⟩ := List.append_inj h (by
      simp only [List.length_drop, List.length_take, hl, RGroup.bytesEd25519_length]; omega)
    exact ⟨h1.symm, h2.symm, h3.symm⟩
  · rintro ⟨h1, h2, h3⟩
    rw [h1, h2, h3]

/-- C98: so a key that is not part of the digest of a message is safe: no string hashed for a binding factor of that message is one hashed for a
challenge, whoever the signers are and whatever they commit to. -/
theorem C98_separated (sha : Sha512) (m : Bytes) (A : G) (hA : RGroup.bytesEd25519 A ≠ ((sha.sum m).drop 18).take 32) (i : ID) (B m' : Bytes) (R : G) :
    Spec.bindingInput sha i m B ≠ Spec.challengeInput R A m' := fun h => hA ((C98_binding_is_challenge sha i m m' B R A).mp h).2.1

/-- C98: the two strings by which `C90_simulation` changes the hash function are not otherwise used if the message does not start with the tag and
its digest does not contain the key. -/
theorem C98_unused (sha : Sha512) (ids : List ID) (m : Bytes) (A : G) (i : ID) (D E : ID → G) (a : Bytes) (ha : a.length = 64)
    (hm : ¬ Spec.tag <+: m) (hA : RGroup.bytesEd25519 A ≠ ((sha.sum m).drop 18).take 32) : Spec.Unused sha ids m A i D E a ha := by
  refine ⟨fun h => hm ?_, fun j _ h => C98_separated sha m A hA j _ _ _ h.symm⟩
  rw [h, bindingInput_tag]
  exact List.prefix_append ..

/-- C98: a string that a party hashes for its proof in key generation is never one hashed for a binding factor. -/
theorem C98_proof_is_not_binding (sha : Sha512) (id i : ID) (ctx m : Bytes) (hctx : ctx.length = 32) (pub M : G) (ids : List ID) (D E : ID → G) :
    Spec.be2 id ++ ctx ++ RGroup.bytes pub ++ RGroup.bytes M ≠ Spec.bindingInput sha i m (Spec.commitmentList ids D E) := by
  intro h
  have := congrArg List.length h
  rw [bindingInput_tag] at this
  simp only [List.length_append, be2_length, RGroup.bytes_length, hctx, tag_length, sha.length_sum, commitmentList_length] at this
  omega

/-- C98: the rounds of key generation do not depend on the hash function: the digests for the proofs are computed and dropped (finding 1). -/
theorem C98_keygen_hashes (sha sha' : Sha512) : (Keygen.impl sha : RoundImpl G (Keygen.Round G)) = Keygen.impl sha' := by
  have h : (Schnorr.challenge sha : ID → Bytes → G → G → GoRes Scalar) = Schnorr.challenge sha' := by
    funext id ctx pub M
    rcases Nat.lt_or_ge ctx.length 32 with hc | hc
    · rw [challenge_panic sha id ctx hc, challenge_panic sha' id ctx hc]
    · rw [challenge_eq sha id ctx hc, challenge_eq sha' id ctx hc]
  unfold Keygen.impl Keygen.generate0 Keygen.process1 Schnorr.new Schnorr.verify
  rw [h]

/-- C98, refuting the property: the message itself is hashed without any tag.  In a session that signs `R ∥ A ∥ m`, what is hashed for the binding
factors contains the digest that is the challenge of `m` for the commitment `R`. -/
theorem C98_message_is_challenge (sha : Sha512) (ids : List ID) (R A : G) (m : Bytes) :
    Spec.Hashed sha ids m A (Spec.challengeInput R A m) ∧ Spec.Hashed sha ids (Spec.challengeInput R A m) A (Spec.challengeInput R A m) ∧
      ∀ i B, ∃ x, x.length = 64 ∧ Spec.bindingInput sha i (Spec.challengeInput R A m) B = Spec.tag ++ Spec.be2 i ++ x ++ B ∧
        computeChallenge sha R A m = .ok (Spec.leValue x : Scalar) :=
  ⟨.challenge R, .digest, fun i B => ⟨sha.sum (Spec.challengeInput R A m), sha.length_sum _, by rw [bindingInput_tag]; simp only [List.append_assoc], computeChallenge_eq sha R A m⟩⟩

namespace Demo

/-- A message, a key and a hash function for which the hypotheses of `C98_separated` and `C98_unused` hold. -/
example (i : ID) (B m' : Bytes) (R : Toy) : Spec.bindingInput toySha i [1, 2, 3] B ≠ Spec.challengeInput R (Toy.of 42) m' :=
  C98_separated toySha [1, 2, 3] (Toy.of 42) (by decide +kernel) i B m' R

example (D E : ID → Toy) : Spec.Unused toySha [1, 3] [1, 2, 3] key.groupKey 1 D E digestA (by decide) :=
  C98_unused toySha [1, 3] [1, 2, 3] key.groupKey 1 D E digestA (by decide) (by decide +kernel) (by decide +kernel)

/-- The context of key generation has 32 bytes. -/
example (D E : ID → Toy) : Spec.be2 1 ++ List.replicate 32 0 ++ RGroup.bytes (Toy.of 42) ++ RGroup.bytes (Toy.of 7) ≠
    Spec.bindingInput toySha 3 [1, 2, 3] (Spec.commitmentList [1, 3] D E) :=
  C98_proof_is_not_binding toySha 1 3 (List.replicate 32 0) [1, 2, 3] (by decide) (Toy.of 42) (Toy.of 7) [1, 3] D E

/-- A hash function that differs from `toySha` where signers 1 and 3 do not hash when they sign the bytes 1, 2, 3. -/
def otherSha : Sha512 := Spec.program toySha [7] digestA (by decide)

example (r : Sign.Round Toy) (hr : r.partyIDs = [1, 3] ∧ r.message = [1, 2, 3] ∧ r.groupKey = key.groupKey) (ord : MapOrder) (coins : Coins) :
    otherSha ≠ toySha ∧ (impl otherSha).generateMessages ord coins r = (impl toySha).generateMessages ord coins r := by
  refine ⟨fun h => ?_, (C98_sign_hashes r (fun x hx => ?_) ord coins none).1⟩
  · have h7 := congrArg (fun s => s.sum [7]) h
    exact absurd h7 (by decide +kernel)
  · refine if_neg fun h7 => ?_
    have hl := congrArg List.length h7
    rw [hr.1, hr.2.1, hr.2.2] at hx
    cases hx with
    | digest => cases hl
    | binding i hi D E =>
      rw [bindingInput_tag] at hl
      simp only [List.length_append, tag_length, List.length_cons, List.length_nil] at hl
      omega
    | challenge R =>
      unfold Spec.challengeInput at hl
      simp only [List.length_append, RGroup.bytesEd25519_length, List.length_cons, List.length_nil] at hl
      omega

end Demo

end Verif.Props
