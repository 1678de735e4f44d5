import Verif.Lemmas.Sign
import Verif.Props.Party

/-!
C48: what the binding factors bind.
-/

namespace Verif.Props

open Verif Sign Outcome

variable {G : Type} [RGroup G]

theorem be2_length (i : ID) : (Spec.be2 i).length = 2 := rfl

theorem be2_inj {i j : ID} (h : Spec.be2 i = Spec.be2 j) : i = j := by
  rw [← be16_eq_be2, ← be16_eq_be2] at h
  exact be16_injective h

theorem bytes_inj {g g' : G} (h : RGroup.bytes g = RGroup.bytes g') : g = g' := by
  have h1 := RGroup.set_bytes g
  rw [h, RGroup.set_bytes] at h1
  exact (Option.some.inj h1).symm

/-- Different signers, commitments, or orders give different lists `B`. -/
theorem C48_commitment_list_injective (ids ids' : List ID) (D E D' E' : ID → G)
    (h : Spec.commitmentList ids D E = Spec.commitmentList ids' D' E') :
    ids = ids' ∧ ∀ id ∈ ids, D id = D' id ∧ E id = E' id := by
  induction ids generalizing ids' with
  | nil =>
    cases ids' with
    | nil => simp
    | cons b l =>
      have := congrArg List.length h
      simp [Spec.commitmentList, be2_length, RGroup.bytes_length] at this
      omega
  | cons a l ih =>
    cases ids' with
    | nil =>
      have := congrArg List.length h
      simp [Spec.commitmentList, be2_length, RGroup.bytes_length] at this
    | cons b l' =>
      simp only [Spec.commitmentList, List.flatMap_cons] at h
      obtain ⟨h0, hr⟩ := List.append_inj h (by simp [be2_length, RGroup.bytes_length])
      obtain ⟨h0, h3⟩ := List.append_inj h0 (by simp [be2_length, RGroup.bytes_length])
      obtain ⟨h1, h2⟩ := List.append_inj h0 rfl
      have hab := be2_inj h1
      subst hab
      obtain ⟨h4, h5⟩ := ih l' hr
      subst h4
      refine ⟨rfl, fun id hid => ?_⟩
      rcases List.mem_cons.mp hid with rfl | hid
      · exact ⟨bytes_inj h2, bytes_inj h3⟩
      · exact h5 id hid

/-- The byte strings hashed for two binding factors are equal only if the signer, the digest of the message, the list of signers
and all commitments are equal. -/
theorem C48_binding_input_injective (sha : Sha512) (i i' : ID) (message message' : Bytes) (ids ids' : List ID) (D E D' E' : ID → G)
    (h : Spec.bindingInput sha i message (Spec.commitmentList ids D E) =
      Spec.bindingInput sha i' message' (Spec.commitmentList ids' D' E')) :
    i = i' ∧ sha.sum message = sha.sum message' ∧ ids = ids' ∧ ∀ id ∈ ids, D id = D' id ∧ E id = E' id := by
  unfold Spec.bindingInput at h
  rw [List.append_assoc, List.append_assoc, List.append_assoc, List.append_assoc] at h
  obtain ⟨_, h⟩ := List.append_inj h rfl
  obtain ⟨h1, h⟩ := List.append_inj h rfl
  obtain ⟨h2, h⟩ := List.append_inj h (by rw [sha.length_sum, sha.length_sum])
  exact ⟨be2_inj h1, h2, C48_commitment_list_injective ids ids' D E D' E' h⟩

theorem rhoBufferLoop_append (parties : GoMap (Signer G)) (ids : List ID) (a b : Bytes) :
    rhoBufferLoop parties ids (a ++ b) = match rhoBufferLoop parties ids b with
      | .ok c => .ok (a ++ c)
      | .err e => .err e
      | .panic => .panic := by
  induction ids generalizing b with
  | nil => rfl
  | cons i l ih =>
    unfold rhoBufferLoop
    cases h1 : parties.get? i with
    | none => rfl
    | some p =>
      simp only [deref_some, ok_bind]
      cases h2 : p.Di with
      | none => rfl
      | some D =>
        simp only [deref_some, ok_bind]
        cases h3 : p.Ei with
        | none => rfl
        | some E =>
          simp only [deref_some, ok_bind]
          rw [← ih]
          simp only [List.append_assoc]

/-- `computeRhos` gives the same result whichever signer runs it. -/
theorem C48_independent_of_signer (sha : Sha512) (r : Sign.Round G) (i : ID) :
    computeRhos sha { r with selfID := i } = computeRhos sha r := by
  unfold computeRhos
  simp only []
  have key : ∀ x : ID, (do let buffer ← rhoBufferLoop r.parties r.partyIDs (hashDomainSeparation ++ x.bytes ++ sha.sum r.message); rhoLoop sha r.partyIDs buffer r.parties)
      = (do let b ← rhoBufferLoop r.parties r.partyIDs (sha.sum r.message); rhoLoop sha r.partyIDs (hashDomainSeparation ++ (0 : ID).bytes ++ b) r.parties) := by
    intro x
    rw [rhoBufferLoop_append]
    cases rhoBufferLoop r.parties r.partyIDs (sha.sum r.message) with
    | ok b =>
      simp only [ok_bind]
      cases r.partyIDs with
      | nil => rfl
      | cons a l =>
        unfold rhoLoop
        simp only []
        rw [overwriteID_eq, overwriteID_eq]
    | err e => rfl
    | panic => rfl
  rw [key i, key r.selfID]

/-- The binding factors computed in a session are the hashes of exactly these byte strings, read as little-endian integers modulo the
group order. -/
theorem C48_factors_are_hashes (sha : Sha512) (r : Sign.Round G) (D E : ID → G)
    (hcom : ∀ id ∈ r.partyIDs, ∃ p, r.parties.get? id = some p ∧ p.Di = some (D id) ∧ p.Ei = some (E id)) :
    ∃ parties', computeRhos sha r = .ok parties' ∧ ∀ id ∈ r.partyIDs, ∃ p, parties'.get? id = some p ∧
      p.Pi = (Spec.leValue (sha.sum (Spec.bindingInput sha id r.message (Spec.commitmentList r.partyIDs D E))) : Scalar) := by
  have hb := rhoBufferLoop_eq r.parties D E r.partyIDs (hashDomainSeparation ++ r.selfID.bytes ++ sha.sum r.message) hcom
  obtain ⟨parties', h1, h2, h3⟩ := rhoLoop_eq sha r.message (Spec.commitmentList r.partyIDs D E) r.partyIDs r.selfID r.parties
    (fun id hid => by
      obtain ⟨p, hp, _⟩ := hcom id hid
      exact GoMap.mem_keys_iff.mpr ⟨p, hp⟩)
  refine ⟨parties', ?_, ?_⟩
  · unfold computeRhos
    simp only []
    rw [hb, ok_bind, List.append_assoc (hashDomainSeparation ++ r.selfID.bytes)]
    exact h1
  · intro id hid
    obtain ⟨p, hp, _⟩ := hcom id hid
    refine ⟨_, (h3 id).trans (by rw [hp]; rfl), ?_⟩
    simp only [if_pos hid]
    rfl

end Verif.Props
