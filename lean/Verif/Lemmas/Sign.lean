import Verif.Model.Sign
import Verif.Spec.Sign
import Verif.Lemmas.Outcome
import Verif.Lemmas.StateInv
import Verif.Lemmas.Messages
import Verif.Props.Eddsa

/-!
What the methods of the sign rounds do, spelled out.
-/

namespace Verif.Sign

open Verif.Outcome

variable {G : Type} [RGroup G]

theorem generate0_ok {coins : Coins} {r r' : Round G} {out : List (Message G)} :
    generate0 coins r = .ok (r', out) ↔ ∃ p, r.parties.get? r.selfID = some p ∧
      r' = { r with d := coins 0, e := coins 1,
                    parties := r.parties.set r.selfID { p with Di := some (coins 0 • base), Ei := some (coins 1 • base) } } ∧
      out = [Message.newSign1 r.selfID (coins 0 • base) (coins 1 • base)] := by
  unfold generate0
  simp only [bind_eq_ok, deref_eq_ok, pure_def, Outcome.ok.injEq, Prod.mk.injEq]
  constructor
  · rintro ⟨p, h1, h2, h3⟩; exact ⟨p, h1, h2.symm, h3.symm⟩
  · rintro ⟨p, h1, h2, h3⟩; exact ⟨p, h1, h2.symm, h3.symm⟩

theorem noErr_generate0 (coins : Coins) (r : Round G) : NoErr (generate0 coins r) :=
  (noErr_deref _).bind fun _ _ => noErr_ok _

theorem process1_ok {r r' : Round G} {msg : Option (Message G)} :
    process1 r msg = .ok r' ↔ ∃ m k p, msg = some m ∧ m.sign1 = some k ∧ k.Di ≠ 0 ∧ k.Ei ≠ 0 ∧
      r.parties.get? m.header.fromID = some p ∧
      r' = { r with parties := r.parties.set m.header.fromID { p with Di := some k.Di, Ei := some k.Ei } } := by
  unfold process1
  simp only [bind_eq_ok, deref_eq_ok]
  constructor
  · rintro ⟨m, rfl, k, hk, h⟩
    split at h
    · cases h
    · rename_i hne
      rw [not_or] at hne
      obtain ⟨p, h1, h2⟩ := bind_eq_ok.mp h
      rw [deref_eq_ok] at h1
      exact ⟨m, k, p, rfl, hk, hne.1, hne.2, h1, (Outcome.ok.inj h2).symm⟩
  · rintro ⟨m, k, p, rfl, hk, hD, hE, hp, rfl⟩
    refine ⟨m, rfl, k, hk, ?_⟩
    rw [if_neg (not_or.mpr ⟨hD, hE⟩), hp]
    rfl

theorem process1_err {r r' : Round G} {msg : Option (Message G)} {e : StateErr} :
    process1 r msg = .err (e, r') ↔ ∃ m k, msg = some m ∧ m.sign1 = some k ∧ (k.Di = 0 ∨ k.Ei = 0) ∧
      e = .new m.header.fromID .identityCommitment ∧ r' = r := by
  unfold process1
  simp only [bind_eq_err, deref_eq_ok, deref_eq_err, false_or]
  constructor
  · rintro ⟨m, rfl, k, hk, h⟩
    split at h
    · rename_i hz
      cases h
      exact ⟨m, k, rfl, hk, hz, rfl, rfl⟩
    · simp only [bind_eq_err, deref_eq_err, false_or, pure_def, reduceCtorEq, and_false, exists_false] at h
  · rintro ⟨m, k, rfl, hk, hz, rfl, rfl⟩
    exact ⟨m, rfl, k, hk, by rw [if_pos hz]⟩

theorem share_check {C z : Scalar} {A Ri : G} : C • -A + z • (base : G) = Ri ↔ z • (base : G) = Ri + C • A := by
  rw [smul_neg]
  constructor
  · rintro rfl; abel
  · rintro h; rw [h]; abel

theorem process2_ok {r r' : Round G} {msg : Option (Message G)} :
    process2 r msg = .ok r' ↔ ∃ m k p Ri, msg = some m ∧ r.parties.get? m.header.fromID = some p ∧ m.sign2 = some k ∧
      p.Ri = some Ri ∧ k.Zi • (base : G) = Ri + r.C • p.pub ∧
      r' = { r with parties := r.parties.set m.header.fromID { p with Zi := k.Zi } } := by
  unfold process2
  simp only [bind_eq_ok, deref_eq_ok]
  constructor
  · rintro ⟨m, rfl, p, hp, k, hk, Ri, hRi, h⟩
    split at h
    · cases h
    · rename_i hne
      exact ⟨m, k, p, Ri, rfl, hp, hk, hRi, share_check.mp (not_not.mp hne), (Outcome.ok.inj h).symm⟩
  · rintro ⟨m, k, p, Ri, rfl, hp, hk, hRi, he, rfl⟩
    refine ⟨m, rfl, p, hp, k, hk, Ri, hRi, ?_⟩
    rw [if_neg (not_not_intro (share_check.mpr he))]
    rfl

theorem process2_err {r r' : Round G} {msg : Option (Message G)} {e : StateErr} :
    process2 r msg = .err (e, r') ↔ ∃ m k p Ri, msg = some m ∧ r.parties.get? m.header.fromID = some p ∧ m.sign2 = some k ∧
      p.Ri = some Ri ∧ k.Zi • (base : G) ≠ Ri + r.C • p.pub ∧ e = .new m.header.fromID .badSigShare ∧ r' = r := by
  unfold process2
  simp only [bind_eq_err, deref_eq_ok, deref_eq_err, false_or]
  constructor
  · rintro ⟨m, rfl, p, hp, k, hk, Ri, hRi, h⟩
    split at h
    · rename_i hne
      cases h
      exact ⟨m, k, p, Ri, rfl, hp, hk, hRi, fun hc => hne (share_check.mpr hc), rfl, rfl⟩
    · cases h
  · rintro ⟨m, k, p, Ri, rfl, hp, hk, hRi, he, rfl, rfl⟩
    exact ⟨m, rfl, p, hp, k, hk, Ri, hRi, by rw [if_pos (fun hc => he (share_check.mp hc))]⟩

theorem rhoBufferLoop_eq (parties : GoMap (Signer G)) (D E : ID → G) (ids : List ID) (buffer : Bytes)
    (h : ∀ id ∈ ids, ∃ p, parties.get? id = some p ∧ p.Di = some (D id) ∧ p.Ei = some (E id)) :
    rhoBufferLoop parties ids buffer = .ok (buffer ++ Spec.commitmentList ids D E) := by
  induction ids generalizing buffer with
  | nil => simp [rhoBufferLoop, Spec.commitmentList]
  | cons a ids ih =>
    obtain ⟨p, h1, h2, h3⟩ := h a List.mem_cons_self
    simp only [rhoBufferLoop, h1, h2, h3, deref_some, ok_bind]
    rw [ih _ fun id hid => h id (List.mem_cons_of_mem _ hid)]
    simp [Spec.commitmentList, ID.bytes, be16_eq_be2]

theorem noErr_rhoBufferLoop (parties : GoMap (Signer G)) (ids : List ID) (buffer : Bytes) :
    NoErr (rhoBufferLoop parties ids buffer) := by
  induction ids generalizing buffer with
  | nil => exact noErr_ok _
  | cons a ids ih =>
    exact (noErr_deref _).bind fun _ _ => (noErr_deref _).bind fun _ _ => (noErr_deref _).bind fun _ _ => ih _

theorem noErr_rhoLoop (sha : Sha512) (ids : List ID) (buffer : Bytes) (parties : GoMap (Signer G)) :
    NoErr (rhoLoop sha ids buffer parties) := by
  induction ids generalizing buffer parties with
  | nil => exact noErr_ok _
  | cons a ids ih => exact (noErr_deref _).bind fun _ _ => ih _ _

theorem hashDomainSeparation_eq : hashDomainSeparation = "FROST-SHA512".toList.map fun c => UInt8.ofNat c.toNat := by
  decide +kernel

theorem overwriteID_eq (x id : ID) (rest : Bytes) :
    overwriteID (hashDomainSeparation ++ x.bytes ++ rest) id = hashDomainSeparation ++ id.bytes ++ rest := by
  unfold overwriteID
  have h12 : hashDomainSeparation.length = 12 := rfl
  have hx : (ID.bytes x).length = 2 := be16_length x
  rw [List.append_assoc hashDomainSeparation, List.take_left, ← List.append_assoc hashDomainSeparation, List.drop_left' (by simp [hx])]

/-- What the loop over the parties leaves in the map. -/
theorem rhoLoop_eq (sha : Sha512) (message B : Bytes) (ids : List ID) (x : ID) (parties : GoMap (Signer G))
    (hk : ∀ id ∈ ids, id ∈ parties.keys) :
    ∃ parties', rhoLoop sha ids (hashDomainSeparation ++ x.bytes ++ (sha.sum message ++ B)) parties = .ok parties' ∧
      parties'.keys = parties.keys ∧
      ∀ id, parties'.get? id = (parties.get? id).map fun p =>
        if id ∈ ids then { p with Pi := Spec.bindingFactor sha id message B } else p := by
  induction ids generalizing x parties with
  | nil => exact ⟨parties, rfl, rfl, by simp⟩
  | cons a ids ih =>
    obtain ⟨p, hp⟩ := GoMap.mem_keys_iff.mp (hk a List.mem_cons_self)
    have hset : ∀ q : Signer G, GoMap.keys (parties.set a q) = parties.keys := fun q =>
      GoMap.keys_set_of_mem _ (hk a List.mem_cons_self)
    unfold rhoLoop
    simp only []
    rw [overwriteID_eq, hp, deref_some, ok_bind]
    have hv : (Scalar.setUniformBytes p.Pi (sha.sum (hashDomainSeparation ++ a.bytes ++ (sha.sum message ++ B)))).1 =
        Spec.bindingFactor sha a message B := by
      rw [Scalar.setUniformBytes_64 _ (sha.length_sum _), leNat_eq_leValue]
      unfold Spec.bindingFactor Spec.bindingInput
      rw [← hashDomainSeparation_eq, ← be16_eq_be2]
      simp only [List.append_assoc, ID.bytes]
    rw [hv]
    obtain ⟨parties', h1, h2, h3⟩ := ih a (parties.set a { p with Pi := Spec.bindingFactor sha a message B })
      (fun id hid => by rw [hset]; exact hk id (List.mem_cons_of_mem _ hid))
    refine ⟨parties', h1, by rw [h2, hset], ?_⟩
    intro id
    rw [h3, GoMap.get?_set]
    by_cases hid : id = a
    · subst hid
      rw [if_pos rfl, hp]
      by_cases hm : id ∈ ids <;> simp [hm]
    · rw [if_neg hid]
      simp [hid]

theorem nonceLoop_eq (D E : ID → G) (l : List (ID × Signer G)) (parties : GoMap (Signer G)) (R : G)
    (h : ∀ id p, (id, p) ∈ l → p.Di = some (D id) ∧ p.Ei = some (E id))
    (hnd : (l.map Prod.fst).Nodup) (hk : ∀ id p, (id, p) ∈ l → id ∈ parties.keys) :
    ∃ parties', nonceLoop l parties R = .ok (parties', R + (l.map fun e => e.2.Pi • E e.1 + D e.1).sum) ∧
      parties'.keys = parties.keys ∧
      (∀ id p, (id, p) ∈ l → parties'.get? id = some { p with Ri := some (p.Pi • E id + D id) }) ∧
      ∀ id, id ∉ l.map Prod.fst → parties'.get? id = parties.get? id := by
  induction l generalizing parties R with
  | nil => exact ⟨parties, by simp [nonceLoop], rfl, by simp, by simp⟩
  | cons a l ih =>
    obtain ⟨id, p⟩ := a
    obtain ⟨hD, hE⟩ := h id p List.mem_cons_self
    simp only [List.map_cons, List.nodup_cons] at hnd
    have hset : ∀ q : Signer G, GoMap.keys (parties.set id q) = parties.keys := fun q =>
      GoMap.keys_set_of_mem _ (hk id p List.mem_cons_self)
    simp only [nonceLoop, hD, hE, deref_some, ok_bind]
    obtain ⟨parties', h1, h2, h3, h4⟩ := ih (parties.set id { p with Ri := some (p.Pi • E id + D id) }) (R + (p.Pi • E id + D id))
      (fun i q hi => h i q (List.mem_cons_of_mem _ hi)) hnd.2
      (fun i q hi => by rw [hset]; exact hk i q (List.mem_cons_of_mem _ hi))
    refine ⟨parties', ?_, by rw [h2, hset], ?_, ?_⟩
    · rw [← hD, ← hE, h1]
      simp [add_assoc]
    · intro i q hi
      rcases List.mem_cons.mp hi with hi | hi
      · obtain ⟨rfl, rfl⟩ := Prod.mk.inj hi
        rw [h4 _ hnd.1, GoMap.get?_set_same]
      · exact h3 i q hi
    · intro i hi
      simp only [List.map_cons, List.mem_cons, not_or] at hi
      rw [h4 i hi.2, GoMap.get?_set_ne _ _ hi.1]

theorem noErr_nonceLoop (l : List (ID × Signer G)) (parties : GoMap (Signer G)) (R : G) : NoErr (nonceLoop l parties R) := by
  induction l generalizing parties R with
  | nil => exact noErr_ok _
  | cons a l ih =>
    exact (noErr_deref _).bind fun _ _ => (noErr_deref _).bind fun _ _ => ih _ _

theorem noErr_computeRhos (sha : Sha512) (r : Round G) : NoErr (computeRhos sha r) :=
  (noErr_rhoBufferLoop _ _ _).bind fun _ _ => noErr_rhoLoop _ _ _ _

theorem noErr_generate1 (sha : Sha512) (ord : MapOrder) (r : Round G) : NoErr (generate1 sha ord r) := by
  intro e h
  unfold generate1 at h
  split at h
  · cases h
  · rename_i e' he'; exact noErr_computeRhos _ _ _ he'
  · split at h
    · cases h
    · rename_i e' he'; exact noErr_nonceLoop _ _ _ _ he'
    · rw [Props.computeChallenge_eq] at h
      simp only [] at h
      split at h <;> cases h

/-- Sum over the entries of a map, in any order. -/
theorem sum_order {M V : Type} [AddCommMonoid M] (ord : MapOrder) (m : GoMap V) (f : ID × V → M) :
    ((ord.order V m).map f).sum = (m.map f).sum := ((ord.perm V m).map f).sum_eq

/-- The value of `GenerateMessages` in round 1 when all commitments are there. -/
theorem generate1_eq (sha : Sha512) (ord : MapOrder) (r : Round G) (D E : ID → G) (hwf : r.parties.WF)
    (hkeys : ∀ id, id ∈ r.partyIDs ↔ id ∈ r.parties.keys) (hself : r.selfID ∈ r.partyIDs)
    (hcom : ∀ id p, r.parties.get? id = some p → p.Di = some (D id) ∧ p.Ei = some (E id)) :
    ∃ parties', parties'.keys = r.parties.keys ∧
      let ρ := fun id => Spec.bindingFactor sha id r.message (Spec.commitmentList r.partyIDs D E)
      let R := (r.parties.keys.map fun id => ρ id • E id + D id).sum
      let c := Props.Spec.challenge sha R r.groupKey r.message
      let z := r.e * ρ r.selfID + r.secretKeyShare * c + r.d
      (∀ id p, r.parties.get? id = some p → parties'.get? id = some
        { p with Pi := ρ id, Ri := some (ρ id • E id + D id), Zi := if id = r.selfID then z else p.Zi }) ∧
      generate1 sha ord r = .ok ({ r with parties := parties', R := R, C := c }, [Message.newSign2 r.selfID z]) := by
  have hb : rhoBufferLoop r.parties r.partyIDs (hashDomainSeparation ++ r.selfID.bytes ++ sha.sum r.message) =
      .ok (hashDomainSeparation ++ r.selfID.bytes ++ (sha.sum r.message ++ Spec.commitmentList r.partyIDs D E)) := by
    rw [rhoBufferLoop_eq r.parties D E]
    · simp
    · intro id hid
      obtain ⟨p, hp⟩ := GoMap.mem_keys_iff.mp ((hkeys id).mp hid)
      exact ⟨p, hp, hcom id p hp⟩
  obtain ⟨ps, h1, h2, h3⟩ := rhoLoop_eq sha r.message (Spec.commitmentList r.partyIDs D E) r.partyIDs r.selfID r.parties
    (fun id hid => (hkeys id).mp hid)
  have hrho : computeRhos sha r = .ok ps := by
    unfold computeRhos
    simp only []
    rw [hb, ok_bind, h1]
  generalize hρ : (fun id => Spec.bindingFactor sha id r.message (Spec.commitmentList r.partyIDs D E)) = ρ
  have hget : ∀ id, ps.get? id = (r.parties.get? id).map fun p => { p with Pi := ρ id } := by
    intro id
    rw [h3]
    cases hp : r.parties.get? id with
    | none => rfl
    | some p =>
      have : id ∈ r.partyIDs := (hkeys id).mpr (GoMap.mem_keys_iff.mpr ⟨p, hp⟩)
      simp only [Option.map_some, if_pos this, ← hρ]
  have hpswf : ps.WF := by unfold GoMap.WF; rw [h2]; exact hwf
  have hmem : ∀ id p, (id, p) ∈ ord.order _ ps → ∃ q, r.parties.get? id = some q ∧ p = { q with Pi := ρ id } := by
    intro id p hp
    have := (GoMap.get?_eq_some_iff hpswf).mpr ((ord.perm _ ps).mem_iff.mp hp)
    rw [hget] at this
    obtain ⟨q, h5, h6⟩ := Option.map_eq_some_iff.mp this
    exact ⟨q, h5, h6.symm⟩
  obtain ⟨ps', h4, h5, h6, h7⟩ := nonceLoop_eq D E (ord.order _ ps) ps 0
    (fun id p hp => by
      obtain ⟨q, hq, rfl⟩ := hmem id p hp
      exact hcom id q hq)
    (by
      have : (GoMap.keys ps).Nodup := hpswf
      exact ((ord.perm _ ps).map Prod.fst).nodup_iff.mpr this)
    (fun id p hp => List.mem_map.mpr ⟨_, (ord.perm _ ps).mem_iff.mp hp, rfl⟩)
  have hR : (0 : G) + ((ord.order _ ps).map fun e => e.2.Pi • E e.1 + D e.1).sum =
      (r.parties.keys.map fun id => ρ id • E id + D id).sum := by
    rw [zero_add, ← h2]
    rw [show ((ord.order _ ps).map fun e => e.2.Pi • E e.1 + D e.1) =
      ((ord.order _ ps).map fun e => ρ e.1 • E e.1 + D e.1) from List.map_congr_left fun e he => by
        obtain ⟨id, p⟩ := e
        obtain ⟨q, _, rfl⟩ := hmem id p he
        rfl]
    rw [sum_order, GoMap.keys, List.map_map]
    rfl
  have hget' : ∀ id p, r.parties.get? id = some p →
      ps'.get? id = some { p with Pi := ρ id, Ri := some (ρ id • E id + D id) } := by
    intro id p hp
    have : (id, { p with Pi := ρ id }) ∈ ord.order _ ps := by
      rw [(ord.perm _ ps).mem_iff, ← GoMap.get?_eq_some_iff hpswf, hget, hp]
      rfl
    rw [h6 _ _ this]
  obtain ⟨p0, hp0⟩ := GoMap.mem_keys_iff.mp ((hkeys r.selfID).mp hself)
  have hself' := hget' _ _ hp0
  have hkeys' : GoMap.keys ps' = r.parties.keys := by rw [h5, h2]
  rw [hR] at h4
  generalize hRv : (r.parties.keys.map fun id => ρ id • E id + D id).sum = Rv at h4
  generalize hcv : Props.Spec.challenge sha Rv r.groupKey r.message = cv
  refine ⟨ps'.set r.selfID { p0 with
    Pi := ρ r.selfID, Ri := some (ρ r.selfID • E r.selfID + D r.selfID),
    Zi := r.e * ρ r.selfID + r.secretKeyShare * cv + r.d }, ?_, ?_, ?_⟩
  rotate_left 2
  · unfold generate1
    rw [hrho]
    simp only []
    rw [h4]
    simp only []
    rw [Props.computeChallenge_eq]
    simp only []
    rw [hself', hRv, hcv]
  · rw [GoMap.keys_set_of_mem, hkeys']
    rw [hkeys', ← hkeys]; exact hself
  · intro id p hp
    rw [GoMap.get?_set]
    by_cases hid : id = r.selfID
    · subst hid
      rw [hp0] at hp
      cases hp
      simp [hRv, hcv]
    · rw [if_neg hid, hget' id p hp]
      simp [hid]

/-- The signature put together in round 2. -/
def finalSig (r : Round G) : Signature G := ⟨r.R, (r.parties.map fun e => e.2.Zi).sum⟩

theorem foldl_Zi (l : List (ID × Signer G)) (a : Scalar) : l.foldl (fun S p => S + p.2.Zi) a = a + (l.map fun e => e.2.Zi).sum := by
  induction l generalizing a with
  | nil => simp
  | cons x l ih => simp [ih, add_assoc]

/-- What `GenerateMessages` does in round 2. -/
theorem generate2_eq (sha : Sha512) (ord : MapOrder) (r : Round G) :
    generate2 sha ord r = match PublicKey.verify sha r.groupKey r.message (finalSig r) with
      | .panic => .panic
      | .err e => .err (.new 0 e, r)
      | .ok false => .err (.new 0 .badSignature, r)
      | .ok true => if r.hasOutput = false then .panic else .ok ({ r with output := ⟨some (finalSig r)⟩ }, []) := by
  unfold generate2
  simp only []
  rw [foldl_Zi, sum_order, zero_add]
  rfl

theorem generate2_ok {sha : Sha512} {ord : MapOrder} {r r' : Round G} {out : List (Message G)} :
    generate2 sha ord r = .ok (r', out) ↔ PublicKey.verify sha r.groupKey r.message (finalSig r) = .ok true ∧ r.hasOutput = true ∧
      r' = { r with output := ⟨some (finalSig r)⟩ } ∧ out = [] := by
  rw [generate2_eq]
  constructor
  · intro h
    split at h
    · cases h
    · cases h
    · cases h
    · rename_i hv
      split at h
      · cases h
      · rename_i ho
        obtain ⟨h1, h2⟩ := Prod.mk.inj (Outcome.ok.inj h)
        exact ⟨hv, by simpa using ho, h1.symm, h2.symm⟩
  · rintro ⟨hv, ho, rfl, rfl⟩
    rw [hv]
    simp [ho]

theorem generate2_err {sha : Sha512} {ord : MapOrder} {r r' : Round G} {e : StateErr} :
    generate2 sha ord r = .err (e, r') ↔ PublicKey.verify sha r.groupKey r.message (finalSig r) = .ok false ∧
      e = .new 0 .badSignature ∧ r' = r := by
  rw [generate2_eq]
  obtain ⟨b, hb, _⟩ := Props.C50_verify_iff sha r.groupKey r.message (finalSig r)
  rw [hb]
  cases b
  · simp [eq_comm]
  · simp only [reduceCtorEq, Outcome.ok.injEq, Bool.true_eq_false, false_and, iff_false]
    split <;> simp

/-- What `GenerateMessages` in round 1 changes. -/
theorem generate1_ok_fields {sha : Sha512} {ord : MapOrder} {r r' : Round G} {out : List (Message G)}
    (h : generate1 sha ord r = .ok (r', out)) :
    ∃ parties R C z, r' = { r with parties := parties, R := R, C := C } ∧ out = [Message.newSign2 r.selfID z] := by
  unfold generate1 at h
  split at h
  · cases h
  · cases h
  · split at h
    · cases h
    · cases h
    · split at h
      · cases h
      · cases h
      · split at h
        · cases h
        · cases h
          exact ⟨_, _, _, _, rfl, rfl⟩

/-- No method changes the party or the list of parties. -/
theorem impl_stable (sha : Sha512) : (impl sha : RoundImpl G (Round G)).Stable where
  process r m r' h := by
    simp only [impl] at h ⊢
    cases hs : r.stage <;> rw [hs] at h
    · cases h; exact ⟨rfl, rfl⟩
    · obtain ⟨_, _, _, _, _, _, _, _, rfl⟩ := process1_ok.mp h; exact ⟨rfl, rfl⟩
    · obtain ⟨_, _, _, _, _, _, _, _, _, rfl⟩ := process2_ok.mp h; exact ⟨rfl, rfl⟩
  processErr r m e r' h := by
    simp only [impl] at h ⊢
    cases hs : r.stage <;> rw [hs] at h
    · cases h
    · obtain ⟨_, _, _, _, _, _, rfl⟩ := process1_err.mp h; exact ⟨rfl, rfl⟩
    · obtain ⟨_, _, _, _, _, _, _, _, _, _, rfl⟩ := process2_err.mp h; exact ⟨rfl, rfl⟩
  generate ord coins r r' out h := by
    simp only [impl] at h ⊢
    cases hs : r.stage <;> rw [hs] at h
    · obtain ⟨_, _, rfl, _⟩ := generate0_ok.mp h; exact ⟨rfl, rfl⟩
    · obtain ⟨_, _, _, _, rfl, _⟩ := generate1_ok_fields h; exact ⟨rfl, rfl⟩
    · obtain ⟨_, _, rfl, _⟩ := generate2_ok.mp h; exact ⟨rfl, rfl⟩
  generateErr ord coins r e r' h := by
    simp only [impl] at h ⊢
    cases hs : r.stage <;> rw [hs] at h
    · exact absurd h (noErr_generate0 _ _ _)
    · exact absurd h (noErr_generate1 _ _ _ _)
    · obtain ⟨_, _, rfl⟩ := generate2_err.mp h; exact ⟨rfl, rfl⟩
  next r r' h := by
    simp only [impl] at h ⊢
    cases hs : r.stage <;> rw [hs] at h <;> cases h <;> exact ⟨rfl, rfl⟩
  reset r r' h := by
    cases h
    exact ⟨rfl, rfl⟩

end Verif.Sign
