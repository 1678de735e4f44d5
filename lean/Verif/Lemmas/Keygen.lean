import Verif.Model.Keygen
import Verif.Lemmas.Outcome
import Verif.Lemmas.StateInv
import Verif.Props.Polynomial
import Verif.Props.Schnorr

/-!
What the methods of the keygen rounds do, spelled out.
-/

namespace Verif.Keygen

open Verif.Outcome

variable {G : Type} [RGroup G]

theorem lift_eq_ok {α : Type} {r : Round G} {x : GoRes α} {a : α} : lift r x = .ok a ↔ x = .ok a := by
  cases x <;> simp [lift]

theorem lift_eq_err {α : Type} {r : Round G} {x : GoRes α} {e : StateErr × Round G} :
    lift r x = .err e ↔ ∃ e', x = .err e' ∧ e = (.new 0 e', r) := by
  cases x <;> simp [lift, eq_comm]

theorem lift_eq_panic {α : Type} {r : Round G} {x : GoRes α} : lift r x = .panic ↔ x = .panic := by
  cases x <;> simp [lift]

theorem lift_noErr {α : Type} {r : Round G} {x : GoRes α} (h : NoErr x) : NoErr (lift r x) := by
  intro e he
  obtain ⟨e', h1, _⟩ := lift_eq_err.mp he
  exact h e' h1

theorem noErr_scalar (id : ID) : NoErr id.scalar := by rw [ID.scalar_eq]; exact noErr_ok _

theorem noErr_polyEval (p : Poly) (x : Scalar) : NoErr (Poly.evaluate p x) := by
  unfold Poly.evaluate; split; exacts [noErr_panic, noErr_ok _]

theorem noErr_polyNew (d : UInt16) (c : Scalar) (coins : Coins) : NoErr (Poly.new d c coins) := by
  unfold Poly.new; split; exacts [noErr_panic, noErr_ok _]

theorem noErr_expEval (p : Exponent G) (x : Scalar) : NoErr (Exponent.evaluate p x) := by
  rw [Exponent.evaluate_eq]; split; exacts [noErr_panic, noErr_ok _]

theorem noErr_constant (p : Exponent G) : NoErr (Exponent.constant p) := noErr_deref _

theorem ctx_length : ctx.length = 32 := by simp [ctx]

theorem verify_eq (sha : Sha512) (π : Schnorr) (id : ID) (pub : G) : Schnorr.verify sha π id pub ctx = .ok (decide (π.S = 0)) :=
  Props.C17_verify_exact_partial sha π id pub ctx (by rw [ctx_length])

theorem schnorr_new_eq (sha : Sha512) (id : ID) (pub : G) (secret k : Scalar) :
    Schnorr.new sha id pub ctx secret k = .ok ⟨0, k⟩ :=
  Props.C17_nonce_in_clear sha id ctx (by rw [ctx_length]) pub secret k

theorem noErr_evaluateMulti (p : Exponent G) (ids : List ID) (m : GoMap G) : NoErr (Exponent.evaluateMulti p ids m) := by
  induction ids generalizing m with
  | nil => exact noErr_ok _
  | cons a ids ih =>
    exact (noErr_scalar a).bind fun x _ => (noErr_expEval p x).bind fun e _ => ih _

theorem noErr_generate1Loop (self : ID) (poly : Poly) (ids : List ID) : NoErr (generate1Loop (G := G) self poly ids) := by
  induction ids with
  | nil => exact noErr_ok _
  | cons a ids ih =>
    unfold generate1Loop
    split
    · exact ih
    · exact (noErr_scalar a).bind fun x _ => (noErr_polyEval poly x).bind fun s _ => ih.bind fun _ _ => noErr_ok _

/-- The commitments sum after one more commitment: unchanged when the length differs. -/
def addOrKeep (sum c : Exponent G) : Exponent G := if sum.length = c.length then List.zipWith (· + ·) sum c else sum

theorem addOrKeep_eq (sum c : Exponent G) :
    (match Exponent.add sum c with | .ok s => s | _ => sum) = addOrKeep sum c := by
  unfold Exponent.add addOrKeep
  by_cases h : sum.length = c.length
  · rw [if_neg (not_not_intro h), if_pos h]
  · rw [if_pos h, if_neg h]

theorem process1_ok {sha : Sha512} {r r' : Round G} {msg : Option (Message G)} :
    process1 sha r msg = .ok r' ↔ ∃ m k c sum, msg = some m ∧ m.keyGen1 = some k ∧ k.commitments[0]? = some c ∧ k.proof.S = 0 ∧
      r.commitmentsSum = some sum ∧
      r' = { r with commitments := r.commitments.set m.header.fromID k.commitments,
                    commitmentsSum := some (addOrKeep sum k.commitments) } := by
  unfold process1
  simp only [bind_eq_ok, deref_eq_ok, lift_eq_ok, verify_eq, Outcome.ok.injEq, exists_eq_left', Exponent.constant]
  constructor
  · rintro ⟨m, rfl, k, hk, c, hc, h⟩
    by_cases hS : k.proof.S = 0
    · rw [if_neg (by simp [hS])] at h
      obtain ⟨sum, h1, h2⟩ := bind_eq_ok.mp h
      rw [deref_eq_ok] at h1
      refine ⟨m, k, c, sum, rfl, hk, hc, hS, h1, ?_⟩
      rw [← addOrKeep_eq]
      exact (Outcome.ok.inj h2).symm
    · rw [if_pos (by simp [hS])] at h
      cases h
  · rintro ⟨m, k, c, sum, rfl, hk, hc, hS, hs, rfl⟩
    refine ⟨m, rfl, k, hk, c, hc, ?_⟩
    rw [if_neg (by simp [hS]), hs, ← addOrKeep_eq]
    rfl

theorem process1_err {sha : Sha512} {r r' : Round G} {msg : Option (Message G)} {e : StateErr} :
    process1 sha r msg = .err (e, r') ↔ ∃ m k c, msg = some m ∧ m.keyGen1 = some k ∧ k.commitments[0]? = some c ∧ k.proof.S ≠ 0 ∧
      e = .new m.header.fromID .zkFailed ∧ r' = r := by
  unfold process1
  simp only [bind_eq_err, deref_eq_err, deref_eq_ok, lift_eq_ok, verify_eq, Outcome.ok.injEq, exists_eq_left', Exponent.constant,
    false_or, lift_eq_err, reduceCtorEq, false_and, exists_false, false_or]
  constructor
  · rintro ⟨m, rfl, k, hk, c, hc, h⟩
    by_cases hS : k.proof.S = 0
    · rw [if_neg (by simp [hS])] at h
      cases hs : r.commitmentsSum <;> rw [hs] at h <;> cases h
    · rw [if_pos (by simp [hS])] at h
      cases h
      exact ⟨m, k, c, rfl, hk, hc, hS, rfl, rfl⟩
  · rintro ⟨m, k, c, rfl, hk, hc, hS, rfl, rfl⟩
    exact ⟨m, rfl, k, hk, c, hc, by rw [if_pos (by simp [hS])]⟩

theorem process2_ok {r r' : Round G} {msg : Option (Message G)} :
    process2 r msg = .ok r' ↔ ∃ m k c, msg = some m ∧ m.keyGen2 = some k ∧ r.commitments.get? m.header.fromID = some c ∧
      r.selfID ≠ 0 ∧ k.share • (base : G) = Spec.evalAt c r.selfID.val ∧ r' = { r with secret := r.secret + k.share } := by
  unfold process2
  simp only [bind_eq_ok, deref_eq_ok, lift_eq_ok, ID.scalar_eq, Outcome.ok.injEq, exists_eq_left']
  constructor
  · rintro ⟨m, rfl, k, hk, c, hc, y, hy, h⟩
    have h0 : r.selfID ≠ 0 := by
      intro h0
      rw [Exponent.evaluate_eq, if_pos (ID.val_eq_zero.mpr h0)] at hy
      cases hy
    rw [Exponent.evaluate_ne_zero _ (fun h => h0 (ID.val_eq_zero.mp h))] at hy
    cases hy
    split at h
    · cases h
    · rename_i hne
      exact ⟨m, k, c, rfl, hk, hc, h0, not_not.mp hne, (Outcome.ok.inj h).symm⟩
  · rintro ⟨m, k, c, rfl, hk, hc, h0, he, rfl⟩
    refine ⟨m, rfl, k, hk, c, hc, _, Exponent.evaluate_ne_zero _ (fun h => h0 (ID.val_eq_zero.mp h)), ?_⟩
    rw [if_neg (not_not_intro he)]
    rfl

theorem process2_err {r r' : Round G} {msg : Option (Message G)} {e : StateErr} :
    process2 r msg = .err (e, r') ↔ ∃ m k c, msg = some m ∧ m.keyGen2 = some k ∧ r.commitments.get? m.header.fromID = some c ∧
      r.selfID ≠ 0 ∧ k.share • (base : G) ≠ Spec.evalAt c r.selfID.val ∧ e = .new m.header.fromID .vssFailed ∧ r' = r := by
  unfold process2
  simp only [bind_eq_err, deref_eq_err, deref_eq_ok, lift_eq_ok, ID.scalar_eq, Outcome.ok.injEq, exists_eq_left', false_or,
    lift_eq_err, reduceCtorEq, false_and, exists_false, false_or]
  constructor
  · rintro ⟨m, rfl, k, hk, c, hc, h | ⟨y, hy, h⟩⟩
    · obtain ⟨e', h1, _⟩ := h
      exact absurd h1 (noErr_expEval _ _ _)
    have h0 : r.selfID ≠ 0 := by
      intro h0
      rw [Exponent.evaluate_eq, if_pos (ID.val_eq_zero.mpr h0)] at hy
      cases hy
    rw [Exponent.evaluate_ne_zero _ (fun h => h0 (ID.val_eq_zero.mp h))] at hy
    cases hy
    split at h
    · rename_i hne
      cases h
      exact ⟨m, k, c, rfl, hk, hc, h0, hne, rfl, rfl⟩
    · cases h
  · rintro ⟨m, k, c, rfl, hk, hc, h0, he, rfl, rfl⟩
    refine ⟨m, rfl, k, hk, c, hc, Or.inr ⟨_, Exponent.evaluate_ne_zero _ (fun h => h0 (ID.val_eq_zero.mp h)), ?_⟩⟩
    rw [if_pos he]

/-- The polynomial made from the coins. -/
def coinPoly (t : UInt16) (coins : Coins) : Poly := coins 0 :: (List.range t.toNat).map fun i => coins (i + 1)

theorem coinPoly_length (t : UInt16) (coins : Coins) : (coinPoly t coins).length = t.toNat + 1 := by simp [coinPoly]

theorem generate0_ok {sha : Sha512} {coins : Coins} {r r' : Round G} {out : List (Message G)} :
    generate0 sha coins r = .ok (r', out) ↔ r.threshold ≠ 65535 ∧ r.selfID ≠ 0 ∧
      r' = { r with secret := Spec.evalAt (coinPoly r.threshold coins) r.selfID.val,
                    polynomial := some (coinPoly r.threshold coins),
                    commitmentsSum := some (Exponent.ofPoly (coinPoly r.threshold coins)) } ∧
      out = [Message.newKeyGen1 r.selfID ⟨0, coins (r.threshold.toNat + 1)⟩
              (Exponent.ofPoly (coinPoly r.threshold coins))] := by
  unfold generate0
  simp only [bind_eq_ok, lift_eq_ok, ID.scalar_eq, Outcome.ok.injEq, exists_eq_left', schnorr_new_eq]
  constructor
  · rintro ⟨poly, hp, pub, hpub, share, hs, h⟩
    have ht : r.threshold ≠ 65535 := by
      intro ht
      rw [ht] at hp
      cases hp
    rw [Poly.new_eq ht] at hp
    cases hp
    have h0 : r.selfID ≠ 0 := by
      intro h0
      rw [Poly.evaluate_eq, if_pos (ID.val_eq_zero.mpr h0)] at hs
      cases hs
    rw [Poly.evaluate_ne_zero _ (fun h => h0 (ID.val_eq_zero.mp h))] at hs
    cases hs
    obtain ⟨h1, h2⟩ := Prod.mk.inj (Outcome.ok.inj h)
    exact ⟨ht, h0, h1.symm, h2.symm⟩
  · rintro ⟨ht, h0, rfl, rfl⟩
    refine ⟨_, Poly.new_eq ht _ _, coins 0 • (base : G), ?_, _, Poly.evaluate_ne_zero _ (fun h => h0 (ID.val_eq_zero.mp h)), rfl⟩
    simp [Exponent.constant, Exponent.ofPoly]

theorem noErr_generate0 (sha : Sha512) (coins : Coins) (r : Round G) : NoErr (generate0 sha coins r) := by
  unfold generate0
  refine (lift_noErr (noErr_polyNew _ _ _)).bind fun p _ => (lift_noErr (noErr_constant _)).bind fun q _ => ?_
  refine NoErr.bind (lift_noErr ?_) fun _ _ => (lift_noErr (noErr_scalar _)).bind fun _ _ =>
    (lift_noErr (noErr_polyEval _ _)).bind fun _ _ => noErr_ok _
  rw [schnorr_new_eq]; exact noErr_ok _

/-- The shares dealt by a party. -/
def dealt (self : ID) (poly : Poly) (ids : List ID) : List (Message G) :=
  (ids.filter (· ≠ self)).map fun id => Message.newKeyGen2 self id (Spec.evalAt poly id.val)

theorem generate1Loop_ok {self : ID} {poly : Poly} {ids : List ID} {out : List (Message G)} :
    generate1Loop self poly ids = .ok out ↔ (∀ id ∈ ids, id ≠ self → id ≠ 0) ∧ out = dealt self poly ids := by
  induction ids generalizing out with
  | nil => simp [generate1Loop, dealt, eq_comm]
  | cons a ids ih =>
    unfold generate1Loop
    by_cases ha : a = self
    · rw [if_pos ha, ih]
      subst ha
      simp [dealt]
    · rw [if_neg ha]
      simp only [bind_eq_ok, ID.scalar_eq, Outcome.ok.injEq, exists_eq_left', ih, pure_def]
      constructor
      · rintro ⟨s, hs, _, ⟨h1, rfl⟩, rfl⟩
        have h0 : a ≠ 0 := by
          intro h0
          rw [Poly.evaluate_eq, if_pos (ID.val_eq_zero.mpr h0)] at hs
          cases hs
        rw [Poly.evaluate_ne_zero _ (fun h => h0 (ID.val_eq_zero.mp h))] at hs
        cases hs
        refine ⟨?_, by simp [dealt, ha]⟩
        intro id hid hne
        rcases List.mem_cons.mp hid with rfl | hid
        · exact h0
        · exact h1 id hid hne
      · rintro ⟨h1, rfl⟩
        have h0 : a ≠ 0 := h1 a List.mem_cons_self ha
        exact ⟨_, Poly.evaluate_ne_zero _ (fun h => h0 (ID.val_eq_zero.mp h)), _,
          ⟨fun id hid => h1 id (List.mem_cons_of_mem _ hid), rfl⟩, by simp [dealt, ha]⟩

theorem generate1_ok {r r' : Round G} {out : List (Message G)} :
    generate1 r = .ok (r', out) ↔ ∃ poly, r.polynomial = some poly ∧ (∀ id ∈ r.partyIDs, id ≠ r.selfID → id ≠ 0) ∧
      r' = { r with polynomial := some poly.reset } ∧ out = dealt r.selfID poly r.partyIDs := by
  unfold generate1
  simp only [bind_eq_ok, deref_eq_ok, lift_eq_ok, generate1Loop_ok, pure_def, Outcome.ok.injEq, Prod.mk.injEq]
  constructor
  · rintro ⟨poly, h1, _, ⟨h2, rfl⟩, rfl, rfl⟩
    exact ⟨poly, h1, h2, rfl, rfl⟩
  · rintro ⟨poly, h1, h2, rfl, rfl⟩
    exact ⟨poly, h1, _, ⟨h2, rfl⟩, rfl, rfl⟩

theorem noErr_generate1 (r : Round G) : NoErr (generate1 r) :=
  (noErr_deref _).bind fun _ _ => (lift_noErr (noErr_generate1Loop _ _ _)).bind fun _ _ => noErr_ok _

theorem evaluateMulti_ok_nonzero {p : Exponent G} {ids : List ID} {m m' : GoMap G}
    (h : Exponent.evaluateMulti p ids m = .ok m') : (0 : ID) ∉ ids := by
  induction ids generalizing m with
  | nil => simp
  | cons a ids ih =>
    simp only [Exponent.evaluateMulti, bind_eq_ok, ID.scalar_eq, Outcome.ok.injEq, exists_eq_left'] at h
    obtain ⟨e, h1, h2⟩ := h
    rw [List.mem_cons, not_or]
    refine ⟨?_, ih h2⟩
    rintro rfl
    rw [Exponent.evaluate_eq, if_pos (ID.val_eq_zero.mpr rfl)] at h1
    cases h1

/-- The public shares computed from the commitments sum. -/
theorem generate2_ok {r r' : Round G} {out : List (Message G)} :
    generate2 r = .ok (r', out) ↔ ∃ sum shares gk, r.commitmentsSum = some sum ∧ (0 : ID) ∉ r.partyIDs ∧
      Exponent.evaluateMulti sum r.partyIDs [] = .ok shares ∧ sum[0]? = some gk ∧ r.hasOutput = true ∧
      r' = { r with output := { pub := some ⟨r.partyIDs, r.threshold, shares, gk⟩,
                                secretKey := some (SecretShare.new r.selfID r.secret) } } ∧ out = [] := by
  unfold generate2
  simp only [bind_eq_ok, deref_eq_ok, lift_eq_ok, Exponent.constant]
  constructor
  · rintro ⟨sum, h1, shares, h2, gk, h3, h⟩
    split at h
    · cases h
    · rename_i ho
      obtain ⟨h4, h5⟩ := Prod.mk.inj (Outcome.ok.inj h)
      exact ⟨sum, shares, gk, h1, evaluateMulti_ok_nonzero h2, h2, h3, by simpa using ho, h4.symm, h5.symm⟩
  · rintro ⟨sum, shares, gk, h1, h0, h2, h3, ho, rfl, rfl⟩
    exact ⟨sum, h1, shares, h2, gk, h3, by rw [if_neg (by simp [ho])]; rfl⟩

theorem noErr_generate2 (r : Round G) : NoErr (generate2 r) := by
  refine (noErr_deref _).bind fun _ _ => (lift_noErr (noErr_evaluateMulti _ _ _)).bind fun _ _ =>
    (lift_noErr (noErr_constant _)).bind fun _ _ => ?_
  split
  · exact noErr_panic
  · exact noErr_ok _

theorem reset_eq {r r' : Round G} : reset r = some r' ↔ ∃ p c, r.polynomial = some p ∧ r.commitmentsSum = some c ∧
    r' = { r with secret := 0, polynomial := some p.reset, commitmentsSum := some (Exponent.reset c),
                  commitments := r.commitments.map fun (id, e) => (id, Exponent.reset e), hasOutput := false } := by
  unfold reset
  cases r.polynomial <;> cases r.commitmentsSum <;> simp [eq_comm]

/-- No method changes the party or the list of parties. -/
theorem impl_stable (sha : Sha512) : (impl sha : RoundImpl G (Round G)).Stable where
  process r m r' h := by
    simp only [impl] at h ⊢
    cases hs : r.stage <;> rw [hs] at h
    · cases h; exact ⟨rfl, rfl⟩
    · obtain ⟨m, k, c, sum, _, _, _, _, _, rfl⟩ := process1_ok.mp h; exact ⟨rfl, rfl⟩
    · obtain ⟨m, k, c, _, _, _, _, _, rfl⟩ := process2_ok.mp h; exact ⟨rfl, rfl⟩
  processErr r m e r' h := by
    simp only [impl] at h ⊢
    cases hs : r.stage <;> rw [hs] at h
    · cases h
    · obtain ⟨m, k, c, _, _, _, _, _, rfl⟩ := process1_err.mp h; exact ⟨rfl, rfl⟩
    · obtain ⟨m, k, c, _, _, _, _, _, _, rfl⟩ := process2_err.mp h; exact ⟨rfl, rfl⟩
  generate ord coins r r' out h := by
    simp only [impl] at h ⊢
    cases hs : r.stage <;> rw [hs] at h
    · obtain ⟨_, _, rfl, _⟩ := generate0_ok.mp h; exact ⟨rfl, rfl⟩
    · obtain ⟨_, _, _, rfl, _⟩ := generate1_ok.mp h; exact ⟨rfl, rfl⟩
    · obtain ⟨_, _, _, _, _, _, _, _, rfl, _⟩ := generate2_ok.mp h; exact ⟨rfl, rfl⟩
  generateErr ord coins r e r' h := by
    simp only [impl] at h
    cases hs : r.stage <;> rw [hs] at h
    · exact absurd h (noErr_generate0 _ _ _ _)
    · exact absurd h (noErr_generate1 _ _)
    · exact absurd h (noErr_generate2 _ _)
  next r r' h := by
    simp only [impl] at h ⊢
    cases hs : r.stage <;> rw [hs] at h <;> cases h <;> exact ⟨rfl, rfl⟩
  reset r r' h := by
    obtain ⟨p, c, _, _, rfl⟩ := reset_eq.mp h
    exact ⟨rfl, rfl⟩

end Verif.Keygen
