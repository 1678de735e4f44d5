import Verif.Spec.View
import Verif.Lemmas.Simulate
import Verif.Props.KeygenNet
import Verif.Props.Agree

/-!
What `t` parties see of an honest party's key generation can be made from its public contribution alone (C80).
-/

namespace Verif.Keygen

open Polynomial State

variable {G : Type} [RGroup G] {sha : Sha512}

theorem nodes_card {T : List ID} (hT : T.Nodup) (h0 : (0 : ID) ∉ T) : (Spec.nodes T).card = T.length + 1 := by
  unfold Spec.nodes
  rw [Finset.card_insert_of_notMem, List.toFinset_card_of_nodup, List.length_map]
  · exact hT.map fun a b h => ID.val_injective h
  · simp only [List.mem_toFinset, List.mem_map, not_exists, not_and]
    intro a ha h
    exact h0 (ID.val_eq_zero.mp h ▸ ha)

theorem nodes_sum {M : Type} [AddCommMonoid M] {T : List ID} (hT : T.Nodup) (h0 : (0 : ID) ∉ T) (f : Scalar → M) :
    ∑ x ∈ Spec.nodes T, f x = f 0 + (T.map fun j => f j.val).sum := by
  unfold Spec.nodes
  rw [Finset.sum_insert, List.sum_toFinset, List.map_map]
  · rfl
  · exact hT.map fun a b h => ID.val_injective h
  · simp only [List.mem_toFinset, List.mem_map, not_exists, not_and]
    intro a ha h
    exact h0 (ID.val_eq_zero.mp h ▸ ha)

theorem sum_map_smul (l : List ID) (f : ID → Scalar) (b : G) : (l.map f).sum • b = (l.map fun j => f j • b).sum := by
  induction l with
  | nil => simp
  | cons a l ih => rw [List.map_cons, List.map_cons, List.sum_cons, List.sum_cons, add_smul, ih]

/-- The coefficients of a polynomial from its values at `0` and on `T`. -/
theorem coeff_from {T : List ID} (hT : T.Nodup) (h0 : (0 : ID) ∉ T) (a : Scalar) (p : List Scalar) (hlen : T.length = p.length) {k : Nat}
    (hk : k < (a :: p).length) :
    (a :: p)[k] = (Lagrange.basis (Spec.nodes T) id 0).coeff k * a +
        (T.map fun j => (Lagrange.basis (Spec.nodes T) id j.val).coeff k * Spec.evalAt (a :: p) j.val).sum := by
  have hdeg : (Spec.toPoly (a :: p)).degree < (Spec.nodes T).card := by
    rw [nodes_card hT h0, hlen, ← List.length_cons (a := a)]
    exact toPoly_degree_lt _
  have hf := Lagrange.eq_interpolate (s := Spec.nodes T) (v := id) (Set.injOn_id _) hdeg
  have h1 : (a :: p)[k] = (Spec.toPoly (a :: p)).coeff k := by rw [toPoly_coeff, List.getD_eq_getElem?_getD, List.getElem?_eq_getElem hk]; rfl
  have h2 : Spec.evalAt (a :: p) (0 : Scalar) = a := by
    rw [← toPoly_eval]; exact toPoly_zero_eval _ _
  rw [h1]
  conv_lhs => rw [hf]
  rw [Lagrange.interpolate_apply, finsetSum_coeff]
  rw [nodes_sum hT h0]
  simp only [coeff_C_mul, id, toPoly_eval, h2]
  simp only [mul_comm]

theorem commitments_from {t : UInt16} {T : List ID} (hT : T.Nodup) (h0 : (0 : ID) ∉ T) (hlen : T.length = t.toNat) (c : Coins) :
    (Exponent.ofPoly (coinPoly t c) : Exponent G) =
      Spec.commitmentsFrom t.toNat T (c 0 • base) fun j => Spec.evalAt (coinPoly t c) j.val := by
  apply List.ext_getElem
  · simp [Exponent.ofPoly, coinPoly_length, Spec.commitmentsFrom]
  · intro k hk _
    have hk' : k < (coinPoly t c).length := by simpa [Exponent.ofPoly] using hk
    have hco := coeff_from hT h0 (c 0) ((List.range t.toNat).map fun i => c (i + 1)) (by simpa using hlen) (k := k) hk'
    change (coinPoly t c)[k] = _ at hco
    simp only [Exponent.ofPoly, List.getElem_map, Spec.commitmentsFrom, List.getElem_range, hco]
    rw [add_smul, mul_smul]
    congr 1
    exact sum_map_smul _ _ _

theorem ok_bind {ε α β : Type} (a : α) (f : α → Outcome ε β) : (Outcome.ok a >>= f) = f a := rfl

/-- The objects of the party and of its stand-in: all but the secret parts agree. -/
structure Masked (me : ID) (ids : IDSlice) (t : UInt16) (r r' : Round G) : Prop where
  eq : r' = { r with secret := r'.secret, polynomial := r'.polynomial, output := ⟨r.output.pub, r'.output.secretKey⟩ }
  poly : r'.polynomial.isSome = r.polynomial.isSome
  self : r.selfID = me
  ids : r.partyIDs = ids
  thr : r.threshold = t

/-- Before the messages of a round are made. -/
structure MaskedRun (me : ID) (ids : IDSlice) (t : UInt16) (c : Coins) (r r' : Round G) : Prop extends Masked me ids t r r' where
  coin : r.stage = .r1 → r.polynomial = some (coinPoly t c)

/-- After the messages of a round are made. -/
structure MaskedMade (me : ID) (ids : IDSlice) (t : UInt16) (c : Coins) (r r' : Round G) : Prop extends Masked me ids t r r' where
  coin : r.stage = .r0 → r.polynomial = some (coinPoly t c)

theorem reset_masked {self : ID} {ids : IDSlice} {t : UInt16} {r r' : Round G} (h : Masked self ids t r r') :
    Option.Rel (Masked self ids t) (reset r) (reset r') := by
  obtain ⟨h1, h2, h3, h4, h5⟩ := h
  generalize hs : r'.secret = s at h1
  generalize hp : r'.polynomial = p at h1 h2
  generalize ho : r'.output.secretKey = o at h1
  subst h1
  simp only [reset]
  cases hrp : r.polynomial with
  | none =>
    rw [hrp] at h2
    cases p with
    | none => exact .none
    | some p => cases h2
  | some p' =>
    rw [hrp] at h2
    cases p with
    | none => cases h2
    | some p =>
      cases hrc : r.commitmentsSum with
      | none => exact .none
      | some cs => exact .some ⟨rfl, rfl, h3, h4, h5⟩

theorem process1_masked {self : ID} {ids : IDSlice} {t : UInt16} {r r' : Round G} (h : Masked self ids t r r') (m : Option (Message G)) :
    Outcome.Rel (fun p p' => p'.1 = p.1 ∧ Masked self ids t p.2 p'.2 ∧ p.2.stage = r.stage ∧ p.2.polynomial = r.polynomial)
      (fun q q' => Masked self ids t q q' ∧ q.stage = r.stage ∧ q.polynomial = r.polynomial) (process1 sha r m) (process1 sha r' m) := by
  obtain ⟨h1, h2, h3, h4, h5⟩ := h
  generalize hs : r'.secret = s at h1
  generalize hp : r'.polynomial = p at h1 h2
  generalize ho : r'.output.secretKey = o at h1
  subst h1
  cases m with
  | none => exact .panic
  | some m =>
    simp only [process1, Outcome.deref, ok_bind]
    cases hk : m.keyGen1 with
    | none => exact .panic
    | some k =>
      simp only [ok_bind]
      cases hc : Exponent.constant k.commitments with
      | panic => exact .panic
      | err e => exact .err ⟨rfl, ⟨rfl, h2, h3, h4, h5⟩, rfl, rfl⟩
      | ok a =>
        simp only [lift, ok_bind, verify_eq]
        split
        · exact .err ⟨rfl, ⟨rfl, h2, h3, h4, h5⟩, rfl, rfl⟩
        · cases hcs : r.commitmentsSum with
          | none => exact .panic
          | some cs => exact .ok ⟨⟨rfl, h2, h3, h4, h5⟩, rfl, rfl⟩

theorem process2_masked {self : ID} {ids : IDSlice} {t : UInt16} {r r' : Round G} (h : Masked self ids t r r') (m : Option (Message G)) :
    Outcome.Rel (fun p p' => p'.1 = p.1 ∧ Masked self ids t p.2 p'.2 ∧ p.2.stage = r.stage ∧ p.2.polynomial = r.polynomial)
      (fun q q' => Masked self ids t q q' ∧ q.stage = r.stage ∧ q.polynomial = r.polynomial) (process2 r m) (process2 r' m) := by
  obtain ⟨h1, h2, h3, h4, h5⟩ := h
  generalize hs : r'.secret = s at h1
  generalize hp : r'.polynomial = p at h1 h2
  generalize ho : r'.output.secretKey = o at h1
  subst h1
  cases m with
  | none => exact .panic
  | some m =>
    simp only [process2, Outcome.deref, ok_bind, ID.scalar_eq]
    cases hk : m.keyGen2 with
    | none => exact .panic
    | some k =>
      simp only [ok_bind]
      cases hc : r.commitments.get? m.header.fromID with
      | none => exact .panic
      | some a =>
        simp only [lift, ok_bind]
        cases hev : Exponent.evaluate a r.selfID.val with
        | panic => exact .panic
        | err e => exact .err ⟨rfl, ⟨rfl, h2, h3, h4, h5⟩, rfl, rfl⟩
        | ok b =>
          simp only [ok_bind]
          split
          · exact .err ⟨rfl, ⟨rfl, h2, h3, h4, h5⟩, rfl, rfl⟩
          · exact .ok ⟨⟨rfl, h2, h3, h4, h5⟩, rfl, rfl⟩

theorem generate2_masked {self : ID} {ids : IDSlice} {t : UInt16} {r r' : Round G} (h : Masked self ids t r r') :
    Outcome.Rel (fun p p' => p'.1 = p.1 ∧ Masked self ids t p.2 p'.2 ∧ p.2.stage = r.stage)
      (fun q q' => Masked self ids t q.1 q'.1 ∧ q.1.stage = r.stage ∧ q.2 = [] ∧ q'.2 = []) (generate2 r) (generate2 r') := by
  obtain ⟨h1, h2, h3, h4, h5⟩ := h
  generalize hs : r'.secret = s at h1
  generalize hp : r'.polynomial = p at h1 h2
  generalize ho : r'.output.secretKey = o at h1
  subst h1
  simp only [generate2]
  cases hcs : r.commitmentsSum with
  | none => exact .panic
  | some cs =>
    simp only [Outcome.deref, ok_bind]
    cases hev : Exponent.evaluateMulti cs r.partyIDs [] with
    | panic => exact .panic
    | err e => exact absurd hev (noErr_evaluateMulti _ _ _ _)
    | ok b =>
      simp only [lift, ok_bind]
      cases hc : Exponent.constant cs with
      | panic => exact .panic
      | err e => exact absurd hc (noErr_constant _ _)
      | ok a =>
        simp only [ok_bind]
        split
        · exact .panic
        · exact .ok ⟨⟨rfl, h2, h3, h4, h5⟩, rfl, rfl, rfl⟩

/-- What the stand-in for a party with the coins `c` is given. -/
def Spec.givenOf (t : UInt16) (c : Coins) : Verif.Spec.Given G := ⟨c 0 • base, c (t.toNat + 1), fun j => Spec.evalAt (coinPoly t c) j.val⟩

theorem dealt_seen {self : ID} {ids T : List ID} (h0 : (0 : ID) ∉ ids) (poly : Poly) :
    (dealt self poly ids : List (Message G)).filter (Spec.sees T) =
      (ids.filter fun id => id ≠ self ∧ id ∈ T).map fun id => Message.newKeyGen2 self id (Spec.evalAt poly id.val) := by
  unfold dealt
  rw [List.filter_map, List.filter_filter]
  congr 1
  apply List.filter_congr
  intro a ha
  have : a ≠ 0 := fun h => h0 (h ▸ ha)
  simp [Spec.sees, Message.newKeyGen2, this, Bool.and_comm]

theorem standIn_imitates {self : ID} {ids : IDSlice} {t : UInt16} {T : List ID} (c : Coins) (hself : self ∈ ids) (h0 : (0 : ID) ∉ ids)
    (hT : T.Nodup) (hT0 : (0 : ID) ∉ T) (hTs : self ∉ T) (hlen : T.length = t.toNat) :
    Imitates (impl sha : RoundImpl G (Round G)) (Verif.Spec.standIn sha T (Spec.givenOf t c)) (MaskedRun self ids t c) (MaskedMade self ids t c)
      (Masked self ids t) c (Verif.Spec.sees T) where
  self h := by simp only [impl, Verif.Spec.standIn]; rw [h.eq]
  ids h := by simp only [impl, Verif.Spec.standIn]; rw [h.eq]
  selfE h := by simp only [impl, Verif.Spec.standIn]; rw [h.eq]
  process {r r'} m h := by
    have hst : r'.stage = r.stage := by rw [h.eq]
    simp only [impl, Verif.Spec.standIn, hst]
    cases hs : r.stage with
    | r0 => exact .ok h
    | r1 =>
      refine (process1_masked (sha := sha) h.toMasked m).imp (fun p p' hp => ⟨hp.1, hp.2.1, fun _ => ?_⟩) (fun p p' hp => ⟨hp.1, fun _ => ?_⟩)
      · rw [hp.2.2.2, h.coin hs]
      · rw [hp.2.2, h.coin hs]
    | r2 =>
      refine (process2_masked h.toMasked m).imp (fun p p' hp => ⟨hp.1, hp.2.1, fun h1 => ?_⟩) (fun p p' hp => ⟨hp.1, fun h1 => ?_⟩)
      · rw [hp.2.2.1, hs] at h1; cases h1
      · rw [hp.2.1, hs] at h1; cases h1
  generate {r r'} ord h := by
    have hst : r'.stage = r.stage := by rw [h.eq]
    simp only [impl, Verif.Spec.standIn, hst]
    cases hs : r.stage with
    | r0 =>
      have hg : generate0 sha c r = .ok _ := generate0_ok.mpr ⟨?_, ?_, rfl, rfl⟩
      · dsimp only
        rw [hg]
        obtain ⟨⟨h1, h2, h3, h4, h5⟩, _⟩ := h
        generalize r'.secret = s at h1
        generalize r'.polynomial = p at h1 h2
        generalize r'.output.secretKey = o at h1
        subst h1
        refine .ok ⟨⟨⟨?_, rfl, h3, h4, h5⟩, fun _ => ?_⟩, ?_⟩
        · dsimp only
          rw [h5, commitments_from hT hT0 hlen, hs]
          rfl
        · dsimp only
          rw [h5]
        · dsimp only
          rw [h5, commitments_from hT hT0 hlen]
          simp [Verif.Spec.sees, Message.newKeyGen1, Spec.givenOf]
      · rw [h.thr]
        rintro rfl
        have h1 : ((0 :: self :: T).map UInt16.toNat).Nodup := by
          refine List.Nodup.map (fun a b h => UInt16.toNat_inj.mp h) ?_
          simp only [List.nodup_cons, List.mem_cons, not_or]
          exact ⟨⟨fun h => h0 (h ▸ hself), hT0⟩, hTs, hT⟩
        have h2 := (h1.subperm (l₂ := List.range 65536) fun x hx => by
          obtain ⟨y, _, rfl⟩ := List.mem_map.mp hx
          exact List.mem_range.mpr y.toNat_lt).length_le
        simp only [List.length_map, List.length_cons, List.length_range, hlen] at h2
        exact absurd h2 (by decide)
      · rw [h.self]
        exact fun h => h0 (h ▸ hself)
    | r1 =>
      have hg : generate1 r = .ok _ := generate1_ok.mpr ⟨_, h.coin hs, ?_, rfl, rfl⟩
      · dsimp only
        rw [hg]
        obtain ⟨⟨h1, h2, h3, h4, h5⟩, h6⟩ := h
        rw [h6 hs] at h2
        generalize r'.secret = s at h1
        generalize r'.polynomial = p at h1 h2
        generalize r'.output.secretKey = o at h1
        subst h1
        refine .ok ⟨⟨⟨rfl, h2, h3, h4, h5⟩, fun h1 => ?_⟩, ?_⟩
        · rw [hs] at h1; cases h1
        · dsimp only
          rw [dealt_seen (h4 ▸ h0)]
          rfl
      · rw [h.ids]
        intro id hid _ h
        exact h0 (h ▸ hid)
    | r2 =>
      refine (generate2_masked h.toMasked).imp (fun p p' hp => ⟨hp.1, hp.2.1, fun h1 => ?_⟩) (fun p p' hp => ⟨⟨hp.1, fun h1 => ?_⟩, ?_⟩)
      · rw [hp.2.2, hs] at h1; cases h1
      · rw [hp.2.1, hs] at h1; cases h1
      · rw [hp.2.2.1, hp.2.2.2]; rfl
  next {r r'} h := by
    obtain ⟨⟨h1, h2, h3, h4, h5⟩, h6⟩ := h
    generalize r'.secret = s at h1
    generalize r'.polynomial = p at h1 h2
    generalize r'.output.secretKey = o at h1
    subst h1
    simp only [impl, Verif.Spec.standIn]
    cases hs : r.stage with
    | r0 => exact .some ⟨⟨rfl, h2, h3, h4, h5⟩, fun _ => h6 hs⟩
    | r1 => exact .some ⟨⟨rfl, h2, h3, h4, h5⟩, fun h => by cases h⟩
    | r2 => exact .none
  reset h := reset_masked h.toMasked
  resetG h := reset_masked h.toMasked

end Verif.Keygen

namespace Verif.Props

open State Keygen

variable {G : Type} [RGroup G]

/-- The commitments that an honest party broadcasts are determined by the public key of its contribution and its shares for any `t`
others. -/
theorem C80_commitments {t : UInt16} {T : List ID} (hT : T.Nodup) (h0 : (0 : ID) ∉ T) (hlen : T.length = t.toNat) (c : Coins) :
    (Exponent.ofPoly (coinPoly t c) : Exponent G) =
      Verif.Spec.commitmentsFrom t.toNat T (c 0 • base) fun j => Verif.Spec.evalAt (coinPoly t c) j.val :=
  commitments_from hT h0 hlen c

/-- For every secret, each choice of the shares of `t` others comes from exactly one choice of the `t` other coefficients: if these are
uniform, so are the shares, whatever the secret. -/
theorem C80_shares_uniform {t : Nat} (T : Fin t → ID) (hT : Function.Injective T) (h0 : ∀ j, T j ≠ 0) (secret : Scalar) :
    Function.Bijective fun (c : Fin t → Scalar) (j : Fin t) => Verif.Spec.evalAt (shamirList secret c) (T j).val := by
  have : Fact (1 < q) := ⟨by decide +kernel⟩
  have : NeZero q := ⟨by decide +kernel⟩
  have : Fintype Scalar := inferInstanceAs (Fintype (ZMod q))
  refine Finite.injective_iff_bijective.mp ?_
  intro c c' h
  have hl : (List.ofFn T).Nodup := List.nodup_ofFn.mpr hT
  have hl0 : (0 : ID) ∉ List.ofFn T := by
    rw [List.mem_ofFn]
    rintro ⟨j, hj⟩
    exact h0 j hj
  funext j
  have e1 := coeff_from hl hl0 secret (List.ofFn c) (by simp) (k := j.val + 1) (by simp)
  have e2 := coeff_from hl hl0 secret (List.ofFn c') (by simp) (k := j.val + 1) (by simp)
  simp only [List.getElem_cons_succ, List.getElem_ofFn] at e1 e2
  rw [e1, e2]
  congr 2
  apply List.map_congr_left
  intro a ha
  obtain ⟨i, rfl⟩ := List.mem_ofFn.mp ha
  exact congrArg _ (congrFun h i)

/-- The stand-in uses the shares of the members of `T` only. -/
theorem C80_standIn_local (sha : Sha512) (T : List ID) (v v' : Verif.Spec.Given G) (hk : v.key = v'.key) (hn : v.nonce = v'.nonce)
    (hs : ∀ j ∈ T, v.share j = v'.share j) : Verif.Spec.standIn sha T v = Verif.Spec.standIn sha T v' := by
  have h1 : ∀ n, Verif.Spec.commitmentsFrom n T v.key v.share = Verif.Spec.commitmentsFrom n T v'.key v'.share := by
    intro n
    unfold Verif.Spec.commitmentsFrom
    apply List.map_congr_left
    intro k _
    rw [hk]
    congr 2
    apply List.map_congr_left
    intro j hj
    rw [hs j hj]
  have hg : (Verif.Spec.standIn sha T v).generateMessages = (Verif.Spec.standIn sha T v').generateMessages := by
   funext _ _ r
   simp only [Verif.Spec.standIn]
   cases r.stage with
   | r0 => simp only [h1, hn]
   | r1 =>
    simp only [Outcome.ok.injEq, Prod.mk.injEq, true_and]
    apply List.map_congr_left
    intro j hj
    rw [hs j (by simpa using (List.mem_filter.mp hj).2 |> fun h => (of_decide_eq_true h).2)]
   | r2 => rfl
  exact congrArg (fun g => { Keygen.impl sha with generateMessages := g }) hg

/-- What is seen of a history: the calls, and the return values without the messages that `T` does not see. -/
def Spec.visible (T : List ID) (h : List (Op G × Ret G)) : List (Op G × Ret G) := h.map fun p => (p.1, seen (Verif.Spec.sees T) p.2)

section

variable {sha : Sha512} {self : ID} {ids : IDSlice} {t : UInt16} {T : List ID} {timeout now : Nat} {s₀ : State G (Round G)}

theorem view_start (c : Coins) (hs : newKeygenState sha self ids t timeout now = .ok s₀) :
    Mirror (MaskedRun self ids t c) (Masked self ids t) s₀ s₀ := by
  obtain ⟨r₀, h1, rfl⟩ := newKeygenState_ok.mp hs
  unfold newRound newBaseRound at h1
  simp only [Outcome.bind_eq_ok, Outcome.failIf_eq_ok, Outcome.pure_def, Outcome.ok.injEq] at h1
  obtain ⟨_, h2, _, h3, _, h4, rfl⟩ := h1
  exact ⟨rfl, fun _ => ⟨⟨rfl, rfl, rfl, rfl, rfl⟩, fun h => by cases h⟩, fun h => by cases h⟩

/-- Whatever the others send, in whatever order and with whatever timing: what `t` parties see of an honest party, together with its
errors, its end and the public key it computes, is what they see of the stand-in, which knows of the party's polynomial only the public
key of its constant term and the shares of those `t` parties. -/
theorem C80_view (c : Coins) (h0 : (0 : ID) ∉ ids) (hT : T.Nodup) (hT0 : (0 : ID) ∉ T) (hTs : self ∉ T) (hlen : T.length = t.toNat)
    (hs : newKeygenState sha self ids t timeout now = .ok s₀) {h : List (Op G × Ret G)} {s : State G (Round G)}
    (hh : Hist (Keygen.impl sha) s₀ h s) (hc : ∀ ord c' r, (Op.processAll ord c', r) ∈ h → c' = c) :
    ∃ s', Hist (Verif.Spec.standIn sha T (Keygen.Spec.givenOf t c)) s₀ (Spec.visible T h) s' ∧
      s'.err = s.err ∧ s'.done = s.done ∧ s'.round.output.pub = s.round.output.pub ∧
      ∀ op, (∀ ord c', op = .processAll ord c' → c' = c) →
        (step (Verif.Spec.standIn sha T (Keygen.Spec.givenOf t c)) s' op = none ↔ step (Keygen.impl sha) s op = none) := by
  have hI := standIn_imitates (sha := sha) (G := G) c (C34_accepted self ids t timeout now s₀ hs).1 h0 hT hT0 hTs hlen
  obtain ⟨s', h1, h2⟩ := hist_mirror hI (view_start c hs) hh hc
  refine ⟨s', h1, by rw [h2.eq], by rw [h2.eq], ?_, ?_⟩
  · cases hd : s.done with
    | true => rw [(h2.ended hd).eq]
    | false => rw [(h2.running hd).eq]
  · intro op hop
    have := step_mirror hI h2 op hop
    revert this
    generalize step (Keygen.impl sha) s op = a
    generalize step (Verif.Spec.standIn sha T (Keygen.Spec.givenOf t c)) s' op = b
    intro hab
    cases hab <;> simp

/-- And conversely: nothing is seen of the stand-in that is not seen of the party. -/
theorem C80_view_converse (c : Coins) (h0 : (0 : ID) ∉ ids) (hT : T.Nodup) (hT0 : (0 : ID) ∉ T) (hTs : self ∉ T) (hlen : T.length = t.toNat)
    (hs : newKeygenState sha self ids t timeout now = .ok s₀) {h' : List (Op G × Ret G)} {s' : State G (Round G)}
    (hh : Hist (Verif.Spec.standIn sha T (Keygen.Spec.givenOf t c)) s₀ h' s') (hc : ∀ ord c' r, (Op.processAll ord c', r) ∈ h' → c' = c) :
    ∃ h s, Hist (Keygen.impl sha) s₀ h s ∧ h' = Spec.visible T h ∧ s'.err = s.err ∧ s'.done = s.done ∧
      s'.round.output.pub = s.round.output.pub := by
  have hI := standIn_imitates (sha := sha) (G := G) c (C34_accepted self ids t timeout now s₀ hs).1 h0 hT hT0 hTs hlen
  obtain ⟨h, s, h1, h2, h3⟩ := hist_mirror_back hI (view_start c hs) hh hc
  refine ⟨h, s, h1, h2, by rw [h3.eq], by rw [h3.eq], ?_⟩
  cases hd : s.done with
  | true => rw [(h3.ended hd).eq]
  | false => rw [(h3.running hd).eq]

/-- A run with honest others meets the hypotheses of `C80_view`, reaches the end, and shows the broadcast and the shares for `T`, no
other shares. -/
theorem C80_complete_run (κ : ID → Coins) (hsorted : ids.Pairwise (· < ·)) (h0 : (0 : ID) ∉ ids) (ht : t ≠ 65535)
    (hs : newKeygenState sha self ids t timeout now = .ok s₀) :
    ∃ h s, Hist (Keygen.impl sha) s₀ h s ∧ (∀ ord c' r, (Op.processAll ord c', r) ∈ h → c' = κ self) ∧ s.done = true ∧ s.err = none ∧
      (∃ ord, (Op.processAll ord (κ self), Ret.messages [Spec.honestBroadcast t self (κ self)]) ∈ Spec.visible T h) ∧
      (∃ ord, (Op.processAll ord (κ self), Ret.messages ((ids.filter fun id => id ≠ self ∧ id ∈ T).map fun id =>
        Spec.honestShare t self id (κ self))) ∈ Spec.visible T h) := by
  have hnd : ids.Nodup := hsorted.imp fun {a b} h e => by subst e; exact absurd h (by simp)
  have hle : ids.Pairwise (· ≤ ·) := hsorted.imp fun h => UInt16.le_of_lt h
  obtain ⟨r₀, hst, rfl⟩ := start_of_new hs hnd
  obtain ⟨s, hh, hd, he⟩ := completes (sha := sha) hst hle h0 ht timeout now (fun k => Spec.honestBroadcast t k (κ k))
    (fun k => Spec.honestShare t k self (κ k)) (fun k => Exponent.ofPoly (coinPoly t (κ k))) (fun k => Verif.Spec.evalAt (coinPoly t (κ k)) self.val)
    (by
      intro k _
      refine ⟨rfl, ⟨0, κ k (t.toNat + 1)⟩, rfl, rfl, ?_⟩
      intro h
      have := congrArg List.length h
      simp [Exponent.ofPoly, coinPoly_length] at this)
    (by
      intro k _
      exact ⟨rfl, rfl, (Exponent.ofPoly_evalAt _ _).symm⟩)
    MapOrder.insertion MapOrder.insertion MapOrder.insertion (κ self) (κ self) (κ self)
  refine ⟨_, s, hh, ?_, hd, he, ⟨MapOrder.insertion, ?_⟩, ⟨MapOrder.insertion, ?_⟩⟩
  · intro ord c' r hm
    simp only [List.mem_append, List.mem_map, List.mem_singleton, Prod.mk.injEq, reduceCtorEq, false_and, and_false, exists_false,
      Op.processAll.injEq, or_false] at hm
    rcases hm with (⟨⟨_, h⟩, _⟩ | ⟨⟨_, h⟩, _⟩) | ⟨⟨_, h⟩, _⟩ <;> exact h
  · refine List.mem_map.mpr ⟨(.processAll MapOrder.insertion (κ self), .messages [Spec.honestBroadcast t self (κ self)]), ?_, ?_⟩
    · simp only [List.append_assoc]
      exact List.mem_append_left _ (List.mem_singleton.mpr rfl)
    · simp [seen, Verif.Spec.sees, Spec.honestBroadcast, Message.newKeyGen1]
  · refine List.mem_map.mpr ⟨(.processAll MapOrder.insertion (κ self), .messages (dealt self (coinPoly t (κ self)) ids)), ?_, ?_⟩
    · simp
    · simp only [seen, dealt_seen h0]
      rfl

end

/-- Party 1 of three, threshold 1, before party 3. -/
example : ∃ (h : List (Op Toy × Ret Toy)) (s' : State Toy (Round Toy)),
    Hist (Verif.Spec.standIn toySha [3] (Keygen.Spec.givenOf 1 (Demo.coins [5, 6]))) (Demo.session Demo.ids 1 1) h s' ∧
    s'.done = true ∧ s'.err = none ∧ ∃ ord c, (Op.processAll ord c, Ret.messages [Spec.honestShare 1 1 3 (Demo.coins [5, 6])]) ∈ h := by
  obtain ⟨h, s, h1, h2, h3, h4, _, ord, h5⟩ := C80_complete_run (sha := toySha) (T := [3]) (fun _ => Demo.coins [5, 6])
    (by decide : Demo.ids.Pairwise (· < ·)) (by decide) (by decide : (1 : UInt16) ≠ 65535) (Demo.keygen_setup.start 1 (by decide))
  obtain ⟨s', g1, g2, g3, _⟩ := C80_view (T := [3]) (Demo.coins [5, 6]) (by decide) (by decide) (by decide) (by decide) (by decide)
    (Demo.keygen_setup.start 1 (by decide)) h1 h2
  exact ⟨_, s', g1, g3.trans h3, g2.trans h4, ord, _, h5⟩

/-- Shares of parties 3 and 7 of a polynomial of degree 2. -/
example : Function.Bijective fun (c : Fin 2 → Scalar) (j : Fin 2) => Verif.Spec.evalAt (shamirList 10 c) (ID.val (![3, 7] j)) :=
  C80_shares_uniform ![3, 7] (by decide) (by decide) 10

end Verif.Props
