import Verif.Lemmas.Random
import Verif.Props.SignNet
import Verif.Props.View

/-!
C92: where the random scalars come from, and how they are distributed.
-/

namespace Verif.Props

open Verif Verif.Random Spec State Polynomial

variable {G : Type} [RGroup G] {sha : Sha512}

/-! ### What is read -/

theorem leNat_zeros (b : Bytes) (n : Nat) : leNat (b ++ List.replicate n 0) = leNat b := by
  rw [leNat_append, leNat_replicate_zero, Nat.mul_zero, Nat.add_zero]

/-- C92: what `SetScalarRandom` does with any source: one call for 64 bytes, a panic if it fails, and otherwise the number that the bytes given stand for,
modulo the order of the group, however many there are. -/
theorem C92_scalar {ε : Type} (src : Source) (k : Nat) : setScalarRandom (ε := ε) src k =
    if (src k 64).2 then some (.panic, k + 1) else some (.ok (Spec.leValue ((src k 64).1.take 64) : Scalar), k + 1) := by
  unfold setScalarRandom Random.read
  simp only
  split_ifs
  · rfl
  · rw [Scalar.setUniformBytes, if_neg (by rw [List.length_append, List.length_replicate, List.length_take]; omega), leNat_zeros, leNat_eq_leValue]

theorem readFull_spec (src : Source) (n : Nat) : ∀ got k r k', readFull src n got k = some (r, k') → ∀ b, r = some b → got.length ≤ n →
    b.length = n ∧ ∃ pieces : List Bytes, b = got ++ pieces.flatten ∧ k' = k + pieces.length ∧
      ∀ i (h : i < pieces.length), ∃ m, pieces[i] <+: (src (k + i) m).1 := by
  intro got k r k' h
  refine readFull.partial_correctness src n (motive := fun got k x => ∀ b, x.1 = some b → got.length ≤ n →
    b.length = n ∧ ∃ pieces : List Bytes, b = got ++ pieces.flatten ∧ x.2 = k + pieces.length ∧
      ∀ i (h : i < pieces.length), ∃ m, pieces[i] <+: (src (k + i) m).1) ?_ got k (r, k') h
  intro rec ih got k x hx b hb hl
  by_cases h1 : n ≤ got.length
  · rw [if_pos h1] at hx
    cases hx
    cases hb
    exact ⟨by omega, [], by simp, rfl, by simp⟩
  · rw [if_neg h1] at hx
    simp only at hx
    by_cases h2 : (Random.read src k (n - got.length)).2 = true
    · rw [if_pos h2] at hx
      cases hx
      simp only at hb
      split_ifs at hb with h3
      cases hb
      refine ⟨?_, [(Random.read src k (n - got.length)).1], by simp, rfl, ?_⟩
      · have : (Random.read src k (n - got.length)).1.length ≤ n - got.length := by simp [Random.read]
        rw [List.length_append] at h3 ⊢
        omega
      · intro i hi
        obtain rfl : i = 0 := by simpa using hi
        exact ⟨_, List.take_prefix _ _⟩
    · rw [if_neg h2] at hx
      have hle : (got ++ (Random.read src k (n - got.length)).1).length ≤ n := by
        have : (Random.read src k (n - got.length)).1.length ≤ n - got.length := by simp [Random.read]
        rw [List.length_append]
        omega
      obtain ⟨g1, pieces, g2, g3, g4⟩ := ih _ _ _ hx b hb hle
      refine ⟨g1, (Random.read src k (n - got.length)).1 :: pieces, by rw [g2]; simp, by rw [g3, List.length_cons]; omega, ?_⟩
      intro i hi
      cases i with
      | zero => exact ⟨_, List.take_prefix _ _⟩
      | succ i =>
        obtain ⟨m, hm⟩ := g4 i (by simpa using hi)
        exact ⟨m, by rw [show k + (i + 1) = k + 1 + i by omega]; exact hm⟩

/-- C92: the other coefficients are different: whatever the source does, a coefficient is made of exactly 64 bytes that the source gave, from as many calls
as this takes. -/
theorem C92_coefficient {ε : Type} (src : Source) (k k' : Nat) (c : Scalar) (h : coefficient (ε := ε) src k = some (.ok c, k')) :
    ∃ b : Spec.Block, c = Spec.scalarOf b ∧ ∃ pieces : List Bytes, b.1 = pieces.flatten ∧ k' = k + pieces.length ∧
      ∀ i (h : i < pieces.length), ∃ m, pieces[i] <+: (src (k + i) m).1 := by
  unfold coefficient at h
  split at h
  · cases h
  · cases h
  · rename_i b k'' hb
    obtain ⟨rfl, rfl⟩ : (Scalar.setUniformBytes 0 b).1 = c ∧ k'' = k' := by simpa using h
    obtain ⟨h1, pieces, h2, h3, h4⟩ := readFull_spec src 64 [] k _ _ hb b rfl (by simp)
    refine ⟨⟨b, h1⟩, ?_, pieces, by simpa using h2, h3, h4⟩
    rw [Scalar.setUniformBytes, if_neg (by omega), Spec.scalarOf, leNat_eq_leValue]

/-! ### The model with coins -/

theorem readFull_full {src : Source} {b : Bytes} {k : Nat} (h : src k 64 = (b, false)) (hb : b.length = 64) : readFull src 64 [] k = some (some b, k + 1) := by
  have hr : Random.read src k 64 = (b, false) := by
    unfold Random.read
    rw [h]
    simp [← hb]
  rw [readFull, if_neg (by simp)]
  simp only [List.length_nil, Nat.sub_zero, hr, Bool.false_eq_true, if_false, List.nil_append]
  rw [readFull, if_pos (by omega)]

theorem setScalarRandom_full {ε : Type} {src : Source} {β : Nat → Spec.Block} (h : Spec.Delivers src β) (k : Nat) :
    setScalarRandom (ε := ε) src k = some (.ok (Spec.scalarOf (β k)), k + 1) := by
  rw [C92_scalar, h k]
  simp only [Bool.false_eq_true, if_false]
  rw [List.take_of_length_le (by rw [(β k).2])]
  rfl

theorem coefficient_full {ε : Type} {src : Source} {β : Nat → Spec.Block} (h : Spec.Delivers src β) (k : Nat) :
    coefficient (ε := ε) src k = some (.ok (Spec.scalarOf (β k)), k + 1) := by
  unfold coefficient
  rw [readFull_full (h k) (β k).2]
  simp only
  rw [Scalar.setUniformBytes, if_neg (by rw [(β k).2]; simp), Spec.scalarOf, leNat_eq_leValue]

theorem coefficients_full {ε : Type} {src : Source} {β : Nat → Spec.Block} (h : Spec.Delivers src β) (n k : Nat) :
    coefficients (ε := ε) src n k = some (.ok ((List.range n).map fun i => Spec.scalarOf (β (k + i))), k + n) := by
  induction n generalizing k with
  | zero => rfl
  | succ n ih =>
    show Rand.bind (coefficient src) (fun c => Rand.bind (coefficients src n) fun rest => Rand.lift (.ok (c :: rest))) k = _
    unfold Rand.bind
    rw [coefficient_full h]
    simp only
    rw [ih]
    simp only [Rand.lift, List.range_succ_eq_map, List.map_cons, List.map_map, Nat.add_zero]
    refine congrArg some (Prod.ext ?_ (by show k + 1 + n = k + (n + 1); omega))
    · refine congrArg Outcome.ok (congrArg (Spec.scalarOf (β k) :: ·) ?_)
      refine List.map_congr_left fun i _ => ?_
      show _ = Spec.scalarOf (β (k + (i + 1)))
      rw [show k + (i + 1) = k + 1 + i by omega]

theorem newPolynomial_full {ε : Type} {src : Source} {β : Nat → Spec.Block} (h : Spec.Delivers src β) {t : UInt16} (ht : t ≠ 65535) (c : Scalar) (k : Nat) :
    newPolynomial (ε := ε) src t c k = some (.ok (c :: (List.range t.toNat).map fun i => Spec.scalarOf (β (k + i))), k + t.toNat) := by
  unfold newPolynomial
  rw [if_neg ht]
  show Rand.bind (coefficients src t.toNat) (fun rest => Rand.lift (.ok (c :: rest))) k = _
  unfold Rand.bind
  rw [coefficients_full h]
  rfl

theorem bind_ok {ε α γ : Type} {m : Rand ε α} {f : α → Rand ε γ} {k k' : Nat} {a : α} (h : m k = some (.ok a, k')) : Rand.bind m f k = f a k' := by
  unfold Rand.bind
  rw [h]

theorem bind_lift {ε α γ : Type} (o : Outcome ε α) (f : α → Rand ε γ) (k : Nat) : Rand.bind (Rand.lift o) f k =
    match o with
    | .ok a => f a k
    | .err e => some (.err e, k)
    | .panic => some (.panic, k) := by
  cases o <;> rfl

theorem keygen_lift_ok {α : Type} (r : Keygen.Round G) (a : α) : Keygen.lift r (.ok a) = .ok a := rfl

/-- C92: with a source that gives what it is asked for, the first message of a key generation is made from the next `t + 2` reads, one scalar each, in the
order in which the rest of the model takes its coins. -/
theorem C92_keygen (src : Source) (β : Nat → Spec.Block) (h : Spec.Delivers src β) (r : Keygen.Round G) (ht : r.threshold ≠ 65535) (k : Nat) :
    keygen0 sha src r k = some (Keygen.generate0 sha (Spec.coinsFrom β k) r, k + r.threshold.toNat + 2) := by
  have hp : Poly.new r.threshold (Spec.coinsFrom β k 0) (fun i => Spec.coinsFrom β k (i + 1)) =
      .ok (Spec.scalarOf (β k) :: (List.range r.threshold.toNat).map fun i => Spec.scalarOf (β (k + 1 + i))) := by
    rw [Poly.new_eq ht]
    refine congrArg Outcome.ok (congrArg₂ List.cons rfl (List.map_congr_left fun i _ => ?_))
    show Spec.scalarOf (β (k + (i + 1))) = _
    rw [show k + (i + 1) = k + 1 + i by omega]
  have hk : Spec.coinsFrom β k (r.threshold.toNat + 1) = Spec.scalarOf (β (k + 1 + r.threshold.toNat)) := by
    show Spec.scalarOf (β (k + (r.threshold.toNat + 1))) = _
    rw [show k + (r.threshold.toNat + 1) = k + 1 + r.threshold.toNat by omega]
  unfold Keygen.generate0
  simp only
  rw [hp, hk]
  show Rand.bind (setScalarRandom src) (fun secret => Rand.bind (newPolynomial src r.threshold secret) fun poly => Rand.bind (Rand.lift _) fun pub =>
    Rand.bind (setScalarRandom src) fun k => Rand.bind (Rand.lift _) fun proof => Rand.bind (Rand.lift _) fun x => Rand.bind (Rand.lift _) fun share => Rand.lift _) k = _
  rw [bind_ok (setScalarRandom_full h k), bind_ok (newPolynomial_full h ht _ _)]
  generalize hP : (Spec.scalarOf (β k) :: (List.range r.threshold.toNat).map fun i => Spec.scalarOf (β (k + 1 + i)) : Poly) = P
  have hc : ∃ pub : G, Exponent.constant (Exponent.ofPoly P : Exponent G) = .ok pub := by
    subst hP
    exact ⟨_, rfl⟩
  obtain ⟨pub, hc⟩ := hc
  rw [bind_ok (show Rand.lift (Keygen.lift r (Exponent.constant (Exponent.ofPoly P : Exponent G))) (k + 1 + r.threshold.toNat) = some (.ok pub, k + 1 + r.threshold.toNat) by rw [hc]; rfl),
    bind_ok (setScalarRandom_full h _)]
  rw [show k + r.threshold.toNat + 2 = k + 1 + r.threshold.toNat + 1 by omega]
  rw [keygen_lift_ok, Outcome.ok_bind, hc, keygen_lift_ok, Outcome.ok_bind, show Spec.coinsFrom β k 0 = Spec.scalarOf (β k) from rfl]
  rw [bind_lift]
  cases Keygen.lift r (Schnorr.new sha r.selfID pub Keygen.ctx (Spec.scalarOf (β k)) (Spec.scalarOf (β (k + 1 + r.threshold.toNat)))) with
  | err e => rfl
  | panic => rfl
  | ok proof =>
    simp only [Outcome.ok_bind]
    rw [bind_lift]
    cases Keygen.lift r r.selfID.scalar with
    | err e => rfl
    | panic => rfl
    | ok x =>
      simp only [Outcome.ok_bind]
      rw [bind_lift]
      cases Keygen.lift r (Poly.evaluate P x) with
      | err e => rfl
      | panic => rfl
      | ok share => rfl

/-- C92: likewise for signing, with two reads. -/
theorem C92_sign (src : Source) (β : Nat → Spec.Block) (h : Spec.Delivers src β) (r : Sign.Round G) (hself : r.parties.get? r.selfID ≠ none) (k : Nat) :
    sign0 src r k = some (Sign.generate0 (Spec.coinsFrom β k) r, k + 2) := by
  obtain ⟨p, hp⟩ := Option.ne_none_iff_exists'.mp hself
  show Rand.bind (Rand.lift _) (fun p => Rand.bind (setScalarRandom src) fun d => Rand.bind (setScalarRandom src) fun e => Rand.lift _) k = _
  unfold Rand.bind Sign.generate0
  simp only [hp, Rand.lift, Outcome.deref, setScalarRandom_full h, Outcome.ok_bind]
  rfl

/-- C92: likewise for `GenerateSecrets`, with `t + 1` reads. -/
theorem C92_generateSecrets (src : Source) (β : Nat → Spec.Block) (h : Spec.Delivers src β) (set : IDSlice) (t : UInt16) (ht : t < IDSlice.N set) (k : Nat) :
    Random.generateSecrets (G := G) src set t k = some (Verif.generateSecrets set t (Spec.coinsFrom β k), k + t.toNat + 1) := by
  have hN : ¬ t ≥ IDSlice.N set := by
    rw [ge_iff_le, UInt16.not_le]
    exact ht
  have h1 : t ≠ 65535 := by
    rintro rfl
    rw [UInt16.lt_iff_toNat_lt] at ht
    have := (IDSlice.N set).toNat_lt
    simp at ht
    omega
  have hp : Poly.new t (Spec.coinsFrom β k 0) (fun i => Spec.coinsFrom β k (i + 1)) =
      .ok (Spec.scalarOf (β k) :: (List.range t.toNat).map fun i => Spec.scalarOf (β (k + 1 + i))) := by
    rw [Poly.new_eq h1]
    refine congrArg Outcome.ok (congrArg₂ List.cons rfl (List.map_congr_left fun i _ => ?_))
    show Spec.scalarOf (β (k + (i + 1))) = _
    rw [show k + (i + 1) = k + 1 + i by omega]
  unfold Random.generateSecrets Verif.generateSecrets
  rw [if_neg hN, if_neg hN]
  simp only
  rw [hp]
  show Rand.bind (setScalarRandom src) (fun secret => Rand.bind (newPolynomial src t secret) fun poly => Rand.bind (Rand.lift _) fun shares => Rand.lift _) k = _
  rw [bind_ok (setScalarRandom_full h k), bind_ok (newPolynomial_full h h1 _ _), bind_lift]
  simp only [Outcome.ok_bind]
  rw [show k + t.toNat + 1 = k + 1 + t.toNat by omega]
  cases generateSecretsLoop (G := G) (Spec.scalarOf (β k) :: (List.range t.toNat).map fun i => Spec.scalarOf (β (k + 1 + i))) set [] <;> rfl

/-- C92: nothing else is drawn: apart from its first stage, a key generation does not use its coins. -/
theorem C92_keygen_rest (r : Keygen.Round G) (hr : r.stage ≠ .r0) (ord : MapOrder) (c c' : Coins) :
    (Keygen.impl sha).generateMessages ord c r = (Keygen.impl sha).generateMessages ord c' r := by
  cases hs : r.stage <;> first | exact absurd hs hr | (simp only [Keygen.impl, hs])

/-- C92: and neither does a signing session. -/
theorem C92_sign_rest (r : Sign.Round G) (hr : r.stage ≠ .r0) (ord : MapOrder) (c c' : Coins) :
    (Sign.impl sha).generateMessages ord c r = (Sign.impl sha).generateMessages ord c' r := by
  cases hs : r.stage <;> first | exact absurd hs hr | (simp only [Sign.impl, hs])

/-! ### Sources that fail or give too little -/

/-- C92: a source that fails stops both protocols with a panic, before anything is sent. -/
theorem C92_fails (src : Source) (k : Nat) (r : Keygen.Round G) (s : Sign.Round G) (hself : s.parties.get? s.selfID ≠ none) :
    ((src k 64).2 = true → keygen0 sha src r k = some (.panic, k + 1)) ∧
    ((src k 64).2 = true → sign0 src s k = some (.panic, k + 1)) ∧
    ((src k 64).2 = false → (src (k + 1) 64).2 = true → sign0 src s k = some (.panic, k + 2)) := by
  obtain ⟨p, hp⟩ := Option.ne_none_iff_exists'.mp hself
  refine ⟨fun h => ?_, fun h => ?_, fun h h' => ?_⟩
  · show Rand.bind (setScalarRandom src) _ k = _
    unfold Rand.bind
    rw [C92_scalar, if_pos h]
  · show Rand.bind (Rand.lift _) (fun p => Rand.bind (setScalarRandom src) _) k = _
    rw [hp, bind_lift]
    show Rand.bind (setScalarRandom src) _ k = _
    unfold Rand.bind
    rw [C92_scalar, if_pos h]
  · show Rand.bind (Rand.lift _) (fun p => Rand.bind (setScalarRandom src) fun d => Rand.bind (setScalarRandom src) _) k = _
    rw [hp, bind_lift]
    show Rand.bind (setScalarRandom src) _ k = _
    rw [bind_ok (show setScalarRandom src k = some (.ok _, k + 1) by rw [C92_scalar, if_neg (by simp [h])])]
    unfold Rand.bind
    rw [C92_scalar, if_pos h']

/-- C92, refuted for sources that give less than they are asked for: `SetScalarRandom` does not look at the number of bytes that `Read` returns.  With a
source that never fails and gives one byte per call, both nonces of a signer are that byte, and the signer sends its commitments as usual; so whoever
sees its response finds the secret share by trying 65536 pairs of nonces. -/
theorem C92_short_read (src : Source) (b : Nat → UInt8) (h : ∀ k n, src k n = ([b k], false)) (r : Sign.Round G) (hself : r.parties.get? r.selfID ≠ none) (k : Nat) :
    ∃ r', sign0 src r k = some (.ok (r', [Message.newSign1 r.selfID ((b k).toNat • (base : G)) ((b (k + 1)).toNat • (base : G))]), k + 2) ∧
      r'.d = (b k).toNat ∧ r'.e = (b (k + 1)).toNat := by
  obtain ⟨p, hp⟩ := Option.ne_none_iff_exists'.mp hself
  have hs : ∀ k, setScalarRandom (ε := StateErr × Sign.Round G) src k = some (.ok ((b k).toNat : Scalar), k + 1) := by
    intro k
    rw [C92_scalar, h]
    simp [Spec.leValue]
  refine ⟨{ r with d := ((b k).toNat : Scalar), e := ((b (k + 1)).toNat : Scalar), parties := r.parties.set r.selfID { p with Di := some (((b k).toNat : Scalar) • (base : G)), Ei := some (((b (k + 1)).toNat : Scalar) • (base : G)) } }, ?_, rfl, rfl⟩
  show Rand.bind (Rand.lift _) (fun p => Rand.bind (setScalarRandom src) fun d => Rand.bind (setScalarRandom src) fun e => Rand.lift _) k = _
  rw [hp, bind_lift]
  show Rand.bind (setScalarRandom src) _ k = _
  rw [bind_ok (hs k), bind_ok (hs (k + 1))]
  simp only [Rand.lift, Nat.cast_smul_eq_nsmul]

theorem readFull_pieces (src : Source) (pieces : List Bytes) : ∀ got k, (got ++ pieces.flatten).length = 64 → (∀ p ∈ pieces, p ≠ []) →
    (∀ i (hi : i < pieces.length) m, src (k + i) m = (pieces[i], false)) → readFull src 64 got k = some (some (got ++ pieces.flatten), k + pieces.length) := by
  induction pieces with
  | nil =>
    intro got k h _ _
    rw [readFull, if_pos (by simpa using h.ge)]
    simp
  | cons p ps ih =>
    intro got k h hne hs
    have hp : 0 < p.length := List.length_pos_iff.mpr (hne p (List.mem_cons_self ..))
    have hl : got.length + (p.length + ps.flatten.length) = 64 := by simpa using h
    have hr : Random.read src k (64 - got.length) = (p, false) := by
      have := hs 0 (by simp) (64 - got.length)
      rw [Nat.add_zero] at this
      unfold Random.read
      rw [this]
      exact Prod.ext (List.take_of_length_le (by show p.length ≤ _; omega)) rfl
    rw [readFull, if_neg (by omega)]
    simp only [hr, Bool.false_eq_true, if_false]
    rw [ih (got ++ p) (k + 1) (by simpa using h) (fun x hx => hne x (List.mem_cons_of_mem _ hx)) (fun i hi m => by
      have := hs (i + 1) (by simpa using hi) m
      rw [show k + 1 + i = k + (i + 1) by omega]
      simpa using this)]
    refine congrArg some (Prod.ext (by simp) ?_)
    show k + 1 + ps.length = k + (ps.length + 1)
    omega

/-- C92: with such a source the polynomials are as they should be: a coefficient is made from all the pieces of a block, however the source cuts it. -/
theorem C92_pieces {ε : Type} (src : Source) (b : Spec.Block) (pieces : List Bytes) (k : Nat) (hb : pieces.flatten = b.1) (hne : ∀ p ∈ pieces, p ≠ [])
    (h : ∀ i (hi : i < pieces.length) m, src (k + i) m = (pieces[i], false)) :
    coefficient (ε := ε) src k = some (.ok (Spec.scalarOf b), k + pieces.length) := by
  unfold coefficient
  rw [readFull_pieces src pieces [] k (by rw [List.nil_append, hb, b.2]) hne h]
  simp only [List.nil_append, hb]
  rw [Scalar.setUniformBytes, if_neg (by rw [b.2]; simp), Spec.scalarOf, leNat_eq_leValue]

/-! ### The distribution -/

/-- C92: how many of the `2^512` blocks give a scalar: as equally as `2^512` blocks can be shared among `q` scalars. -/
theorem C92_count (x : Scalar) : Nat.card {b : Spec.Block // Spec.scalarOf b = x} = 2 ^ 512 / q + if x.val < 2 ^ 512 % q then 1 else 0 := card_scalarOf x

/-- C92: whatever is done with `n` scalars read from a uniform source has the same result, up to a probability of `n / 2^259`, as with uniform scalars. -/
theorem C92_transfer {ι : Type} [Fintype ι] (P : (ι → Scalar) → Prop) :
    |Spec.prob (fun β : ι → Spec.Block => P fun i => Spec.scalarOf (β i)) - Spec.prob P| ≤ Fintype.card ι / 2 ^ 259 := transfer P

variable {ids : IDSlice} {t : UInt16} {F : Scalar[X]} {message : Bytes} {secret : ID → SecretShare G} {pub : ID → Public G}
  {timeout now : ID → Nat} {init : ID → State G (Sign.Round G)}

/-- C92: a signing session among honest signers succeeds, as in C43, with probability at least `1 - 2 n / 2^252`. -/
theorem C92_signing (hs : Spec.SignSetup sha ids t F message secret pub timeout now init) :
    1 - 2 * ids.length / 2 ^ 252 ≤ Spec.prob fun β : {i // i ∈ ids} × Fin 2 → Spec.Block =>
      ∀ coins : ID → Coins, (∀ i (h : i ∈ ids) (n : Fin 2), coins i n = Spec.scalarOf (β (⟨i, h⟩, n))) →
      ∃ sig : Signature G, PublicKey.verify sha (F.eval 0 • (base : G)) message sig = .ok true ∧
      ∀ N, Spec.Path (Sign.impl sha) ids coins (Spec.Net.start init) N →
        (∀ i ∈ ids, (N.state i).err = none) ∧
        (∀ i ∈ ids, ∀ op, Spec.Allowed coins N i op → ∃ s ret, State.step (Sign.impl sha) (N.state i) op = some (s, ret)) ∧
        (∀ i ∈ ids, (N.state i).done = true → (N.state i).round.output.signature = some sig) ∧
        ∃ N', Spec.Path (Sign.impl sha) ids coins N N' ∧ ∀ i ∈ ids, (N'.state i).done = true ∧ (N'.state i).err = none ∧
          (N'.state i).round.output.signature = some sig := by
  have hc : Fintype.card ({i // i ∈ ids} × Fin 2) = 2 * ids.length := by
    rw [Fintype.card_prod, Fintype.card_fin, Fintype.card_of_subtype ids.toFinset (fun x => by simp), List.toFinset_card_of_nodup hs.nodup, Nat.mul_comm]
  have h := nonzero (ι := {i // i ∈ ids} × Fin 2)
  rw [hc] at h
  refine le_trans (by push_cast at h ⊢; exact h) (prob_mono ?_)
  intro β hβ coins hco
  exact C43_honest_sign hs coins fun i hi => ⟨by rw [show (0 : Nat) = ((0 : Fin 2) : Nat) from rfl, hco i hi 0]; exact hβ _,
    by rw [show (1 : Nat) = ((1 : Fin 2) : Nat) from rfl, hco i hi 1]; exact hβ _⟩

/-- C92: the shares of any `t` others say nothing about the secret, up to a probability of `2 t / 2^259`: no test on them behaves differently for two
secrets. -/
theorem C92_secrecy {t : Nat} (T : Fin t → ID) (hT : Function.Injective T) (h0 : ∀ j, T j ≠ 0) (x y : Scalar) (P : (Fin t → Scalar) → Prop) :
    |Spec.prob (fun β : Fin t → Spec.Block => P fun j => Spec.evalAt (x :: List.ofFn fun i => Spec.scalarOf (β i)) (T j).val) -
      Spec.prob (fun β : Fin t → Spec.Block => P fun j => Spec.evalAt (y :: List.ofFn fun i => Spec.scalarOf (β i)) (T j).val)| ≤ 2 * t / 2 ^ 259 := by
  have key : ∀ x : Scalar, |Spec.prob (fun β : Fin t → Spec.Block => P fun j => Spec.evalAt (x :: List.ofFn fun i => Spec.scalarOf (β i)) (T j).val) - Spec.prob P| ≤ t / 2 ^ 259 := by
    intro x
    have h := transfer (ι := Fin t) fun c => P fun j => Spec.evalAt (x :: List.ofFn c) (T j).val
    rw [Fintype.card_fin] at h
    rw [← prob_equiv (Equiv.ofBijective _ (C80_shares_uniform T hT h0 x)) P]
    exact h
  have h1 := abs_le.mp (key x)
  have h2 := abs_le.mp (key y)
  have h3 : (2 * t / 2 ^ 259 : ℝ) = t / 2 ^ 259 + t / 2 ^ 259 := by ring
  rw [abs_le, h3]
  constructor <;> linarith [h1.1, h1.2, h2.1, h2.2]

end Verif.Props
