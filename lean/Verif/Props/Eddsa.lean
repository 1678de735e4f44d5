import Verif.Lemmas.Eddsa
import Verif.Lemmas.Toy
import Verif.Props.Polynomial
import Verif.Props.Party

/-!
Properties C14, C50 and C52–C56: keys, shares and signatures.
-/

namespace Verif.Props

open Verif

variable {G : Type} [RGroup G]

/-! ### C14 -/

/-- `GenerateSecrets` deals shares of one secret: it succeeds for every list of distinct non-zero IDs and threshold below its
length, gives exactly one share to each party, and any `threshold + 1` or more distinct parties recover the secret with the
coefficients `Lagrange` gives for their set. -/
theorem C14_any_subset_reconstructs (set : IDSlice) (hnd : set.Nodup) (h0 : (0 : ID) ∉ set) (t : UInt16)
    (ht : t.toNat < set.length) (coins : Coins) :
    ∃ shares : GoMap (SecretShare G), generateSecrets set t coins = .ok (coins 0, shares) ∧
      (∀ id, id ∈ set ↔ ∃ s, shares.get? id = some s) ∧
      (∀ id s, shares.get? id = some s → s.id = id ∧ s.pub = s.secret • base) ∧
      ∀ S : List ID, S.Nodup → (∀ i ∈ S, i ∈ set) → t.toNat + 1 ≤ S.length →
        ∃ lam sec : ID → Scalar, (∀ i ∈ S, ID.lagrange i S = .ok (lam i)) ∧
          (∀ i ∈ S, ∃ s, shares.get? i = some s ∧ s.secret = sec i) ∧ (S.map fun i => lam i * sec i).sum = coins 0 := by
  have hN := N_toNat hnd h0
  have hle := nodup_length_le hnd h0
  have htne : t ≠ 65535 := by rintro rfl; have : (65535 : UInt16).toNat = 65535 := rfl; omega
  refine ⟨set.map fun i =>
    (i, SecretShare.new i (Spec.evalAt (coins 0 :: (List.range t.toNat).map fun i => coins (i + 1)) i.val)), ?_, ?_, ?_, ?_⟩
  · unfold generateSecrets
    rw [if_neg (by rw [ge_iff_le, UInt16.le_iff_toNat_le, hN]; omega)]
    simp only [Poly.new_eq htne, Outcome.ok_bind]
    rw [generateSecretsLoop_eq _ _ hnd h0 _ (by simp), Outcome.ok_bind, List.nil_append]
    rfl
  · intro id
    simp only [GoMap.get?_mk]
    by_cases h : id ∈ set <;> simp [h]
  · intro id s
    rw [GoMap.get?_mk]
    split_ifs
    · intro h; obtain rfl := Option.some.inj h; exact ⟨rfl, rfl⟩
    · simp
  · intro S hS hsub hlen
    refine ⟨fun i => ID.lagrangeVal i S, fun i => Spec.evalAt (coins 0 :: (List.range t.toNat).map fun i => coins (i + 1)) i.val,
      ?_, ?_, ?_⟩
    · intro i hi
      rw [ID.lagrange_eq, if_neg (fun h : i = 0 => h0 (h ▸ hsub i hi)), if_pos hi]
    · intro i hi
      exact ⟨_, by rw [GoMap.get?_mk, if_pos (hsub i hi)], rfl⟩
    · rw [interp_poly S hS _ (by simpa using hlen)]; rfl

/-- `GeneratePublic` on dealt shares: the group key is `[secret]B`, the party list is the sorted set, and every party's public
share is `[its secret]B`, for every map iteration order. -/
theorem C14_public_consistent (ord : MapOrder) (set : IDSlice) (hnd : set.Nodup) (h0 : (0 : ID) ∉ set) (t : UInt16)
    (ht : t.toNat < set.length) (coins : Coins) :
    ∃ (shares : GoMap (SecretShare G)) (pub : Public G), generateSecrets set t coins = .ok (coins 0, shares) ∧
      generatePublic ord t shares = .ok pub ∧ pub.groupKey = coins 0 • base ∧ pub.threshold = t ∧
      pub.partyIDs = IDSlice.new set ∧
      (∀ id, id ∈ set ↔ ∃ g, pub.shares.get? id = some g) ∧
      ∀ id s, shares.get? id = some s → pub.shares.get? id = some (s.secret • base) := by
  have hN := N_toNat hnd h0
  have hle := nodup_length_le hnd h0
  have htne : t ≠ 65535 := by rintro rfl; have : (65535 : UInt16).toNat = 65535 := rfl; omega
  set poly : Poly := coins 0 :: (List.range t.toNat).map fun i => coins (i + 1) with hpoly
  set shares : GoMap (SecretShare G) := set.map fun i => (i, SecretShare.new i (Spec.evalAt poly i.val)) with hsh
  have hwf : shares.WF := by unfold GoMap.WF; rw [hsh, GoMap.keys_mk]; exact hnd
  set ordered := ord.order _ shares with hord
  have hperm : ordered.Perm shares := ord.perm _ shares
  have hwf' : ordered.WF := hwf.perm hperm
  set m : GoMap G := ordered.map fun e => (e.1, e.2.secret • (base : G)) with hm
  have hmk : m.keys = ordered.keys := GoMap.keys_map ordered fun s => s.secret • (base : G)
  have hkp : m.keys.Perm set := by
    rw [hmk]
    have := hperm.map Prod.fst
    refine this.trans ?_
    show (GoMap.keys shares).Perm set
    rw [hsh, GoMap.keys_mk]
  have hmwf : m.WF := by unfold GoMap.WF; rw [hmk]; exact hwf'
  have hget : ∀ id, m.get? id = if id ∈ set then some (Spec.evalAt poly id.val • (base : G)) else none := by
    intro id
    rw [hm, GoMap.get?_map ordered (fun s => s.secret • (base : G)), GoMap.get?_perm hwf hperm, hsh, GoMap.get?_mk]
    split_ifs <;> rfl
  have hlen : m.length = set.length := by rw [← GoMap.keys_length, hkp.length_eq]
  refine ⟨shares, ⟨IDSlice.new m.keys, t, m, interp m⟩, ?_, ?_, ?_, rfl, ?_, ?_, ?_⟩
  · unfold generateSecrets
    rw [if_neg (by rw [ge_iff_le, UInt16.le_iff_toNat_le, hN]; omega)]
    simp only [Poly.new_eq htne, Outcome.ok_bind]
    rw [generateSecretsLoop_eq _ _ hnd h0 _ (by simp), Outcome.ok_bind, List.nil_append]
    rfl
  · unfold generatePublic
    have he : ((ord.order _ shares).map fun x => match x with | (id, s) => (id, some (s.secret • (base : G)))) =
        (m.map fun e => (e.1, some e.2)) := by
      rw [hm, List.map_map]; rfl
    rw [he, newPublic_eq ord m hmwf (fun h => h0 (hkp.mem_iff.mp h)), if_neg (by omega)]
  · show interp m = _
    rw [← interp_eq_sum m hmwf hkp.symm]
    have : (set.map fun i => ID.lagrangeVal i set • (m.get? i).getD 0) =
        set.map fun i => (ID.lagrangeVal i set * Spec.evalAt poly i.val) • (base : G) := by
      apply List.map_congr_left
      intro i hi
      rw [hget, if_pos hi, Option.getD_some, mul_smul]
    rw [this, sum_smul_base, interp_poly set hnd poly (by simpa [hpoly] using ht)]
    rfl
  · exact IDSlice.new_eq_of_perm hkp
  · intro id
    show _ ↔ ∃ g, m.get? id = some g
    rw [hget]
    by_cases h : id ∈ set <;> simp [h]
  · intro id s hs
    show m.get? id = _
    rw [hget]
    rw [hsh, GoMap.get?_mk] at hs
    split_ifs at hs ⊢
    obtain rfl := Option.some.inj hs
    rfl

/-- With a threshold not below the number of parties `GenerateSecrets` panics rather than deal an unusable key. -/
theorem C14_threshold_too_large_panics (set : IDSlice) (hnd : set.Nodup) (h0 : (0 : ID) ∉ set) (t : UInt16)
    (ht : set.length ≤ t.toNat) (coins : Coins) : (generateSecrets set t coins : GoRes (Scalar × GoMap (SecretShare G))) = .panic := by
  unfold generateSecrets
  rw [if_pos (by rw [ge_iff_le, UInt16.le_iff_toNat_le, N_toNat hnd h0]; omega)]

example : ([4, 1, 9] : IDSlice).Nodup ∧ (0 : ID) ∉ ([4, 1, 9] : IDSlice) ∧ (2 : UInt16).toNat < ([4, 1, 9] : IDSlice).length := by
  decide

/-! ### C50 -/

/-- The challenge of a signature: SHA-512 of the ed25519 encodings of `R` and `A` and the message, as a little-endian integer,
reduced modulo the group order. -/
def Spec.challenge (sha : Sha512) (R A : G) (m : Bytes) : Scalar :=
  (Spec.leValue (sha.sum (RGroup.bytesEd25519 R ++ RGroup.bytesEd25519 A ++ m)) : Scalar)

theorem computeChallenge_eq (sha : Sha512) (R A : G) (m : Bytes) :
    computeChallenge sha R A m = .ok (Spec.challenge sha R A m) := by
  unfold computeChallenge
  simp only
  rw [Scalar.setUniformBytes_64 _ (sha.length_sum _)]
  simp only [leNat_eq_leValue]
  rfl

/-- `Verify` never panics and decides the signature equation. -/
theorem C50_verify_iff (sha : Sha512) (A : G) (m : Bytes) (sig : Signature G) :
    ∃ b, PublicKey.verify sha A m sig = .ok b ∧
      (b = true ↔ sig.S • (base : G) = sig.R + Spec.challenge sha sig.R A m • A) := by
  refine ⟨_, by unfold PublicKey.verify; rw [computeChallenge_eq]; rfl, ?_⟩
  rw [decide_eq_true_iff]
  constructor
  · intro h
    rw [smul_neg] at h
    generalize hc : Spec.challenge sha sig.R A m = c at h ⊢
    rw [← h]; abel
  · intro h
    rw [h, smul_neg]; abel

/-- Signatures made with the secret key verify. -/
theorem C50_complete (sha : Sha512) (a r : Scalar) (m : Bytes) :
    PublicKey.verify sha (a • (base : G)) m
      ⟨r • base, r + Spec.challenge sha (r • base) (a • (base : G)) m * a⟩ = .ok true := by
  obtain ⟨b, h1, h2⟩ := C50_verify_iff sha (a • (base : G)) m
    ⟨r • base, r + Spec.challenge sha (r • base) (a • (base : G)) m * a⟩
  rw [h1, h2.mpr (by simp only [add_smul, mul_smul])]

/-- For fixed `R`, `A` and message exactly one `S` verifies: signatures are not malleable in `S`. -/
theorem C50_unique (sha : Sha512) (A R : G) (m : Bytes) : ∃! S : Scalar, PublicKey.verify sha A m ⟨R, S⟩ = .ok true := by
  have key : ∀ S : Scalar, PublicKey.verify sha A m ⟨R, S⟩ = .ok true ↔ S • (base : G) = R + Spec.challenge sha R A m • A := by
    intro S
    obtain ⟨b, h1, h2⟩ := C50_verify_iff sha A m ⟨R, S⟩
    rw [h1]
    simpa using h2
  refine ⟨dlog (R + Spec.challenge sha R A m • A), (key _).mpr (dlog_spec _), ?_⟩
  intro S hS
  exact smul_base_injective (G := G) (((key S).mp hS).trans (dlog_spec _).symm)

/-- Changing only the message is accepted only when the two challenges agree modulo the order (or the key is the identity). -/
theorem C50_message_bound (sha : Sha512) (A : G) (hA : A ≠ 0) (m m' : Bytes) (sig : Signature G)
    (h : PublicKey.verify sha A m sig = .ok true) :
    PublicKey.verify sha A m' sig = .ok true ↔ Spec.challenge sha sig.R A m = Spec.challenge sha sig.R A m' := by
  obtain ⟨b, h1, h2⟩ := C50_verify_iff sha A m sig
  obtain ⟨b', h1', h2'⟩ := C50_verify_iff sha A m' sig
  have e1 : b = true := by rw [h] at h1; exact (Outcome.ok.inj h1).symm
  have e2 := h2.mp e1
  rw [h1', Outcome.ok.injEq, h2', e2, add_right_inj]
  constructor
  · intro hh
    have : (Spec.challenge sha sig.R A m - Spec.challenge sha sig.R A m') • A = 0 := by rw [sub_smul, hh, sub_self]
    rcases smul_eq_zero.mp this with h3 | h3
    · exact sub_eq_zero.mp h3
    · exact absurd h3 hA
  · intro hh; rw [hh]

example : PublicKey.verify toySha (Toy.of 7) [1, 2, 3] ⟨Toy.of 10, 10 + 5 * 7⟩ = .ok true := by decide +kernel
example : PublicKey.verify toySha (Toy.of 7) [1, 2, 3] ⟨Toy.of 10, 10 + 5 * 8⟩ = .ok false := by decide +kernel

/-! ### C52 -/

/-- Round trip: the ID and secret come back, with `Public = [Secret]B`. -/
theorem C52_roundtrip (sk : SecretShare G) :
    SecretShare.unmarshalBinary (SecretShare.marshalBinary sk) = .ok (⟨sk.id, sk.secret, sk.secret • base⟩ : SecretShare G) := by
  unfold SecretShare.unmarshalBinary SecretShare.marshalBinary
  have hl : (ID.bytes sk.id).length = 2 := be16_length _
  rw [Outcome.failIf_neg (by rw [List.length_append, hl, Scalar.bytes_length]; omega), Outcome.ok_bind,
    fromBytes_bytes_append, Outcome.ok_bind, sliceFrom_append hl, Outcome.ok_bind, Scalar.set_bytes]
  rfl

/-- For shares built by `NewSecretShare` this is the identity. -/
theorem C52_roundtrip_new (id : ID) (s : Scalar) :
    SecretShare.unmarshalBinary (SecretShare.marshalBinary (SecretShare.new id s : SecretShare G)) =
      .ok (SecretShare.new id s : SecretShare G) :=
  C52_roundtrip _

/-- Accepted inputs have 34 bytes and are the marshalling of the result, whose public part is `[Secret]B`. -/
theorem C52_strict (data : Bytes) (sk : SecretShare G) (h : SecretShare.unmarshalBinary data = .ok sk) :
    data.length = 34 ∧ SecretShare.marshalBinary sk = data ∧ sk.pub = sk.secret • base := by
  unfold SecretShare.unmarshalBinary at h
  by_cases hl : data.length ≠ 34
  · rw [Outcome.failIf_pos hl] at h; simp at h
  rw [Outcome.failIf_neg hl, Outcome.ok_bind] at h
  push Not at hl
  rcases fromBytes_cases data with ⟨_, h'⟩ | ⟨d, rest, h', rfl⟩
  · rw [h'] at h; simp at h
  · rw [h', Outcome.ok_bind, sliceFrom_append (show (ID.bytes d).length = 2 from be16_length d), Outcome.ok_bind] at h
    cases hs : Scalar.setCanonicalBytes rest with
    | none => simp [hs] at h
    | some s =>
      simp only [hs, Outcome.orErr_some, Outcome.ok_bind, Outcome.pure_def, Outcome.ok.injEq] at h
      subst h
      exact ⟨hl, by unfold SecretShare.marshalBinary; rw [Scalar.bytes_set hs], rfl⟩

/-- The inputs accepted are exactly an ID followed by a scalar below the group order. -/
theorem C52_accepts_iff (data : Bytes) : (∃ sk : SecretShare G, SecretShare.unmarshalBinary data = .ok sk) ↔
    data.length = 34 ∧ Spec.leValue (data.drop 2) < q := by
  constructor
  · rintro ⟨sk, h⟩
    obtain ⟨hl, hm, _⟩ := C52_strict data sk h
    refine ⟨hl, ?_⟩
    have hd : data.drop 2 = sk.secret.bytes := by
      rw [← hm]; exact List.drop_left' (be16_length sk.id)
    rw [hd, ← leNat_eq_leValue, Scalar.leNat_bytes]
    exact ZMod.val_lt _
  · rintro ⟨hl, hv⟩
    rcases fromBytes_cases data with ⟨h2, _⟩ | ⟨d, rest, h', rfl⟩
    · omega
    · have hlb : (ID.bytes d).length = 2 := be16_length d
      rw [List.drop_left' hlb, ← leNat_eq_leValue] at hv
      have hrest : rest.length = 32 := by rw [List.length_append, hlb] at hl; omega
      have hs : Scalar.setCanonicalBytes rest = some (leNat rest : Scalar) := by
        rw [Scalar.set_eq_some]; exact ⟨hrest, hv, rfl⟩
      have hb : Scalar.bytes (leNat rest : Scalar) = rest := Scalar.bytes_set hs
      refine ⟨⟨d, (leNat rest : Scalar), (leNat rest : Scalar) • base⟩, ?_⟩
      have := C52_roundtrip (⟨d, (leNat rest : Scalar), 0⟩ : SecretShare G)
      unfold SecretShare.marshalBinary at this
      rw [hb] at this
      exact this

theorem C52_no_panic (data : Bytes) : (SecretShare.unmarshalBinary data : GoRes (SecretShare G)) ≠ .panic := by
  unfold SecretShare.unmarshalBinary
  by_cases hl : data.length ≠ 34
  · rw [Outcome.failIf_pos hl]; simp
  rw [Outcome.failIf_neg hl, Outcome.ok_bind]
  rcases fromBytes_cases data with ⟨_, h'⟩ | ⟨d, rest, h', rfl⟩
  · rw [h']; simp
  · rw [h', Outcome.ok_bind, sliceFrom_append (show (ID.bytes d).length = 2 from be16_length d), Outcome.ok_bind]
    cases hs : Scalar.setCanonicalBytes rest <;> simp

/-- `Equal` compares ID and secret. -/
theorem C52_equal_iff (a b : SecretShare G) : SecretShare.equal a b = true ↔ a.id = b.id ∧ a.secret = b.secret := by
  unfold SecretShare.equal
  by_cases h : a.id = b.id <;> simp [h]

example : SecretShare.unmarshalBinary (SecretShare.marshalBinary (SecretShare.new 258 77 : SecretShare Toy)) =
    .ok (SecretShare.new 258 77 : SecretShare Toy) := C52_roundtrip_new 258 77

/-! ### C53 -/

theorem C53_json_roundtrip (id : ID) (s : Scalar) :
    SecretShare.unmarshalJSON (SecretShare.marshalJSON (SecretShare.new id s : SecretShare G)) = .ok (SecretShare.new id s : SecretShare G) := by
  unfold SecretShare.unmarshalJSON SecretShare.marshalJSON SecretShare.new
  simp only [Scalar.set_bytes, Outcome.orErr_some, Outcome.ok_bind, Outcome.pure_def, Outcome.ok.injEq, SecretShare.mk.injEq,
    and_true]
  have : ((id.toNat : Int) % 65536).toNat = id.toNat := by
    have := id.toNat_lt
    omega
  rw [this, UInt16.ofNat_toNat]

/-- An ID written in range is kept.  (Partial: out of range it is not, see `C53_json_id_truncated`.) -/
theorem C53_json_id_kept_partial (out : SecretShare.Json) (sk : SecretShare G) (h : SecretShare.unmarshalJSON out = .ok sk)
    (hr : 0 ≤ out.id ∧ out.id < 65536) : (sk.id.toNat : Int) = out.id ∧ sk.pub = sk.secret • base ∧ sk.secret.bytes = out.secret := by
  unfold SecretShare.unmarshalJSON at h
  cases hs : Scalar.setCanonicalBytes out.secret with
  | none => simp [hs] at h
  | some s =>
    simp only [hs, Outcome.orErr_some, Outcome.ok_bind, Outcome.pure_def, Outcome.ok.injEq] at h
    subst h
    refine ⟨?_, rfl, Scalar.bytes_set hs⟩
    simp only [UInt16.toNat_ofNat']
    omega

/-- Refuted in general: an ID outside 16 bits is silently truncated. -/
theorem C53_json_id_truncated (s : Scalar) :
    ∃ out : SecretShare.Json, out.id = 65536 + 5 ∧
      SecretShare.unmarshalJSON out = .ok (SecretShare.new 5 s : SecretShare G) := by
  refine ⟨⟨65536 + 5, s.bytes⟩, rfl, ?_⟩
  unfold SecretShare.unmarshalJSON
  simp only [Scalar.set_bytes, Outcome.orErr_some, Outcome.ok_bind]
  rfl

/-! ### C54 -/

/-- `NewPublic` succeeds exactly when no ID is zero, no share is nil and `threshold + 1` is at most the number of shares.
(Partial: threshold 65535 is excluded, see `C54_threshold_65535_accepted`.) -/
theorem C54_newPublic_iff_partial (ord : MapOrder) (shares : GoMap (Option G)) (hwf : shares.WF) (t : UInt16) (ht : t ≠ 65535) :
    (∃ p, newPublic ord shares t = .ok p) ↔
      (0 : ID) ∉ shares.keys ∧ (∀ i ∈ shares.keys, shares.get? i ≠ some none) ∧ t.toNat + 1 ≤ shares.length := by
  by_cases hp : (0 : ID) ∈ shares.keys ∨ ∃ i ∈ shares.keys, shares.get? i = some none
  · rw [(newPublic_panic_iff ord shares hwf t).mpr hp]
    constructor
    · rintro ⟨_, h⟩; cases h
    · rintro ⟨h1, h2, _⟩
      rcases hp with h | ⟨i, hi, h⟩
      · exact absurd h h1
      · exact absurd h (h2 i hi)
  · push Not at hp
    obtain ⟨m', rfl⟩ := exists_shares shares (by
      intro i hi
      obtain ⟨v, hv⟩ := GoMap.mem_keys_iff.mp hi
      cases v with
      | none => exact absurd hv (hp.2 i hi)
      | some g => exact ⟨g, hv⟩) hwf
    have hwf' : m'.WF := by unfold GoMap.WF at hwf ⊢; rwa [GoMap.keys_map] at hwf
    rw [newPublic_eq ord m' hwf' (by rw [← GoMap.keys_map m' some]; exact hp.1)]
    rw [List.length_map]
    by_cases hl : m'.length < t.toNat + 1
    · rw [if_pos ⟨ht, hl⟩]
      simp only [reduceCtorEq, exists_false, false_iff, not_and]
      intro _ _; omega
    · rw [if_neg (fun h => hl h.2)]
      simp only [Outcome.ok.injEq, exists_eq', true_iff]
      exact ⟨hp.1, hp.2, by omega⟩

/-- What the result contains: the sorted key set, the threshold, the shares, and their interpolation at zero. -/
theorem C54_newPublic_result (ord : MapOrder) (m : GoMap G) (hwf : m.WF) (t : UInt16) (p : Public G)
    (h : newPublic ord (m.map fun e => (e.1, some e.2)) t = .ok p) :
    p.partyIDs.Pairwise (· < ·) ∧ (∀ id, id ∈ p.partyIDs ↔ ∃ g, m.get? id = some g) ∧ p.threshold = t ∧ p.shares = m ∧
      p.groupKey = Spec.interpolate m := by
  have h0 : (0 : ID) ∉ m.keys := by
    intro h0
    have hwf' : GoMap.WF (m.map fun e => (e.1, some e.2)) := by unfold GoMap.WF; rw [GoMap.keys_map]; exact hwf
    rw [(newPublic_panic_iff ord _ hwf' t).mpr (Or.inl (by rw [GoMap.keys_map]; exact h0))] at h
    cases h
  rw [newPublic_eq ord m hwf h0] at h
  split_ifs at h
  obtain rfl := Outcome.ok.inj h
  refine ⟨C04_newIDSlice_strict hwf, ?_, rfl, rfl, (interpolate_eq m).symm⟩
  intro id
  rw [IDSlice.mem_new, GoMap.mem_keys_iff]

/-- A zero ID or a nil share makes `NewPublic` panic instead of returning an error. -/
theorem C54_newPublic_panics_iff (ord : MapOrder) (shares : GoMap (Option G)) (hwf : shares.WF) (t : UInt16) :
    newPublic ord shares t = .panic ↔ (0 : ID) ∈ shares.keys ∨ ∃ i ∈ shares.keys, shares.get? i = some none :=
  newPublic_panic_iff ord shares hwf t

/-- Refuted for threshold 65535: `threshold + 1` wraps to 0, so a key that needs 65536 signers is accepted with one share (or
with none at all). -/
theorem C54_threshold_65535_accepted (ord : MapOrder) (g : G) :
    (∃ p, newPublic ord [((1 : ID), some g)] 65535 = .ok p ∧ p.threshold = 65535) ∧
      ∃ p, newPublic ord ([] : GoMap (Option G)) 65535 = .ok p := by
  constructor
  · have := newPublic_eq ord [((1 : ID), g)] (by simp [GoMap.WF, GoMap.keys]) (by simp [GoMap.keys]) 65535
    rw [if_neg (fun h => h.1 rfl)] at this
    exact ⟨_, this, rfl⟩
  · have := newPublic_eq ord ([] : GoMap G) (by simp [GoMap.WF]) (by simp) 65535
    rw [if_neg (fun h => h.1 rfl)] at this
    exact ⟨_, this⟩

example : ∃ p, newPublic MapOrder.insertion [((7 : ID), some (Toy.of 3)), (2, some (Toy.of 4))] 1 = .ok p :=
  (C54_newPublic_iff_partial _ _ (by unfold GoMap.WF GoMap.keys; decide) 1 (by decide)).mpr
    ⟨by decide, by decide +kernel, by decide⟩

/-! ### C55 -/

/-- A `Public` whose party list is the sorted key set of its shares, whose threshold is usable and whose group key is the
interpolation of its shares round-trips through JSON. -/
theorem C55_roundtrip_consistent (ord : MapOrder) (p : Public G) (hwf : p.shares.WF) (h0 : (0 : ID) ∉ p.shares.keys)
    (hids : p.partyIDs = IDSlice.new p.shares.keys) (ht : p.threshold.toNat + 1 ≤ p.shares.length)
    (hk : p.groupKey = Spec.interpolate p.shares) : Public.unmarshalJSON ord (Public.marshalJSON p) = .ok p := by
  rw [interpolate_eq] at hk
  unfold Public.unmarshalJSON Public.marshalJSON
  have hth : UInt16.ofNat (((p.threshold.toNat : Int)) % 65536).toNat = p.threshold := by
    have := p.threshold.toNat_lt
    have : ((p.threshold.toNat : Int) % 65536).toNat = p.threshold.toNat := by omega
    rw [this, UInt16.ofNat_toNat]
  simp only [hth]
  have e : (p.shares.map fun x => match x with | (id, g) => (id, some g)) = (p.shares.map fun e => (e.1, some e.2)) := rfl
  rw [e, newPublic_eq ord p.shares hwf h0, if_neg (by omega), Outcome.ok_bind]
  rw [computeGroupKey_eq p.shares hwf h0 (IDSlice.new_perm _), Outcome.ok_bind, Outcome.deref_some, Outcome.ok_bind,
    Outcome.failIf_neg (by simp [PublicKey.equal, hk]), Outcome.ok_bind, ← hids, ← hk]
  rfl

/-- In particular everything `NewPublic` makes (with a threshold other than 65535) round-trips, with any two iteration orders. -/
theorem C55_roundtrip_newPublic (ord ord' : MapOrder) (m : GoMap G) (hwf : m.WF) (t : UInt16) (ht : t ≠ 65535) (p : Public G)
    (h : newPublic ord (m.map fun e => (e.1, some e.2)) t = .ok p) :
    Public.unmarshalJSON ord' (Public.marshalJSON p) = .ok p := by
  have h0 : (0 : ID) ∉ m.keys := by
    intro h0
    have hwf' : GoMap.WF (m.map fun e => (e.1, some e.2)) := by unfold GoMap.WF; rw [GoMap.keys_map]; exact hwf
    rw [(newPublic_panic_iff ord _ hwf' t).mpr (Or.inl (by rw [GoMap.keys_map]; exact h0))] at h
    cases h
  rw [newPublic_eq ord m hwf h0] at h
  split_ifs at h with hc
  obtain rfl := Outcome.ok.inj h
  exact C55_roundtrip_consistent ord' _ hwf h0 rfl (Nat.le_of_not_lt fun hh => hc ⟨ht, hh⟩) (interpolate_eq m).symm

/-- Data whose group key is not the interpolation of its shares is refused. -/
theorem C55_inconsistent_refused (ord : MapOrder) (out : Public.Json G) (m : GoMap G) (hwf : m.WF)
    (hm : out.shares = m.map fun e => (e.1, some e.2)) (k : G) (hk : out.groupKey = some k) (p : Public G)
    (h : Public.unmarshalJSON ord out = .ok p) :
    k = Spec.interpolate m ∧ p.groupKey = Spec.interpolate m ∧ p.shares = m := by
  rw [interpolate_eq]
  unfold Public.unmarshalJSON at h
  rw [hm] at h
  have h0 : (0 : ID) ∉ m.keys := by
    intro h0
    have hwf' : GoMap.WF (m.map fun e => (e.1, some e.2)) := by unfold GoMap.WF; rw [GoMap.keys_map]; exact hwf
    rw [(newPublic_panic_iff ord _ hwf' _).mpr (Or.inl (by rw [GoMap.keys_map]; exact h0))] at h
    cases h
  rw [newPublic_eq ord m hwf h0] at h
  split_ifs at h
  · cases h
  rw [Outcome.ok_bind, computeGroupKey_eq m hwf h0 (IDSlice.new_perm _), Outcome.ok_bind, hk, Outcome.deref_some,
    Outcome.ok_bind] at h
  by_cases hc : PublicKey.equal (interp m) k = false
  · rw [Outcome.failIf_pos hc] at h; cases h
  · rw [Outcome.failIf_neg hc, Outcome.ok_bind] at h
    simp only [PublicKey.equal, decide_eq_false_iff_not, not_not] at hc
    obtain rfl := Outcome.ok.inj h
    exact ⟨hc.symm, rfl, rfl⟩

/-- Refuted in part: a missing group key makes `UnmarshalJSON` panic, for every otherwise valid structure. -/
theorem C55_nil_groupKey_panics (ord : MapOrder) (m : GoMap G) (hwf : m.WF) (h0 : (0 : ID) ∉ m.keys) (t : Nat)
    (ht : t + 1 ≤ m.length) (ht' : t < 65535) :
    Public.unmarshalJSON ord ⟨t, none, m.map fun e => (e.1, some e.2)⟩ = .panic := by
  unfold Public.unmarshalJSON
  have hth : (UInt16.ofNat ((t : Int) % 65536).toNat).toNat = t := by rw [UInt16.toNat_ofNat']; omega
  simp only
  rw [newPublic_eq ord m hwf h0, if_neg (by rw [hth]; omega), Outcome.ok_bind,
    computeGroupKey_eq m hwf h0 (IDSlice.new_perm _), Outcome.ok_bind]
  rfl

/-- Refuted in part: a threshold outside 16 bits is silently truncated (here 65537 becomes 1). -/
theorem C55_threshold_truncated (ord : MapOrder) (m : GoMap G) (hwf : m.WF) (h0 : (0 : ID) ∉ m.keys) (hl : 2 ≤ m.length) :
    ∃ p, Public.unmarshalJSON ord ⟨65537, some (Spec.interpolate m), m.map fun e => (e.1, some e.2)⟩ = .ok p ∧ p.threshold = 1 := by
  rw [interpolate_eq]
  refine ⟨⟨IDSlice.new m.keys, 1, m, interp m⟩, ?_, rfl⟩
  unfold Public.unmarshalJSON
  have hth : UInt16.ofNat ((65537 : Int) % 65536).toNat = 1 := by decide
  have h1 : (1 : UInt16).toNat = 1 := rfl
  simp only [hth]
  rw [newPublic_eq ord m hwf h0, if_neg (by rw [h1]; omega), Outcome.ok_bind,
    computeGroupKey_eq m hwf h0 (IDSlice.new_perm _), Outcome.ok_bind, Outcome.deref_some, Outcome.ok_bind,
    Outcome.failIf_neg (by simp [PublicKey.equal]), Outcome.ok_bind]
  rfl

theorem equalLoop_eq (a b : Public G) (l : List ID) (ha : ∀ i ∈ l, ∃ g, a.shares.get? i = some g)
    (hb : ∀ i ∈ l, ∃ g, b.shares.get? i = some g) :
    Public.equalLoop a b l = .ok (decide (∀ i ∈ l, a.shares.get? i = b.shares.get? i)) := by
  induction l with
  | nil => simp [Public.equalLoop]
  | cons x l ih =>
    obtain ⟨g, hg⟩ := ha x (by simp)
    obtain ⟨g', hg'⟩ := hb x (by simp)
    rw [Public.equalLoop, hg, hg', Outcome.deref_some, Outcome.ok_bind, Outcome.deref_some, Outcome.ok_bind]
    by_cases h : g = g'
    · subst h
      rw [if_neg (by simp), ih (fun i hi => ha i (List.mem_cons_of_mem _ hi)) (fun i hi => hb i (List.mem_cons_of_mem _ hi))]
      simp [hg, hg']
    · rw [if_pos h]
      simp [hg, hg', h]

/-- `Equal` of two well-formed `Public` values (party list = keys of the shares) never panics and is equality of all four parts. -/
theorem C55_equal_iff (a b : Public G) (ha : a.shares.WF) (hb : b.shares.WF) (hia : a.partyIDs = IDSlice.new a.shares.keys)
    (hib : b.partyIDs = IDSlice.new b.shares.keys) :
    ∃ r, Public.equal a b = .ok r ∧ (r = true ↔ a.partyIDs = b.partyIDs ∧ a.threshold = b.threshold ∧
      a.groupKey = b.groupKey ∧ ∀ id, a.shares.get? id = b.shares.get? id) := by
  have hlen : (∀ id, a.shares.get? id = b.shares.get? id) → a.shares.length = b.shares.length :=
    fun h => (GoMap.perm_of_get? ha hb h).length_eq
  unfold Public.equal
  by_cases h1 : a.shares.length = b.shares.length
  swap
  · rw [if_pos h1]
    exact ⟨false, rfl, by simp only [Bool.false_eq_true, false_iff, not_and]; intro _ _ _ h; exact h1 (hlen h)⟩
  rw [if_neg (by simpa using h1), IDSlice.equal_eq, Outcome.ok_bind]
  by_cases h2 : a.partyIDs = b.partyIDs
  swap
  · exact ⟨false, by simp [h2], by simp [h2]⟩
  by_cases h3 : a.threshold = b.threshold
  swap
  · exact ⟨false, by simp [h2, h3], by simp [h3]⟩
  by_cases h4 : a.groupKey = b.groupKey
  swap
  · exact ⟨false, by simp [h2, h3, h4, PublicKey.equal], by simp [h4]⟩
  have key : ∀ i, i ∈ a.partyIDs ↔ ∃ g, a.shares.get? i = some g := fun i => by rw [hia, IDSlice.mem_new, GoMap.mem_keys_iff]
  have key' : ∀ i, i ∈ a.partyIDs ↔ ∃ g, b.shares.get? i = some g := fun i => by rw [h2, hib, IDSlice.mem_new, GoMap.mem_keys_iff]
  have e := equalLoop_eq a b a.partyIDs (fun i hi => (key i).mp hi) (fun i hi => (key' i).mp hi)
  refine ⟨_, by simp only [h2, h3, h4, PublicKey.equal, decide_true, Bool.true_eq_false, if_false, ne_eq, not_true_eq_false]; rw [← h2]; exact e, ?_⟩
  simp only [decide_eq_true_eq, h2, h3, h4, true_and]
  constructor
  · intro h id
    by_cases hid : id ∈ a.partyIDs
    · exact h id (h2 ▸ hid)
    · have x1 : a.shares.get? id = none := by
        by_contra hc
        obtain ⟨g, hg⟩ := Option.ne_none_iff_exists'.mp hc
        exact hid ((key id).mpr ⟨g, hg⟩)
      have x2 : b.shares.get? id = none := by
        by_contra hc
        obtain ⟨g, hg⟩ := Option.ne_none_iff_exists'.mp hc
        exact hid ((key' id).mpr ⟨g, hg⟩)
      rw [x1, x2]
  · intro h i _; exact h i

/-! ### C56 -/

theorem C56_roundtrip (sig : Signature G) : Signature.unmarshalBinary (Signature.marshalBinary sig) = .ok sig ∧
    (Signature.marshalBinary sig).length = 64 ∧ Signature.size sig = 64 := by
  have hR := RGroup.bytes_length sig.R
  have hS := Scalar.bytes_length sig.S
  have hm : Signature.marshalBinary sig = RGroup.bytes sig.R ++ sig.S.bytes := by
    unfold Signature.marshalBinary Signature.bytesAppend; rw [List.nil_append]
  refine ⟨?_, by rw [hm, List.length_append, hR, hS], rfl⟩
  unfold Signature.unmarshalBinary
  rw [hm, Outcome.failIf_neg (by rw [List.length_append, hR, hS]; omega), Outcome.ok_bind, sliceTo_append hR, Outcome.ok_bind,
    RGroup.set_bytes, Outcome.orErr_some, Outcome.ok_bind, sliceFrom_append hR, Outcome.ok_bind, Scalar.set_bytes]
  rfl

theorem C56_strict (data : Bytes) (sig : Signature G) (h : Signature.unmarshalBinary data = .ok sig) :
    data.length = 64 ∧ Signature.marshalBinary sig = data := by
  unfold Signature.unmarshalBinary at h
  by_cases hl : data.length < 64
  · rw [Outcome.failIf_pos hl] at h; simp at h
  have h1 : sliceTo data 32 = .ok (data.take 32) := by unfold sliceTo; rw [if_pos (by omega)]
  have h2 : sliceFrom data 32 = .ok (data.drop 32) := by unfold sliceFrom; rw [if_pos (by omega)]
  rw [Outcome.failIf_neg hl, Outcome.ok_bind, h1, Outcome.ok_bind] at h
  cases hR : (RGroup.setCanonicalBytes (data.take 32) : Option G) with
  | none => simp [hR] at h
  | some R =>
    rw [hR, Outcome.orErr_some, Outcome.ok_bind, h2, Outcome.ok_bind] at h
    cases hS : Scalar.setCanonicalBytes (data.drop 32) with
    | none => simp [hS] at h
    | some S =>
      rw [hS, Outcome.orErr_some, Outcome.ok_bind] at h
      obtain rfl := Outcome.ok.inj h
      have hm : Signature.marshalBinary (⟨R, S⟩ : Signature G) = data := by
        unfold Signature.marshalBinary Signature.bytesAppend
        rw [List.nil_append]
        show RGroup.bytes R ++ S.bytes = data
        rw [RGroup.bytes_set _ _ hR, Scalar.bytes_set hS, List.take_append_drop]
      exact ⟨by rw [← hm]; exact (C56_roundtrip _).2.1, hm⟩

theorem C56_no_panic (data : Bytes) : (Signature.unmarshalBinary data : GoRes (Signature G)) ≠ .panic := by
  unfold Signature.unmarshalBinary
  by_cases hl : data.length < 64
  · rw [Outcome.failIf_pos hl]; simp
  have h1 : sliceTo data 32 = .ok (data.take 32) := by unfold sliceTo; rw [if_pos (by omega)]
  have h2 : sliceFrom data 32 = .ok (data.drop 32) := by unfold sliceFrom; rw [if_pos (by omega)]
  rw [Outcome.failIf_neg hl, Outcome.ok_bind, h1, Outcome.ok_bind]
  cases hR : (RGroup.setCanonicalBytes (data.take 32) : Option G) with
  | none => simp
  | some R =>
    rw [Outcome.orErr_some, Outcome.ok_bind, h2, Outcome.ok_bind]
    cases hS : Scalar.setCanonicalBytes (data.drop 32) <;> simp

theorem C56_equal_iff (a b : Signature G) : Signature.equal a b = true ↔ a = b := by
  unfold Signature.equal
  obtain ⟨R, S⟩ := a
  obtain ⟨R', S'⟩ := b
  by_cases h : R' = R
  · by_cases h' : S' = S
    · simp [h, h']
    · have : ¬ S = S' := fun e => h' e.symm
      simp [h, h', this]
  · have : ¬ R = R' := fun e => h e.symm
    simp [h, this]

example : Signature.unmarshalBinary (Signature.marshalBinary ⟨Toy.of 7, 9⟩) = .ok (⟨Toy.of 7, 9⟩ : Signature Toy) :=
  (C56_roundtrip _).1

end Verif.Props
