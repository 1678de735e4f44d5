import Verif.Model.UnitTest
import Verif.Props.Marshalling
import Verif.Props.Schnorr
import Verif.Props.Json
import Verif.Props.Ristretto

/-!
C89: for which random choices the unit tests of the packages pass, and what passing them does not exclude.
-/

namespace Verif.Props

open Verif Verif.UnitTest Verif.Json

variable {G : Type} [RGroup G]

theorem row_bind {α : Type} {x : GoRes α} {k : α → GoRes Bool} : (x >>= k) = .ok true ↔ ∃ b, x = .ok b ∧ k b = .ok true := Outcome.bind_eq_ok

theorem natLE_take (k j n : Nat) (h : j ≤ k) : (natLE k n).take j = natLE j n := by
  induction k generalizing j n with
  | zero => obtain rfl : j = 0 := by omega
            rfl
  | succ k ih =>
    cases j with
    | zero => rfl
    | succ j => simp only [natLE, List.take_succ_cons, ih _ _ (Nat.le_of_succ_le_succ h)]

theorem randID_val_ne {r : Nat} (hr : r < 65536) : (ID.randID r).val ≠ 0 := fun h => (C09_randID_ne_zero r hr).1 (ID.val_eq_zero.mp h)

/-! ### pkg/internal -/

/-- C89: `TestSchnorrProof` passes for every secret and every nonce. -/
theorem C89_schnorr (sha : Sha512) (priv k : Scalar) :
    schnorrProof (G := G) (fun id pub ctx priv => Schnorr.new sha id pub ctx priv k) (Schnorr.verify sha) priv = .ok true := by
  obtain ⟨π, h1, h2⟩ := C16_honest_verifies (G := G) sha 42 (List.replicate 32 0) (by simp) priv k
  unfold schnorrProof
  simp only [h1, Outcome.ok_bind, ne_eq, not_true_eq_false, if_false, h2]

/-- C89: what it does not exclude: the test passes with every verification that accepts proofs made by the prover for the prover's ID, such as one that
accepts everything; and the code under test has the challenge 0, so that it accepts a proof from anyone (C17). -/
theorem C89_schnorr_blind (sha : Sha512) (k : Scalar) :
    (∀ priv : Scalar, schnorrProof (G := G) (fun id pub ctx priv => Schnorr.new sha id pub ctx priv k) (fun _ _ _ _ => .ok true) priv = .ok true) ∧
    ∃ π : Schnorr, ∀ (id : ID) (pub : G), Schnorr.verify sha π id pub (List.replicate 32 0) = .ok true := by
  constructor
  · intro priv
    obtain ⟨π, h1, -⟩ := C16_honest_verifies (G := G) sha 42 (List.replicate 32 0) (by simp) priv k
    unfold schnorrProof
    simp only [h1, Outcome.ok_bind, ne_eq, not_true_eq_false, if_false]
  · exact ⟨⟨0, 0⟩, fun id pub => by
      unfold Schnorr.verify
      simp only []
      rw [challenge_eq sha id _ (by simp)]
      rfl⟩

theorem exponentOnce_ok (N : UInt16) (hN : N ≠ 65535) (secret : Scalar) (coins : Coins) {r : Nat} (hr : r < 65536) :
    exponentOnce G N secret coins r = .ok true := by
  have hx := randID_val_ne hr
  unfold exponentOnce
  simp only [Poly.new_eq hN, Outcome.ok_bind, ID.scalar_eq, Poly.evaluate_ne_zero _ hx, Exponent.evaluateHorner_eq, Exponent.evaluateClassic_eq,
    Exponent.evaluateVar_eq, if_neg hx, Exponent.ofPoly_evalAt]
  simp

/-- C89: `TestExponent_Evaluate` passes for every polynomial and every index that is drawn, any number of times. -/
theorem C89_exponent (draws : List (Scalar × Coins × Nat)) (h : ∀ d ∈ draws, d.2.2 < 65536) : exponentEvaluate G draws = .ok true := by
  induction draws with
  | nil => rfl
  | cons d draws ih =>
    obtain ⟨s, c, r⟩ := d
    rw [exponentEvaluate, exponentOnce_ok 1000 (by decide) s c (h (s, c, r) List.mem_cons_self), Outcome.ok_bind,
      ih fun d hd => h d (List.mem_cons_of_mem _ hd)]
    rfl

theorem testSum_loop (deg : UInt16) (hdeg : deg ≠ 65535) {x : Scalar} (hx : x ≠ 0) (polys : List (Scalar × Coins)) (a : Scalar) (ps : List (Exponent G)) :
    UnitTest.sumLoop G deg x polys a (a • base) ps =
      let qs : List Poly := polys.map fun p => p.1 :: (List.range deg.toNat).map p.2
      .ok (a + (qs.map fun f => Spec.evalAt f x).sum, (a + (qs.map fun f => Spec.evalAt f x).sum) • base, ps ++ qs.map Exponent.ofPoly) := by
  induction polys generalizing a ps with
  | nil => simp [UnitTest.sumLoop]
  | cons p polys ih =>
    obtain ⟨s, c⟩ := p
    simp only [UnitTest.sumLoop, Poly.new_eq hdeg, Outcome.ok_bind, Poly.evaluate_ne_zero _ hx, Exponent.evaluate_ne_zero _ hx, Exponent.ofPoly_evalAt]
    rw [← add_smul, ih]
    simp [add_assoc]

/-- C89: `TestSum` passes for all polynomials of one degree and every index; with no polynomial it would panic. -/
theorem C89_sum (deg : UInt16) (hdeg : deg ≠ 65535) (polys : List (Scalar × Coins)) (r : Nat) (hr : r < 65536) :
    UnitTest.sum G deg polys r = if polys = [] then .panic else .ok true := by
  have hx := randID_val_ne hr
  unfold UnitTest.sum
  rw [ID.scalar_eq, Outcome.ok_bind]
  have h := testSum_loop (G := G) deg hdeg hx polys 0 []
  rw [zero_smul] at h
  simp only [h, Outcome.ok_bind, List.nil_append, zero_add, List.map_map]
  by_cases hp : polys = []
  · subst hp; rfl
  rw [if_neg hp]
  set es : List (Exponent G) := polys.map (Exponent.ofPoly ∘ fun p => p.1 :: (List.range deg.toNat).map p.2) with hes
  obtain ⟨-, h2, -, h3⟩ := C12_sum es
  obtain ⟨s, hs⟩ := h2.mpr ⟨by simpa [hes] using hp, by
    intro p hp p' hp'
    rw [hes] at hp hp'
    obtain ⟨a, -, rfl⟩ := List.mem_map.mp hp
    obtain ⟨b, -, rfl⟩ := List.mem_map.mp hp'
    simp [Exponent.ofPoly]⟩
  obtain ⟨vals, h4, h5⟩ := h3 s hs _ hx
  rw [hs]
  simp only [h5, Outcome.ok_bind]
  have hv : vals.sum = (polys.map ((fun f => Spec.evalAt f (ID.randID r).val) ∘ fun p => p.1 :: (List.range deg.toNat).map p.2)).sum • (base : G) := by
    have h6 : es.map (Exponent.evaluate · (ID.randID r).val) =
        (polys.map fun p => (Spec.evalAt (p.1 :: (List.range deg.toNat).map p.2) (ID.randID r).val • (base : G))).map Outcome.ok := by
      rw [hes, List.map_map, List.map_map]
      refine List.map_congr_left fun p _ => ?_
      simp [Exponent.evaluate_ne_zero _ hx, Exponent.ofPoly_evalAt]
    rw [h6] at h4
    rw [← (List.map_injective_iff.mpr (fun a b h => Outcome.ok.inj h)) h4, List.sum_smul, List.map_map]
    rfl
  rw [hv]
  simp

/-- C89: `TestPolynomial_Evaluate` passes exactly when the function gives for `1 + X²`, at the IDs drawn, a scalar that is `1 + id²` modulo `2^64`. -/
theorem C89_polynomial_iff (f : Poly → Scalar → GoRes Scalar) (draws : List Nat) : polynomialEvaluate f draws = .ok true ↔
    ∀ r ∈ draws, ∃ y : Scalar, f [1, 0, 1] ((ID.randID r).toNat : Scalar) = .ok y ∧ y.val % 2 ^ 64 = 1 + (ID.randID r).toNat ^ 2 := by
  induction draws with
  | nil => simp [polynomialEvaluate]
  | cons r draws ih =>
    have h0 : ((0 : UInt32).toNat : Scalar) = 0 := by simp
    have h1 : ((1 : UInt32).toNat : Scalar) = 1 := by simp
    simp only [polynomialEvaluate, Scalar.setScalarUInt32_eq, ID.scalar_eq, Outcome.ok_bind, row_bind, h0, h1]
    set i := ID.randID r with hi
    have hlt := i.toNat_lt
    have hb : 1 + i.toNat * i.toNat < 2 ^ 33 := by nlinarith
    have key : ∀ y : Scalar, 1 + i.toUInt64 * i.toUInt64 = UInt64.ofNat (leNat (y.bytes.take 8)) ↔ y.val % 2 ^ 64 = 1 + i.toNat ^ 2 := by
      intro y
      unfold Scalar.bytes
      rw [natLE_take _ _ _ (by omega), leNat_natLE, ← UInt64.toNat_inj, UInt64.toNat_add, UInt64.toNat_mul, UInt64.toNat_ofNat', UInt16.toNat_toUInt64,
        Nat.mod_eq_of_lt (a := i.toNat * i.toNat) (by nlinarith), pow_two]
      have e : (1 : UInt64).toNat = 1 := rfl
      rw [e, Nat.mod_eq_of_lt (by omega), show (256 ^ 8 : Nat) = 2 ^ 64 by norm_num, Nat.mod_mod]
      exact eq_comm
    constructor
    · rintro ⟨y, hy, b, hb', hr⟩
      simp only [Outcome.pure_def, Outcome.ok.injEq, Bool.and_eq_true, decide_eq_true_eq] at hr
      obtain ⟨hr, rfl⟩ := hr
      have hrest := ih.mp hb'
      intro r' hr'
      rcases List.mem_cons.mp hr' with rfl | hr'
      · exact ⟨y, hy, (key y).mp hr⟩
      · exact hrest r' hr'
    · intro h
      obtain ⟨y, hy, hm⟩ := h r List.mem_cons_self
      refine ⟨y, hy, true, ih.mpr fun r' hr' => h r' (List.mem_cons_of_mem _ hr'), ?_⟩
      simp [(key y).mpr hm]

theorem evaluate_one_sq {i : ID} (hi : i ≠ 0) : Poly.evaluate [1, 0, 1] (i.toNat : Scalar) = .ok ((1 + i.toNat ^ 2 : Nat) : Scalar) := by
  have hx : (i.toNat : Scalar) ≠ 0 := fun h => hi (ID.val_eq_zero.mp h)
  rw [Poly.evaluate_ne_zero _ hx, evalAt_cons, evalAt_cons, evalAt_cons]
  simp [Spec.evalAt, pow_two]

theorem val_of_lt {n : Nat} (h : n < 2 ^ 65) : ((n : Nat) : Scalar).val = n := by
  rw [ZMod.val_natCast, Nat.mod_eq_of_lt (h.trans (by decide))]

/-- C89: `TestPolynomial_Evaluate` passes for all draws. -/
theorem C89_polynomial (draws : List Nat) (h : ∀ r ∈ draws, r < 65536) : polynomialEvaluate Poly.evaluate draws = .ok true := by
  refine (C89_polynomial_iff _ _).mpr fun r hr => ⟨_, evaluate_one_sq (C09_randID_ne_zero r (h r hr)).1, ?_⟩
  have := (ID.randID r).toNat_lt
  rw [val_of_lt (by nlinarith), Nat.mod_eq_of_lt (by nlinarith)]

/-- C89: what it does not exclude: an evaluation that is wrong above the first eight bytes, such as one that adds `2^64`. -/
theorem C89_polynomial_blind (draws : List Nat) (h : ∀ r ∈ draws, r < 65536) :
    polynomialEvaluate (fun p x => do let y ← Poly.evaluate p x; return y + ((2 ^ 64 : Nat) : Scalar)) draws = .ok true := by
  refine (C89_polynomial_iff _ _).mpr fun r hr => ⟨((1 + (ID.randID r).toNat ^ 2 + 2 ^ 64 : Nat) : Scalar), ?_, ?_⟩
  · rw [evaluate_one_sq (C09_randID_ne_zero r (h r hr)).1, Outcome.ok_bind, Outcome.pure_def, ← Nat.cast_add]
  · have := (ID.randID r).toNat_lt
    rw [val_of_lt (by nlinarith), Nat.add_mod_right, Nat.mod_eq_of_lt (by nlinarith)]

/-- C89: `TestNewScalarUInt32` passes on every list of values, also on the five of the test. -/
theorem C89_scalar (tests : List UInt32) : newScalarUInt32 tests = .ok true := by
  have h1 : Scalar.setCanonicalBytes (1 :: List.replicate 31 0) = some 1 := by decide +kernel
  have hrep : ∀ n : Nat, Nat.repeat (fun s : Scalar => s + 1) n 0 = n := by
    intro n
    induction n with
    | zero => simp [Nat.repeat]
    | succ n ih => rw [Nat.repeat, ih, Nat.cast_succ]
  have hgo : newScalarUInt32.go 1 tests = .ok true := by
    induction tests with
    | nil => rfl
    | cons t tests ih =>
      rw [newScalarUInt32.go, Scalar.setScalarUInt32_eq, Outcome.ok_bind, ih, hrep]
      simp
  unfold newScalarUInt32
  rw [h1]
  exact hgo

/-! ### pkg/frost/party -/

theorem fromBytesRow_iff (f : Bytes → GoRes ID) (b : Bytes) (w : ID) :
    (fromBytesRow f b w false = .ok true ↔ f b = .ok w) ∧ (fromBytesRow f b 0 true = .ok true ↔ ∃ e, f b = .err e) := by
  unfold fromBytesRow
  cases f b <;> simp

/-- C89: `TestFromBytes` passes exactly when the function has the five results of its table, whatever it does elsewhere. -/
theorem C89_fromBytes (f : Bytes → GoRes ID) : UnitTest.fromBytes f = .ok true ↔
    f [0, 1] = .ok 1 ∧ f [255, 255] = .ok 65535 ∧ f [0, 1, 0] = .ok 1 ∧ f [0, 0, 1] = .ok 0 ∧ ∃ e, f [1] = .err e := by
  unfold UnitTest.fromBytes
  simp only [row_bind, Outcome.pure_def, Outcome.ok.injEq, Bool.and_eq_true]
  rw [← (fromBytesRow_iff f [0, 1] 1).1, ← (fromBytesRow_iff f [255, 255] 65535).1, ← (fromBytesRow_iff f [0, 1, 0] 1).1,
    ← (fromBytesRow_iff f [0, 0, 1] 0).1, ← (fromBytesRow_iff f [1] 0).2]
  constructor
  · rintro ⟨_, h1, _, h2, _, h3, _, h4, _, h5, ⟨⟨⟨⟨rfl, rfl⟩, rfl⟩, rfl⟩, rfl⟩⟩
    exact ⟨h1, h2, h3, h4, h5⟩
  · rintro ⟨h1, h2, h3, h4, h5⟩
    exact ⟨_, h1, _, h2, _, h3, _, h4, _, h5, by simp⟩


/-- C89: the code passes it. -/
theorem C89_fromBytes_passes : UnitTest.fromBytes ID.fromBytes = .ok true := by decide

/-- C89: `TestID_MarshalText` passes exactly when 42 and 0 are written in decimal; the code passes it. -/
theorem C89_marshalText (f : ID → Bytes) : (idMarshalText f = true ↔ f 42 = [52, 50] ∧ f 0 = [48]) ∧ idMarshalText ID.marshalText = true :=
  ⟨by simp [idMarshalText], by simp [idMarshalText, ID.marshalText, ID.formatUint]⟩

theorem unmarshalTextRow_iff (f : Bytes → GoRes ID) (b : Bytes) :
    (unmarshalTextRow f b false = .ok true ↔ ∃ id, f b = .ok id) ∧ (unmarshalTextRow f b true = .ok true ↔ ∃ e, f b = .err e) := by
  unfold unmarshalTextRow
  cases f b <;> simp

/-- C89: `TestID_UnmarshalText` passes exactly when the function accepts "42", "0" and "65535", and refuses "65536", "" and "dfhg".  The ID that it
gives is not looked at. -/
theorem C89_unmarshalText (f : Bytes → GoRes ID) : idUnmarshalText f = .ok true ↔
    (∃ id, f [52, 50] = .ok id) ∧ (∃ id, f [48] = .ok id) ∧ (∃ id, f [54, 53, 53, 51, 53] = .ok id) ∧
    (∃ e, f [54, 53, 53, 51, 54] = .err e) ∧ (∃ e, f [] = .err e) ∧ ∃ e, f [100, 102, 104, 103] = .err e := by
  unfold idUnmarshalText
  simp only [row_bind, Outcome.pure_def, Outcome.ok.injEq, Bool.and_eq_true]
  rw [← (unmarshalTextRow_iff f [52, 50]).1, ← (unmarshalTextRow_iff f [48]).1, ← (unmarshalTextRow_iff f [54, 53, 53, 51, 53]).1,
    ← (unmarshalTextRow_iff f [54, 53, 53, 51, 54]).2, ← (unmarshalTextRow_iff f []).2, ← (unmarshalTextRow_iff f [100, 102, 104, 103]).2]
  constructor
  · rintro ⟨_, h1, _, h2, _, h3, _, h4, _, h5, _, h6, ⟨⟨⟨⟨⟨rfl, rfl⟩, rfl⟩, rfl⟩, rfl⟩, rfl⟩⟩
    exact ⟨h1, h2, h3, h4, h5, h6⟩
  · rintro ⟨h1, h2, h3, h4, h5, h6⟩
    exact ⟨_, h1, _, h2, _, h3, _, h4, _, h5, _, h6, by simp⟩

/-- C89: the code passes it; so does a function that reads every number as 0. -/
theorem C89_unmarshalText_blind : idUnmarshalText ID.unmarshalText = .ok true ∧
    idUnmarshalText (fun b => do let _ ← ID.unmarshalText b; return 0) = .ok true := by decide

theorem lagrangeSum_ok {f : ID → List ID → GoRes Scalar} {ids : List ID} {lam : ID → Scalar} (l : List ID)
    (h : ∀ i ∈ l, f i ids = .ok (lam i)) (a : Scalar) : lagrangeSum f ids l a = .ok (a + (l.map lam).sum) := by
  induction l generalizing a with
  | nil => simp [lagrangeSum]
  | cons i l ih =>
    rw [lagrangeSum, h i List.mem_cons_self]
    simp only
    rw [ih fun j hj => h j (List.mem_cons_of_mem _ hj)]
    simp [add_assoc]

/-- The IDs of `TestID_Lagrange`. -/
theorem lagrange_ids {N : Nat} (hN : N ≤ 41) : ((List.range N).map fun i => UInt16.ofNat (i + 1) : List ID).Nodup ∧
    (0 : ID) ∉ ((List.range N).map fun i => UInt16.ofNat (i + 1) : List ID) ∧ (42 : ID) ∉ ((List.range N).map fun i => UInt16.ofNat (i + 1) : List ID) := by
  refine ⟨?_, ?_, ?_⟩
  · refine List.Nodup.map_on ?_ List.nodup_range
    intro a ha b hb h
    have := congrArg UInt16.toNat h
    rw [UInt16.toNat_ofNat', UInt16.toNat_ofNat'] at this
    rw [List.mem_range] at ha hb
    omega
  all_goals
    intro h
    obtain ⟨i, hi, h⟩ := List.mem_map.mp h
    have := congrArg UInt16.toNat h
    rw [UInt16.toNat_ofNat'] at this
    rw [List.mem_range] at hi
    simp at this
    omega

/-- C89: `TestID_Lagrange` passes, for any number of parties from 1 up to 41 (with 42 the last row would fail). -/
theorem C89_lagrange (N : Nat) (h1 : 1 ≤ N) (hN : N ≤ 41) : idLagrange N ID.lagrange = .ok true := by
  obtain ⟨hnd, h0, h42⟩ := lagrange_ids hN
  unfold idLagrange
  simp only
  set ids : List ID := (List.range N).map fun i => UInt16.ofNat (i + 1) with hids
  obtain ⟨lam, hl, hs⟩ := C08_lagrange_interpolates hnd h0
  have hs := hs (Polynomial.C 1) (by
    rw [Polynomial.degree_C one_ne_zero]
    have : ids.length = N := by simp [hids]
    rw [this]
    exact_mod_cast h1)
  simp only [Polynomial.eval_C, mul_one] at hs
  have e0 : ID.lagrange 0 ids = .err .idZero := (C07_lagrange_errors 0 ids).1.mpr rfl
  have e42 : ID.lagrange 42 ids = .err .idNotInSet := (C07_lagrange_errors 42 ids).2.1.mpr ⟨by decide, h42⟩
  rw [lagrangeSum_ok ids hl, Outcome.ok_bind, Scalar.setScalarUInt32_eq, Outcome.ok_bind]
  unfold lagrangeRow
  rw [e0, e42, hs]
  simp

/-- C89: what it does not exclude: coefficients that are all `1/16` pass the test, although they interpolate nothing but constants. -/
theorem C89_lagrange_blind : idLagrange 16 (fun id ids => do let _ ← ID.lagrange id ids; return (16 : Scalar)⁻¹) = .ok true := by
  obtain ⟨hnd, h0, h42⟩ := lagrange_ids (N := 16) (by omega)
  unfold idLagrange
  simp only
  set ids : List ID := (List.range 16).map fun i => UInt16.ofNat (i + 1) with hids
  have hl : ∀ i ∈ ids, (do let _ ← ID.lagrange i ids; return (16 : Scalar)⁻¹ : GoRes Scalar) = .ok ((fun _ => (16 : Scalar)⁻¹) i) := by
    intro i hi
    obtain ⟨s, hs⟩ := (C07_lagrange_errors i ids).2.2.1.mpr ⟨fun h => h0 (h ▸ hi), hi⟩
    rw [hs]
    rfl
  have e0 : ID.lagrange 0 ids = .err .idZero := (C07_lagrange_errors 0 ids).1.mpr rfl
  have e42 : ID.lagrange 42 ids = .err .idNotInSet := (C07_lagrange_errors 42 ids).2.1.mpr ⟨by decide, h42⟩
  rw [lagrangeSum_ok ids hl, Outcome.ok_bind, Scalar.setScalarUInt32_eq, Outcome.ok_bind]
  unfold lagrangeRow
  simp only [e0, e42, Outcome.err_bind]
  have hsum : (ids.map fun _ => (16 : Scalar)⁻¹).sum = 1 := by
    rw [List.map_const', List.sum_replicate, hids, List.length_map, List.length_range, nsmul_eq_mul]
    exact mul_inv_cancel₀ (by decide +kernel)
  rw [hsum]
  simp

/-! ### pkg/messages -/

theorem headerRow_iff (f : Bytes → GoRes Header) (h : Header) (b : Bytes) :
    (headerRow f h b false = .ok true ↔ f b = .ok h) ∧ (headerRow f h b true = .ok true ↔ ∃ e, f b = .err e) := by
  unfold headerRow
  cases f b <;> simp [Header.equal, eq_comm]

/-- C89: `TestHeader_UnmarshalBinary` passes exactly when the function accepts four headers and refuses four; the ninth row is the eighth again.
Nothing says what happens to other lengths, to IDs above 2, to a sender 0, or to the type 0, which the name of the ninth row promises. -/
theorem C89_header (f : Bytes → GoRes Header) : headerUnmarshal f = .ok true ↔
    (f [1, 0, 1, 0, 0] = .ok ⟨1, 1, 0⟩ ∧ f [2, 0, 2, 0, 1] = .ok ⟨2, 2, 1⟩ ∧ f [3, 0, 2, 0, 0] = .ok ⟨3, 2, 0⟩ ∧ f [4, 0, 2, 0, 0] = .ok ⟨4, 2, 0⟩) ∧
    ∀ b ∈ ([[1, 0, 1, 0, 2], [2, 0, 2, 0, 0], [3, 0, 2, 0, 1], [4, 0, 2, 0, 1]] : List Bytes), ∃ e, f b = .err e := by
  unfold headerUnmarshal
  simp only [row_bind, Outcome.pure_def, Outcome.ok.injEq, Bool.and_eq_true, List.forall_mem_cons, List.not_mem_nil, false_imp_iff, implies_true, and_true]
  rw [← (headerRow_iff f ⟨1, 1, 0⟩ [1, 0, 1, 0, 0]).1, ← (headerRow_iff f ⟨2, 2, 1⟩ [2, 0, 2, 0, 1]).1, ← (headerRow_iff f ⟨3, 2, 0⟩ [3, 0, 2, 0, 0]).1,
    ← (headerRow_iff f ⟨4, 2, 0⟩ [4, 0, 2, 0, 0]).1, ← (headerRow_iff f ⟨1, 1, 2⟩ [1, 0, 1, 0, 2]).2, ← (headerRow_iff f ⟨2, 2, 0⟩ [2, 0, 2, 0, 0]).2,
    ← (headerRow_iff f ⟨3, 2, 1⟩ [3, 0, 2, 0, 1]).2]
  constructor
  · rintro ⟨_, h1, _, h2, _, h3, _, h4, _, h5, _, h6, _, h7, _, h8, _, h9, ⟨⟨⟨⟨⟨⟨⟨⟨rfl, rfl⟩, rfl⟩, rfl⟩, rfl⟩, rfl⟩, rfl⟩, rfl⟩, rfl⟩⟩
    exact ⟨⟨h1, h3, h5, h7⟩, h2, h4, h6, (headerRow_iff f ⟨4, 2, 1⟩ _).2.mp h8⟩
  · rintro ⟨⟨h1, h2, h3, h4⟩, h5, h6, h7, h8⟩
    exact ⟨_, h1, _, h5, _, h2, _, h6, _, h3, _, h7, _, h4, _, (headerRow_iff f ⟨4, 2, 1⟩ _).2.mpr h8, _, (headerRow_iff f ⟨0, 2, 1⟩ _).2.mpr h8, by simp⟩

/-- C89: the code passes it; so does a function that also accepts every header of type 0. -/
theorem C89_header_blind : headerUnmarshal Header.unmarshalBinary = .ok true ∧
    headerUnmarshal (fun b => if b.head? = some 0 then .ok ⟨0, 0, 0⟩ else Header.unmarshalBinary b) = .ok true := by decide

theorem marshals_ok {m : Message G} {c : Message G → Bool} (h : checkMarshaler Marshaler.message m Message.fresh = .ok m) : marshals m c = .ok (c m) := by
  unfold marshals
  rw [h]

/-- C89: `TestKeyGen1_MarshalBinary` passes for every draw. -/
theorem C89_keyGen1 (sha : Sha512) (r : Nat) (hr : r < 65536) (secret k : Scalar) (coins : Coins) : UnitTest.keyGen1 G sha r secret k coins = .ok true := by
  unfold UnitTest.keyGen1
  have h25 : (25 : UInt16).toNat = 25 := rfl
  simp only [Poly.new_eq (show (25 : UInt16) ≠ 65535 by decide), Outcome.ok_bind]
  have h1 : Exponent.constant (Exponent.ofPoly (secret :: (List.range (25 : UInt16).toNat).map coins) : Exponent G) = .ok (secret • base) := rfl
  have h2 : Poly.constant (secret :: (List.range (25 : UInt16).toNat).map coins) = .ok secret := rfl
  obtain ⟨π, h3, -⟩ := C16_honest_verifies (G := G) sha (ID.randID r) (List.replicate 32 0) (by simp) secret k
  rw [h1, Outcome.ok_bind, h2, Outcome.ok_bind, h3, Outcome.ok_bind]
  have h4 := (C78_protocol_messages (ID.randID r) 1 (C09_randID_ne_zero r hr).1 (by decide) π
    (Exponent.ofPoly (secret :: (List.range (25 : UInt16).toNat).map coins) : Exponent G) (by simp [Exponent.ofPoly]) 0 0 0 0).1
  rw [marshals_ok h4, (C78_message_sound _ _ _ h4).1]

/-- C89: `TestSign1_MarshalBinary` passes for every draw. -/
theorem C89_sign1 (d e : Scalar) : UnitTest.sign1 G d e = .ok true := by
  have h := (C78_protocol_messages (G := G) 42 1 (by decide) (by decide) ⟨0, 0⟩ [] (by simp) 0 0 (d • base) (e • base)).2.2.1
  unfold UnitTest.sign1
  simp only
  rw [marshals_ok h, (C78_message_sound _ _ _ h).1]

/-- C89: `TestSign2_MarshalBinary` passes for every draw. -/
theorem C89_sign2 (r : Nat) (hr : r < 65536) (s : Scalar) : UnitTest.sign2 G r s = .ok true := by
  have h := (C78_protocol_messages (G := G) (ID.randID r) 1 (C09_randID_ne_zero r hr).1 (by decide) ⟨0, 0⟩ [] (by simp) 0 s 0 0).2.2.2
  unfold UnitTest.sign2
  simp only
  rw [marshals_ok h]
  simp

/-- C89: `TestKeyGen2_MarshalBinary` fails exactly when the low 16 bits of one of the two numbers drawn are zero: `rand.Uint32` is used where `RandID`
should be. -/
theorem C89_keyGen2 (a b : UInt32) (secret : Scalar) :
    UnitTest.keyGen2 G a b secret = .ok (decide (a.toNat % 65536 ≠ 0 ∧ b.toNat % 65536 ≠ 0)) := by
  have hz : ∀ x : UInt32, x.toUInt16 = 0 ↔ x.toNat % 65536 = 0 := by
    intro x
    rw [← UInt16.toNat_inj, UInt32.toNat_toUInt16]
    rfl
  unfold UnitTest.keyGen2
  simp only
  by_cases h : a.toNat % 65536 ≠ 0 ∧ b.toNat % 65536 ≠ 0
  · have h' := (C78_protocol_messages (G := G) a.toUInt16 b.toUInt16 (fun e => h.1 ((hz a).mp e)) (fun e => h.2 ((hz b).mp e)) ⟨0, 0⟩ [] (by simp) secret 0 0 0).2.1
    rw [marshals_ok h']
    simp [h]
  · have hh : ∃ e, Header.marshalBinary ⟨2, a.toUInt16, b.toUInt16⟩ = .err e := by
      have : a.toUInt16 = 0 ∨ b.toUInt16 = 0 := by
        rw [hz, hz]
        omega
      have e : Header.check 2 a.toUInt16 b.toUInt16 = (do Outcome.failIf (b.toUInt16 = 0) .keygen2WithoutTo; Outcome.failIf (a.toUInt16 = 0) .zeroFrom) := rfl
      unfold Header.marshalBinary Header.bytesAppend
      simp only [e]
      by_cases hb : b.toUInt16 = 0
      · rw [Outcome.failIf_pos hb]
        exact ⟨_, rfl⟩
      · rw [Outcome.failIf_neg hb, Outcome.ok_bind, Outcome.failIf_pos (this.resolve_right hb)]
        exact ⟨_, rfl⟩
    obtain ⟨e, he⟩ := hh
    have hm : Message.marshalBinary (Message.newKeyGen2 a.toUInt16 b.toUInt16 secret : Message G) = .err e := by
      have : Header.bytesAppend (Message.newKeyGen2 a.toUInt16 b.toUInt16 secret : Message G).header [] = .err e := he
      unfold Message.marshalBinary Message.bytesAppend
      rw [this]
      rfl
    unfold marshals checkMarshaler
    have hw : (Marshaler.message : Marshaler (Message G)).marshal (Message.newKeyGen2 a.toUInt16 b.toUInt16 secret) = .err e := hm
    rw [hw]
    simp [CheckErr.wrap, h]

/-! ### pkg/eddsa -/

theorem leNat_ends (a z : UInt8) (m : Bytes) : leNat (a :: m ++ [z]) = a.toNat + 256 * leNat m + 256 ^ (m.length + 1) * z.toNat := by
  rw [leNat_append]
  simp only [leNat, List.length_cons]
  ring

theorem and_248 (a : UInt8) : (a &&& 248).toNat = a.toNat / 8 * 8 := by
  have h : ∀ a : Fin 256, (UInt8.ofNat a &&& 248).toNat = (UInt8.ofNat a).toNat / 8 * 8 := by decide +kernel
  have := h ⟨a.toNat, a.toNat_lt⟩
  simpa using this

theorem and_63_or_64 (a : UInt8) : (a &&& 63 ||| 64).toNat = 64 + a.toNat % 64 := by
  have h : ∀ a : Fin 256, (UInt8.ofNat a &&& 63 ||| 64).toNat = 64 + (UInt8.ofNat a).toNat % 64 := by decide +kernel
  have := h ⟨a.toNat, a.toNat_lt⟩
  simpa using this

/-- `SetBytesWithClamping` as RFC 8032, section 5.1.5, describes it: the low three bits and the top bit are cleared, the bit below the top is set. -/
theorem clamping_eq (recv : Scalar) (x : Bytes) (h : x.length = 32) :
    Scalar.setBytesWithClamping recv x = ((2 ^ 254 + leNat x % 2 ^ 254 / 8 * 8 : Nat) : Scalar) := by
  unfold Scalar.setBytesWithClamping
  rw [if_neg (by omega)]
  simp only []
  congr 1
  obtain ⟨a, t, rfl⟩ := List.exists_cons_of_length_eq_add_one (n := 31) h
  obtain ⟨m, z, rfl⟩ : ∃ m z, t = m ++ [z] := ⟨t.dropLast, t.getLast (by rintro rfl; simp at h), (List.dropLast_append_getLast _).symm⟩
  have hm : m.length = 30 := by simpa using h
  have e1 : ((a :: (m ++ [z])).set 0 ((a :: (m ++ [z])).getD 0 0 &&& 248)) = (a &&& 248) :: (m ++ [z]) := rfl
  have e2 : ((a &&& 248) :: (m ++ [z])).getD 31 0 = z := by simp [List.getD, hm]
  have e3 : ∀ w, ((a &&& 248) :: (m ++ [z])).set 31 w = (a &&& 248) :: m ++ [w] := by
    intro w
    rw [List.set_cons_succ, List.set_append_right _ _ (by omega), hm]
    rfl
  rw [e1, e2, e3, leNat_ends, ← List.cons_append, leNat_ends, and_248, and_63_or_64, hm]
  have hlt : leNat m < 256 ^ 30 := by
    have := leNat_lt m
    rwa [hm] at this
  have ha := a.toNat_lt
  have hz := z.toNat_lt
  omega

/-- C89: the public key that `ed25519.GenerateKey` gives is that of RFC 8032, section 5.1.5. -/
theorem C89_generateKey_rfc8032 (sha : Sha512) (seed : Bytes) :
    Spec.Ed25519.Decodes (Ed25519.generateKey sha seed).1 ((2 ^ 254 + leNat ((sha.sum seed).take 32) % 2 ^ 254 / 8 * 8) • Curve.B) := by
  unfold Ed25519.generateKey
  simp only
  rw [clamping_eq _ _ (by rw [List.length_take, sha.length_sum]; rfl)]
  generalize 2 ^ 254 + leNat ((sha.sum seed).take 32) % 2 ^ 254 / 8 * 8 = n
  have hb : Point.bytes (Point.scalarBaseMult (n : Scalar)) = _ := Curve.point_bytes (Curve.rep_scalarMult _ Curve.rep_generator)
  rw [hb]
  have : ((n : Nat) : Scalar).val • Curve.B = n • Curve.B := by
    have h := congrArg Curve.RG.pt (Nat.cast_smul_eq_nsmul Scalar n (base : Curve.RG))
    rw [Curve.RG.pt_smul, Curve.RG.pt_nsmul] at h
    exact h
  rw [this]
  exact (Curve.decodes_iff _ _).mpr rfl

theorem newKeyPair_ok (sha : Sha512) (seed rest : Bytes) (h : seed.length = 32) :
    (newKeyPair sha (seed ++ rest) : GoRes (Scalar × G)) = .ok (Scalar.setBytesWithClamping 0 ((sha.sum seed).take 32),
      Scalar.setBytesWithClamping 0 ((sha.sum seed).take 32) • base) := by
  unfold newKeyPair
  rw [sliceTo_ok (by simp [h]), Outcome.ok_bind]
  simp only []
  rw [sliceTo_ok (by rw [sha.length_sum]; omega), Outcome.ok_bind, List.take_left' h]
  rfl

/-- C89: `TestPrivateKey_ToEd25519` passes for every seed, on the curve. -/
theorem C89_toEd25519 (sha : Sha512) (seed : Bytes) (h : seed.length = 32) : UnitTest.toEd25519 Curve.RG sha seed = .ok true := by
  unfold UnitTest.toEd25519 Ed25519.generateKey
  simp only
  rw [newKeyPair_ok sha seed _ h, Outcome.ok_bind]
  simp only
  generalize Scalar.setBytesWithClamping 0 ((sha.sum seed).take 32) = s
  have hk : PublicKey.toEd25519 (s • (base : Curve.RG)) = Point.bytes (Point.scalarBaseMult s) := by
    unfold PublicKey.toEd25519
    rw [Curve.RG.bytesEd25519_def, Curve.RG.pt_smul]
    exact (Curve.point_bytes (Curve.rep_scalarMult s Curve.rep_generator)).symm
  rw [hk]
  simp

theorem generateSignature_ok (sha : Sha512) (seed : Bytes) (h : seed.length = 32) (r : Scalar) :
    ∃ (sig : Signature G) (pk : G), generateSignature sha seed r = .ok (sig, pk) ∧ PublicKey.verify sha pk sampleMessage sig = .ok true := by
  unfold generateSignature Ed25519.generateKey
  simp only
  rw [newKeyPair_ok sha seed _ h, Outcome.ok_bind]
  simp only
  generalize Scalar.setBytesWithClamping 0 ((sha.sum seed).take 32) = s
  have hc : ∀ R : G, ∃ c, computeChallenge sha R (s • base) sampleMessage = .ok c := by
    intro R
    unfold computeChallenge
    simp only
    rw [Scalar.setUniformBytes_64 _ (sha.length_sum _)]
    exact ⟨_, rfl⟩
  obtain ⟨c, hc⟩ := hc (r • base)
  have hs : UnitTest.sign sha (SecretShare.new 0 s : SecretShare G) sampleMessage r = .ok ⟨r • base, s * c + r⟩ := by
    unfold UnitTest.sign SecretShare.new
    simp only
    rw [hc]
    rfl
  rw [hs]
  refine ⟨_, _, rfl, ?_⟩
  unfold PublicKey.verify
  simp only
  rw [hc, Outcome.ok_bind]
  simp only [Outcome.pure_def, Outcome.ok.injEq, decide_eq_true_eq]
  rw [smul_neg, smul_smul, add_smul, mul_comm s c]
  abel

/-- C89: `TestSignature_Verify` passes for every seed and nonce, on the curve, also with `crypto/ed25519`. -/
theorem C89_signature (sha : Sha512) (seed : Bytes) (h : seed.length = 32) (r : Scalar) : signatureVerify Curve.RG sha seed r = .ok true := by
  obtain ⟨sig, pk, h1, h2⟩ := generateSignature_ok (G := Curve.RG) sha seed h r
  unfold signatureVerify
  rw [h1, Outcome.ok_bind]
  simp only
  rw [h2, Outcome.ok_bind, C51_crypto_ed25519, h2]
  rfl

/-- C89: `TestSignatureEncode_Decode` passes for every seed and nonce. -/
theorem C89_signatureEncode (sha : Sha512) (seed : Bytes) (h : seed.length = 32) (r : Scalar) : signatureEncode G sha seed r = .ok true := by
  obtain ⟨sig, pk, h1, -⟩ := generateSignature_ok (G := G) sha seed h r
  unfold signatureEncode
  rw [h1, Outcome.ok_bind]
  simp only
  rw [(C78_fixed (G := G) ⟨0⟩ ⟨0⟩ ⟨0, 0⟩ ⟨0, 0⟩ ⟨0⟩ ⟨0⟩ ⟨0, 0⟩ ⟨0, 0⟩ sig ⟨0, 0⟩).2.2.2.2]
  simp

/-- C89: the two tests of `SecretShare`, which draw nothing, pass. -/
theorem C89_secretShare : secretShareJSON G = .ok true ∧ secretShareBinary G = .ok true := by
  constructor
  · unfold secretShareJSON
    rw [Scalar.setScalarUInt32_eq, Outcome.ok_bind]
    simp only []
    rw [C82_roundtrip_bytes]
    simp [UnitTest.require, SecretShare.equal]
  · unfold secretShareBinary
    rw [Scalar.setScalarUInt32_eq, Outcome.ok_bind]
    simp only []
    rw [C52_roundtrip_new]
    simp [UnitTest.require, SecretShare.equal]

theorem sharesLoop_ok (poly : Poly) (draws : List Nat) (hd : ∀ r ∈ draws, r < 65536) (m : GoMap G) (hwf : m.WF) (h0 : (0 : ID) ∉ m.keys)
    (hm : ∀ id g, m.get? id = some g → g = Spec.evalAt poly id.val • base) :
    ∃ m', sharesLoop poly draws m = .ok m' ∧ m'.WF ∧ (0 : ID) ∉ m'.keys ∧ (∀ id g, m'.get? id = some g → g = Spec.evalAt poly id.val • base) ∧
      ∀ id, id ∈ m'.keys ↔ id ∈ m.keys ∨ id ∈ draws.map ID.randID := by
  induction draws generalizing m with
  | nil => exact ⟨m, rfl, hwf, h0, hm, fun id => by simp⟩
  | cons r draws ih =>
    have hr := C09_randID_ne_zero r (hd r List.mem_cons_self)
    have hx := randID_val_ne (hd r List.mem_cons_self)
    obtain ⟨m', h1, h2, h3, h4, h5⟩ := ih (fun r' h => hd r' (List.mem_cons_of_mem _ h)) (m.set (ID.randID r) (Spec.evalAt poly (ID.randID r).val • base))
      (hwf.set _ _) (by rw [GoMap.mem_keys_set, not_or]; exact ⟨fun h => hr.1 h.symm, h0⟩) (by
        intro id g h
        rw [GoMap.get?_set] at h
        split_ifs at h with he
        · cases h
          rw [he]
        · exact hm id g h)
    refine ⟨m', ?_, h2, h3, h4, fun id => ?_⟩
    · rw [sharesLoop]
      simp only []
      rw [ID.scalar_eq, Outcome.ok_bind, Poly.evaluate_ne_zero _ hx, Outcome.ok_bind]
      exact h1
    · rw [h5, GoMap.mem_keys_set]
      simp only [List.map_cons, List.mem_cons]
      tauto

/-- The public data that `NewPublic` makes of the shares of the tests, if there are enough of them. -/
theorem fake_public (ord : MapOrder) (T : UInt16) (hT : T ≠ 65535) (draws : List Nat) (hd : ∀ r ∈ draws, r < 65536) (secret : Scalar) (coins : Coins) :
    ∃ m : GoMap G, m.WF ∧ sharesLoop (secret :: (List.range T.toNat).map coins) draws [] = .ok m ∧
      (if T.toNat + 1 ≤ (draws.map ID.randID).toFinset.card then
        ∃ p, newPublic ord (m.map fun e => (e.1, some e.2)) T = .ok p ∧ p.groupKey = secret • base ∧ p.shares = m ∧ p.partyIDs = IDSlice.new m.keys
       else ∃ e, newPublic ord (m.map fun e => (e.1, some e.2)) T = .err e) := by
  obtain ⟨m, h1, h2, h3, h4, h5⟩ := sharesLoop_ok (G := G) (secret :: (List.range T.toNat).map coins) draws hd [] (by simp [GoMap.WF, GoMap.keys])
    (by simp [GoMap.keys]) (by simp [GoMap.get?])
  refine ⟨m, h2, h1, ?_⟩
  have hlen : m.length = (draws.map ID.randID).toFinset.card := by
    rw [← GoMap.keys_length, ← List.toFinset_card_of_nodup h2]
    congr 1
    ext id
    rw [List.mem_toFinset, List.mem_toFinset, h5]
    simp [GoMap.keys]
  rw [newPublic_eq ord m h2 h3, ← hlen]
  by_cases hc : T.toNat + 1 ≤ m.length
  · rw [if_pos hc, if_neg (by omega)]
    refine ⟨_, rfl, ?_, rfl, rfl⟩
    show interp m = _
    rw [← interp_eq_sum m h2 (List.Perm.refl _)]
    have hg : (m.keys.map fun i => ID.lagrangeVal i m.keys • (m.get? i).getD 0) =
        m.keys.map fun i => (ID.lagrangeVal i m.keys * Spec.evalAt (secret :: (List.range T.toNat).map coins) i.val) • (base : G) := by
      refine List.map_congr_left fun i hi => ?_
      obtain ⟨g, hg⟩ := GoMap.mem_keys_iff.mp hi
      rw [hg, Option.getD_some, h4 i g hg, smul_smul]
    rw [hg, sum_smul_base, interp_poly m.keys h2 _ (by rw [GoMap.keys_length]; simpa using hc)]
    rfl
  · rw [if_neg hc, if_pos ⟨hT, by omega⟩]
    exact ⟨_, rfl⟩

/-- C89: `TestShares_GroupKey`: among the IDs drawn there must be more different ones than the threshold; if so the test passes, otherwise it panics.
(The draws 0 and 1 give the same ID.) -/
theorem C89_groupKey (ord : MapOrder) (T : UInt16) (hT : T ≠ 65535) (draws : List Nat) (hd : ∀ r ∈ draws, r < 65536) (secret : Scalar) (coins : Coins) :
    UnitTest.groupKey G ord T draws secret coins = if T.toNat + 1 ≤ (draws.map ID.randID).toFinset.card then .ok true else .panic := by
  obtain ⟨m, -, h1, h2⟩ := fake_public (G := G) ord T hT draws hd secret coins
  unfold UnitTest.groupKey
  simp only
  rw [Poly.new_eq hT, Outcome.ok_bind, h1, Outcome.ok_bind]
  by_cases hc : T.toNat + 1 ≤ (draws.map ID.randID).toFinset.card
  · rw [if_pos hc] at h2 ⊢
    obtain ⟨p, hp, hk, -⟩ := h2
    rw [hp]
    simp [PublicKey.equal, hk]
  · rw [if_neg hc] at h2 ⊢
    obtain ⟨e, he⟩ := h2
    rw [he]

/-- C89: `TestShares_MarshalJSON`: likewise, for any two orders of iteration. -/
theorem C89_publicJSON (ord ord' : MapOrder) (T : UInt16) (hT : T ≠ 65535) (draws : List Nat) (hd : ∀ r ∈ draws, r < 65536) (secret : Scalar) (coins : Coins) :
    publicJSON G ord ord' T draws secret coins = if T.toNat + 1 ≤ (draws.map ID.randID).toFinset.card then .ok true else .panic := by
  obtain ⟨m, hwf, h1, h2⟩ := fake_public (G := G) ord T hT draws hd secret coins
  unfold publicJSON fakeShares
  rw [Poly.new_eq hT, Outcome.ok_bind, h1, Outcome.ok_bind]
  by_cases hc : T.toNat + 1 ≤ (draws.map ID.randID).toFinset.card
  · rw [if_pos hc] at h2 ⊢
    obtain ⟨p, hp, hk, hs, hi⟩ := h2
    obtain ⟨p', h3, h4⟩ := C83_roundtrip_newPublic_layout ord ord' m hwf T p hp (indent 4 0 (ofPublic (Public.marshalJSON p)))
      ⟨[], _, [], by simp, Ws.nil, indent_text 4 0 _ (ofPublic_plain _), Ws.nil⟩
    obtain ⟨e1, e2, e3, e4⟩ := h4
    rw [hp]
    simp only [Outcome.pure_def, Outcome.ok_bind, Outcome.deref, h3, UnitTest.require]
    have hwf' : p'.shares.WF := by
      unfold GoMap.WF GoMap.keys
      rw [(e4.map Prod.fst).nodup_iff, hs]
      exact hwf
    have hi' : p'.partyIDs = IDSlice.new p'.shares.keys := by
      have hp : (p'.shares.keys).Perm m.keys := by
        have := e4.map Prod.fst
        rwa [hs] at this
      rw [e1, hi]
      exact (C04_newIDSlice_sorted_perm p'.shares.keys).2.2 _ (C04_newIDSlice_sorted_perm _).1 ((IDSlice.new_perm _).trans hp.symm)
    obtain ⟨b, hb, hb'⟩ := C55_equal_iff p p' (by rw [hs]; exact hwf) hwf' (by rw [hs]; exact hi) hi'
    rw [hb]
    have : b = true := hb'.mpr ⟨e1.symm, e2.symm, e3.symm, fun id => GoMap.get?_perm hwf' e4.symm id⟩
    simp [this, PublicKey.equal, hk]
  · rw [if_neg hc] at h2 ⊢
    obtain ⟨e, he⟩ := h2
    rw [he]
    rfl

/-- C89: so, with the numbers of the two tests, there are draws with which they pass and draws with which they panic. -/
theorem C89_shares_flaky (ord ord' : MapOrder) (secret : Scalar) (coins : Coins) :
    (∃ draws : List Nat, draws.length = 50 ∧ (∀ r ∈ draws, r < 65536) ∧ UnitTest.groupKey G ord 40 draws secret coins = .ok true) ∧
    (∃ draws : List Nat, draws.length = 50 ∧ (∀ r ∈ draws, r < 65536) ∧ UnitTest.groupKey G ord 40 draws secret coins = .panic) ∧
    (∃ draws : List Nat, draws.length = 40 ∧ (∀ r ∈ draws, r < 65536) ∧ publicJSON G ord ord' 38 draws secret coins = .ok true) ∧
    ∃ draws : List Nat, draws.length = 40 ∧ (∀ r ∈ draws, r < 65536) ∧ publicJSON G ord ord' 38 draws secret coins = .panic := by
  refine ⟨⟨List.range 50, by simp, fun r hr => by rw [List.mem_range] at hr; omega, ?_⟩,
    ⟨List.replicate 10 65535 ++ List.range 40, by simp, fun r hr => ?_, ?_⟩,
    ⟨List.range 40, by simp, fun r hr => by rw [List.mem_range] at hr; omega, ?_⟩, ⟨0 :: List.range 39, by simp, fun r hr => ?_, ?_⟩⟩
  · rw [C89_groupKey ord 40 (by decide) _ (fun r hr => by rw [List.mem_range] at hr; omega), if_pos (by decide +kernel)]
  · rcases List.mem_append.mp hr with hr | hr
    · rw [(List.mem_replicate.mp hr).2]; omega
    · rw [List.mem_range] at hr; omega
  · rw [C89_groupKey ord 40 (by decide) _ (fun r hr => ?_), if_neg (by decide +kernel)]
    rcases List.mem_append.mp hr with hr | hr
    · rw [(List.mem_replicate.mp hr).2]; omega
    · rw [List.mem_range] at hr; omega
  · rw [C89_publicJSON ord ord' 38 (by decide) _ (fun r hr => by rw [List.mem_range] at hr; omega), if_pos (by decide +kernel)]
  · rcases List.mem_cons.mp hr with rfl | hr
    · omega
    · rw [List.mem_range] at hr; omega
  · rw [C89_publicJSON ord ord' 38 (by decide) _ (fun r hr => ?_), if_neg (by decide +kernel)]
    rcases List.mem_cons.mp hr with rfl | hr
    · omega
    · rw [List.mem_range] at hr; omega

/-! ### pkg/ristretto -/

/-- C89: `TestMarshalElement` passes with every element, not only the one of the test; the tests of `Set` pass. -/
theorem C89_ristretto (x : G) : marshalElement x = .ok true ∧ elementSet G = true ∧ scalarSet = .ok true := by
  refine ⟨?_, ?_, by decide +kernel⟩
  · unfold marshalElement
    rw [parse_compact (ofElement_plain _) (by exact .str)]
    simp only [ofElement, elementPtr, elementText]
    rw [Base64.decode_encode]
    simp [UnitTest.require, RGroup.set_bytes]
  · have h : (base : G) ≠ 0 := RGroup.base_ne_zero
    simp [elementSet, h, h.symm]

/-! ### The hypotheses are met -/

example : exponentEvaluate Toy (List.replicate 5 (7, fun i => i, 65535)) = .ok true := C89_exponent _ (by simp)

example : UnitTest.sum Toy 10 (List.replicate 20 (7, fun i => i)) 0 = .ok true := C89_sum 10 (by decide) _ 0 (by omega)

example : polynomialEvaluate Poly.evaluate (List.replicate 100 65535) = .ok true := C89_polynomial _ (by simp)

example : newScalarUInt32 [1, 2, 200, 499, 1025] = .ok true := C89_scalar _

example : idLagrange 16 ID.lagrange = .ok true := C89_lagrange 16 (by omega) (by omega)

/-- With 42 parties the test of `Lagrange` would fail. -/
example : idLagrange 42 (fun _ _ => .ok 0) = .ok false := by decide +kernel

example : UnitTest.keyGen1 Toy toySha 0 5 6 (fun i => i) = .ok true := C89_keyGen1 _ 0 (by omega) _ _ _

example : UnitTest.keyGen2 Toy 131071 3 5 = .ok true ∧ UnitTest.keyGen2 Toy 131072 3 5 = .ok false := by
  rw [C89_keyGen2, C89_keyGen2]; decide

example : UnitTest.toEd25519 Curve.RG toySha (List.replicate 32 1) = .ok true := C89_toEd25519 _ _ (by simp)

end Verif.Props