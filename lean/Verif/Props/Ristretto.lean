import Verif.Curve.Code
import Verif.Props.Eddsa

/-!
C51, C57–C62 and C68: the ristretto255 group of pkg/ristretto/ristretto.go, on coordinates.

`Rep P A` says that `P` is any extended coordinates of the curve point `A`; `Even A` that `A` is a double, which every element
the code can build is (C68).  `SameElement` and `Encodes` are in `Verif/Spec/Ristretto.lean`, RFC 8032 in
`Verif/Spec/Ed25519.lean`, base64 in `Verif/Spec/Base64.lean`.
-/

namespace Verif.Props

open Verif Verif.Curve Verif.Spec

/-! ### C57 -/

/-- `Equal` on any coordinates of any two points: they differ by a point of order dividing 4. -/
theorem C57_equal_iff {P Q : Point} {A C : E} (hP : Rep P A) (hQ : Rep Q C) :
    Ristretto.equal P Q = true ↔ 4 • (A - C) = 0 := equal_iff hP hQ

/-- `Equal` does not depend on the coordinates. -/
theorem C57_representation {P P' Q Q' : Point} {A C : E} (hP : Rep P A) (hP' : Rep P' A) (hQ : Rep Q C) (hQ' : Rep Q' C) :
    Ristretto.equal P Q = Ristretto.equal P' Q' := by
  rw [Bool.eq_iff_iff, equal_iff hP hQ, equal_iff hP' hQ']

/-- `Equal` is an equivalence on coordinates of points. -/
theorem C57_equivalence :
    (∀ P, Valid P → Ristretto.equal P P = true) ∧
    (∀ P Q, Valid P → Valid Q → Ristretto.equal P Q = true → Ristretto.equal Q P = true) ∧
    (∀ P Q R, Valid P → Valid Q → Valid R → Ristretto.equal P Q = true → Ristretto.equal Q R = true →
      Ristretto.equal P R = true) := by
  refine ⟨?_, ?_, ?_⟩
  · intro P hP
    obtain ⟨A, rA⟩ := hP.rep
    rw [equal_iff rA rA]
    exact .refl A
  · intro P Q hP hQ h
    obtain ⟨A, rA⟩ := hP.rep
    obtain ⟨C, rC⟩ := hQ.rep
    rw [equal_iff rC rA]
    exact ((equal_iff rA rC).1 h).symm
  · intro P Q R hP hQ hR h h'
    obtain ⟨A, rA⟩ := hP.rep
    obtain ⟨C, rC⟩ := hQ.rep
    obtain ⟨D, rD⟩ := hR.rep
    rw [equal_iff rA rD]
    exact ((equal_iff rA rC).1 h).trans ((equal_iff rC rD).1 h')

/-- `Add`, `Subtract`, `Negate` and `ScalarMult` respect `Equal`. -/
theorem C57_compatible {P P' Q Q' : Point} (vP : Valid P) (vP' : Valid P') (vQ : Valid Q) (vQ' : Valid Q')
    (h : Ristretto.equal P P' = true) (h' : Ristretto.equal Q Q' = true) :
    Ristretto.equal (Point.add P Q) (Point.add P' Q') = true ∧
    Ristretto.equal (Point.subtract P Q) (Point.subtract P' Q') = true ∧
    Ristretto.equal (Point.negate P) (Point.negate P') = true ∧
    ∀ s : Scalar, Ristretto.equal (Point.scalarMult s P) (Point.scalarMult s P') = true := by
  obtain ⟨A, rA⟩ := vP.rep
  obtain ⟨A', rA'⟩ := vP'.rep
  obtain ⟨C, rC⟩ := vQ.rep
  obtain ⟨C', rC'⟩ := vQ'.rep
  rw [equal_iff rA rA'] at h
  rw [equal_iff rC rC'] at h'
  refine ⟨?_, ?_, ?_, ?_⟩
  · rw [equal_iff (rep_add rA rC) (rep_add rA' rC')]
    exact h.add h'
  · rw [equal_iff (rep_subtract rA rC) (rep_subtract rA' rC'), sub_eq_add_neg, sub_eq_add_neg]
    exact h.add h'.neg
  · rw [equal_iff (rep_negate rA) (rep_negate rA')]
    exact h.neg
  · intro s
    rw [equal_iff (rep_scalarMult s rA) (rep_scalarMult s rA')]
    exact h.nsmul _

/-- The operations stay on the curve. -/
theorem C57_valid {P Q : Point} (vP : Valid P) (vQ : Valid Q) (s : Scalar) :
    Valid (Point.add P Q) ∧ Valid (Point.subtract P Q) ∧ Valid (Point.negate P) ∧ Valid (Point.scalarMult s P) := by
  obtain ⟨A, rA⟩ := vP.rep
  obtain ⟨C, rC⟩ := vQ.rep
  exact ⟨(rep_add rA rC).valid, (rep_subtract rA rC).valid, (rep_negate rA).valid, (rep_scalarMult s rA).valid⟩

/-- The generator and its sum with the point `(i, 0)` of order 4, with coordinates that differ also by the scaling. -/
example : Ristretto.equal Point.generator (Point.add Point.generator ⟨Fp.libSqrtM1, 0, 1, 0⟩) = true ∧
    Valid Point.generator ∧ Valid ⟨Fp.libSqrtM1, 0, 1, 0⟩ ∧
    Point.generator ≠ Point.add Point.generator ⟨Fp.libSqrtM1, 0, 1, 0⟩ := by
  refine ⟨by decide +kernel, rep_generator.valid, ?_, by decide +kernel⟩
  unfold Valid
  decide +kernel

/-- The generator and its double are different elements. -/
example : Ristretto.equal Point.generator (Point.add Point.generator Point.generator) = false := by decide +kernel

/-! ### C58 -/

/-- `Bytes` gives the same 32 bytes exactly for `Equal` elements. -/
theorem C58_bytes_eq_iff {P Q : Point} {A C : E} (hP : Rep P A) (hA : Curve.Even A) (hQ : Rep Q C) (hC : Curve.Even C) :
    Ristretto.bytes P = Ristretto.bytes Q ↔ Ristretto.equal P Q = true := by
  rw [bytes_eq_iff hP hA hQ hC, equal_iff hP hQ]

/-- `Bytes` is the little-endian form of the encoding that the ristretto255 document gives to the class. -/
theorem C58_bytes_spec {P : Point} {A : E} (hP : Rep P A) (hA : Curve.Even A) :
    ∃ s C, SameElement A C ∧ Encodes s C ∧ (Ristretto.bytes P).length = 32 ∧ leNat (Ristretto.bytes P) = s.val := by
  obtain ⟨C, h, e⟩ := encode_spec hP hA
  exact ⟨_, C, h, e, Fp.bytes_length _, Fp.leNat_bytes _⟩

/-- `SetCanonicalBytes` accepts exactly the 32-byte little-endian forms of `s < p` that encode a point, and gives that point. -/
theorem C58_decode_spec (b : Bytes) (P : Point) :
    Ristretto.setCanonicalBytes b = .ok P ↔
      ∃ s C, Encodes s C ∧ b.length = 32 ∧ leNat b = s.val ∧ P = ⟨C.x, C.y, 1, C.x * C.y⟩ := by
  constructor
  · intro h
    obtain ⟨C, eC, rfl, hb⟩ := setCanonicalBytes_ok h
    obtain ⟨C', hC', eC'⟩ := encode_spec (rep C) eC
    obtain ⟨D, hD, eD, h'⟩ := setCanonicalBytes_bytes (rep C) eC
    rw [hb, h] at h'
    have hCD : C = D := by
      have := Outcome.ok.inj h'
      have r := rep C
      rw [this] at r
      exact r.unique (rep D)
    obtain ⟨P', A', h1, h2⟩ : ∃ s C0, Encodes s C0 ∧ b = Fp.bytes s ∧ affine C = affine C0 := by
      have : Ristretto.setCanonicalBytes (Fp.bytes (Ristretto.encode (affine C))) = .ok (affine C') := by
        unfold Ristretto.setCanonicalBytes
        rw [if_neg (by rw [Fp.bytes_length]; decide), Fp.setBytes_bytes]
        simp only [Option.getD_some, ne_eq, not_true_eq_false, if_false]
        rw [if_neg (by rw [eC'.s_nonneg]; decide), decode_of_encodes eC']
        simp only [Bool.false_eq_true, if_false]
        have hv := setExtended_ok (rep C').valid
        simp only [affine] at hv
        rw [hv]
        rfl
      have hb' : Fp.bytes (Ristretto.encode (affine C)) = b := hb
      rw [hb', h] at this
      exact ⟨_, C', eC', hb.symm, Outcome.ok.inj this⟩
    refine ⟨P', A', h1, ?_, ?_, h2.2⟩
    · rw [h2.1, Fp.bytes_length]
    · rw [h2.1, Fp.leNat_bytes]
  · rintro ⟨s, C, e, hl, hv, rfl⟩
    have hb : b = Fp.bytes s := leNat_inj (hl.trans (Fp.bytes_length s).symm) (hv.trans (Fp.leNat_bytes s).symm)
    rw [hb]
    unfold Ristretto.setCanonicalBytes
    rw [if_neg (by rw [Fp.bytes_length]; decide), Fp.setBytes_bytes]
    simp only [Option.getD_some, ne_eq, not_true_eq_false, if_false]
    rw [if_neg (by rw [e.s_nonneg]; decide), decode_of_encodes e]
    simp only [Bool.false_eq_true, if_false]
    have hv := setExtended_ok (rep C).valid
    simp only [affine] at hv
    rw [hv]
    rfl

/-- `SetCanonicalBytes` accepts exactly the `Bytes` of elements. -/
theorem C58_accepts_iff (b : Bytes) :
    (∃ P, Ristretto.setCanonicalBytes b = .ok P) ↔ ∃ P A, Rep P A ∧ Curve.Even A ∧ Ristretto.bytes P = b := by
  constructor
  · rintro ⟨P, h⟩
    obtain ⟨C, eC, rfl, hb⟩ := setCanonicalBytes_ok h
    exact ⟨_, C, rep C, eC, hb⟩
  · rintro ⟨P, A, rA, eA, rfl⟩
    obtain ⟨C, -, -, h⟩ := setCanonicalBytes_bytes rA eA
    exact ⟨_, h⟩

/-- It returns an `Equal` element. -/
theorem C58_roundtrip {P : Point} {A : E} (hP : Rep P A) (hA : Curve.Even A) :
    ∃ Q C, Ristretto.setCanonicalBytes (Ristretto.bytes P) = .ok Q ∧ Rep Q C ∧ Curve.Even C ∧ Ristretto.equal P Q = true := by
  obtain ⟨C, hC, eC, h⟩ := setCanonicalBytes_bytes hP hA
  exact ⟨_, C, h, rep C, eC, (equal_iff hP (rep C)).2 hC⟩

/-- It never panics, and its only error is the one for a non-canonical encoding. -/
theorem C58_total (b : Bytes) :
    (∃ P, Ristretto.setCanonicalBytes b = .ok P) ∨ Ristretto.setCanonicalBytes b = .err .nonCanonical := by
  rcases setCanonicalBytes_stands b with ⟨P, g, h, -⟩ | ⟨h, -⟩
  · exact .inl ⟨P, h⟩
  · exact .inr h

/-- Encodings of the generator and of its double, and one refused encoding (`s = 1` is negative), as in
pkg/ristretto/ristretto_test.go. -/
example : Ristretto.bytes Point.generator = [
    0xe2, 0xf2, 0xae, 0x0a, 0x6a, 0xbc, 0x4e, 0x71, 0xa8, 0x84, 0xa9, 0x61, 0xc5, 0x00, 0x51, 0x5f,
    0x58, 0xe3, 0x0b, 0x6a, 0xa5, 0x82, 0xdd, 0x8d, 0xb6, 0xa6, 0x59, 0x45, 0xe0, 0x8d, 0x2d, 0x76] ∧
  Ristretto.bytes (Point.add Point.generator Point.generator) = [
    0x6a, 0x49, 0x32, 0x10, 0xf7, 0x49, 0x9c, 0xd1, 0x7f, 0xec, 0xb5, 0x10, 0xae, 0x0c, 0xea, 0x23,
    0xa1, 0x10, 0xe8, 0xd5, 0xb9, 0x01, 0xf8, 0xac, 0xad, 0xd3, 0x09, 0x5c, 0x73, 0xa3, 0xb9, 0x19] ∧
  Ristretto.setCanonicalBytes (1 :: List.replicate 31 0) = .err .nonCanonical ∧
  Rep Point.generator B ∧ Curve.Even B :=
  ⟨by decide +kernel, by decide +kernel, by decide +kernel, rep_generator, even_B⟩

/-! ### C59 -/

/-- `BytesEd25519` never panics and is the RFC 8032 encoding of a point of order dividing `q` in the class of the element. -/
theorem C59_spec {P : Point} {A : E} (hP : Rep P A) (hA : Curve.Even A) :
    ∃ b C, Ristretto.bytesEd25519 P = .ok b ∧ Spec.Ed25519.Decodes b C ∧ q • C = 0 ∧ SameElement A C :=
  ⟨_, _, bytesEd25519_eq hP, (decodes_iff _ _).2 rfl, (cls A).q_pt, same_cls hA⟩

/-- It gives the same bytes exactly for `Equal` elements. -/
theorem C59_eq_iff {P Q : Point} {A C : E} (hP : Rep P A) (hA : Curve.Even A) (hQ : Rep Q C) (hC : Curve.Even C) :
    Ristretto.bytesEd25519 P = Ristretto.bytesEd25519 Q ↔ Ristretto.equal P Q = true := by
  rw [equal_iff hP hQ, ← cls_eq_iff hA hC, bytesEd25519_eq hP, bytesEd25519_eq hQ]
  constructor
  · intro h
    exact RG.ext (edBytes_injective (Outcome.ok.inj h))
  · intro h
    rw [h]

/-- The constant is the inverse of 8. -/
theorem C59_eightInv : ∃ k : Scalar, Ristretto.eightInv = some k ∧ k * 8 = 1 := ⟨_, eightInv_eq, eightInv_mul⟩

example : Ristretto.bytesEd25519 (Point.add Point.generator ⟨Fp.libSqrtM1, 0, 1, 0⟩)
    = .ok (0x58 :: List.replicate 31 0x66) := by decide +kernel

/-! ### C60 -/

/-- `SetUniformBytes` fails exactly when the input is not 64 bytes long. -/
theorem C60_err_iff (b : Bytes) : (∃ e, Ristretto.setUniformBytes b = .err e) ↔ b.length ≠ 64 := by
  constructor
  · rintro ⟨e, h⟩ hl
    obtain ⟨P, A, hP, -⟩ := setUniformBytes_ok hl
    rw [hP] at h
    cases h
  · intro hl
    exact ⟨_, by rw [Ristretto.setUniformBytes, if_pos hl]⟩

/-- It never panics and its results are coordinates of even curve points. -/
theorem C60_ok {b : Bytes} (h : b.length = 64) : ∃ P A, Ristretto.setUniformBytes b = .ok P ∧ Rep P A ∧ Curve.Even A :=
  setUniformBytes_ok h

/-- The map never reaches its panic. -/
theorem C60_map (t : Fp) : ∃ P A, Ristretto.mapToPoint t = .ok P ∧ Rep P A ∧ Curve.Even A := mapToPoint_ok t

/-- Both cases of the map, and the input on which `D = 0` in the usual formulas. -/
example : (Fp.sqrtRatio ((Ristretto.sqrtM1 + 1) * Ristretto.oneMinusDSQ)
      ((-1 - Ristretto.sqrtM1 * Ristretto.d) * (Ristretto.sqrtM1 + Ristretto.d))).2 = false ∧
    (Fp.sqrtRatio ((Ristretto.sqrtM1 * 4 + 1) * Ristretto.oneMinusDSQ)
      ((-1 - Ristretto.sqrtM1 * 4 * Ristretto.d) * (Ristretto.sqrtM1 * 4 + Ristretto.d))).2 = true ∧
    (List.replicate 64 (7 : UInt8)).length = 64 := by decide +kernel

/-! ### C61 -/

/-- `MarshalText` is the RFC 4648 base64 of `Bytes`. -/
theorem C61_marshal_spec (P : Point) : Spec.Base64.Encodes (Ristretto.marshalText P) (Ristretto.bytes P) 0 :=
  (Base64.encode_iff _ _).1 rfl

/-- The text form comes back as an `Equal` element. -/
theorem C61_roundtrip {P : Point} {A : E} (hP : Rep P A) (hA : Curve.Even A) :
    ∃ Q C, Ristretto.unmarshalText (Ristretto.marshalText P) = .ok Q ∧ Rep Q C ∧ Curve.Even C ∧ Ristretto.equal P Q = true := by
  obtain ⟨Q, C, h⟩ := C58_roundtrip hP hA
  refine ⟨Q, C, ?_, h.2⟩
  unfold Ristretto.unmarshalText Ristretto.marshalText
  rw [Base64.decode_encode, Outcome.orErr_some, Outcome.ok_bind]
  exact h.1

/-- `UnmarshalText` accepts exactly the texts that are, without line breaks, a base64 text of a canonical encoding; the unused
low bits of the last digit may be anything. -/
theorem C61_accepts_iff (text : Bytes) (P : Point) :
    Ristretto.unmarshalText text = .ok P ↔
      ∃ b r, Spec.Base64.Encodes (text.filter fun c => c != 10 && c != 13) b r ∧ Ristretto.setCanonicalBytes b = .ok P := by
  unfold Ristretto.unmarshalText Base64.decode
  cases h : Base64.decodeQuanta (Base64.strip text) with
  | none =>
    constructor
    · intro h'
      cases h'
    · rintro ⟨b, r, hb, -⟩
      have := (Base64.decodeQuanta_iff _ _).2 ⟨r, hb⟩
      rw [Base64.strip] at h
      rw [h] at this
      cases this
  | some b =>
    obtain ⟨r, hr⟩ := (Base64.decodeQuanta_iff _ _).1 h
    rw [Outcome.orErr_some, Outcome.ok_bind]
    constructor
    · intro h'
      exact ⟨b, r, hr, h'⟩
    · rintro ⟨b', r', hb', h'⟩
      have := (Base64.decodeQuanta_iff _ _).2 ⟨r', hb'⟩
      rw [Base64.strip] at h
      rw [h] at this
      cases this
      exact h'

/-- `UnmarshalText` never panics. -/
theorem C61_total (text : Bytes) : Ristretto.unmarshalText text ≠ .panic := by
  unfold Ristretto.unmarshalText
  cases Base64.decode text with
  | none => intro h; cases h
  | some b =>
    rw [Outcome.orErr_some, Outcome.ok_bind]
    exact setCanonicalBytes_no_panic b

/-- The text form is not canonical: for every element there is another text of the same length, which differs in the unused bits
of the last digit, that decodes to the same element. -/
theorem C61_not_canonical (P : Point) :
    ∃ text, text ≠ Ristretto.marshalText P ∧ text.length = (Ristretto.marshalText P).length ∧
      Ristretto.unmarshalText text = Ristretto.unmarshalText (Ristretto.marshalText P) := by
  obtain ⟨ds, hd, ht, hl, hv, -⟩ := Base64.encode_digits (Ristretto.bytes P)
  have hb : (Ristretto.bytes P).length = 32 := Fp.bytes_length _
  rw [hb] at hl
  have hlen : ds.length = 43 := by rw [hl]
  have hds : ds ≠ [] := by intro h; rw [h] at hlen; cases hlen
  obtain ⟨init, last, rfl⟩ : ∃ init last, ds = init ++ [last] := ⟨_, _, (List.dropLast_append_getLast hds).symm⟩
  have hlast : last < 64 := hd last (by simp)
  have hval : ∀ x, Spec.Base64.value 64 (init ++ [x]) = Spec.Base64.value 64 init * 64 + x := by
    intro x
    unfold Spec.Base64.value
    rw [List.foldl_append]
    rfl
  rw [hval, hb, hlen] at hv
  have hmod : last % 4 = 0 := by omega
  have hpad : (4 - (init ++ [last + 1]).length % 4) % 4 = 1 := by
    have : (init ++ [last + 1]).length = 43 := by simpa using hlen
    rw [this]
  have hD : Base64.Digits ((init ++ [last + 1]).map Base64.char ++ List.replicate 1 Base64.padChar) (Ristretto.bytes P) 1
      (init ++ [last + 1]) := by
    have hlen' : (init ++ [last + 1]).length = 43 := by simpa using hlen
    refine ⟨?_, by rw [hpad], by rw [hlen', hb], ?_, ?_⟩
    · intro v hv
      rcases List.mem_append.1 hv with hv | hv
      · exact hd v (by simp [hv])
      · simp only [List.mem_singleton] at hv
        omega
    · rw [hval, hb, hlen']
      omega
    · rw [hb, hlen']
      norm_num
  have hne : last + 1 < 64 := hD.1 (last + 1) (by simp)
  have hdec := Base64.decode_of_digits _ _ _ _ hD
  have hstrip : Base64.strip ((init ++ [last + 1]).map Base64.char ++ List.replicate 1 Base64.padChar)
      = (init ++ [last + 1]).map Base64.char ++ List.replicate 1 Base64.padChar := by
    unfold Base64.strip
    rw [List.filter_eq_self]
    intro c hc
    rcases List.mem_append.1 hc with hc | hc
    · obtain ⟨v, -, rfl⟩ := List.mem_map.1 hc
      exact Base64.char_not_newline v
    · rw [List.eq_of_mem_replicate hc]
      decide +kernel
  refine ⟨(init ++ [last + 1]).map Base64.char ++ List.replicate 1 Base64.padChar, ?_, ?_, ?_⟩
  · intro h
    unfold Ristretto.marshalText at h
    rw [ht] at h
    have hpad' : (4 - (init ++ [last]).length % 4) % 4 = 1 := by rw [hlen]
    rw [hpad', List.map_append, List.map_append, List.append_assoc, List.append_assoc, List.append_cancel_left_eq] at h
    simp only [List.map_cons, List.map_nil, List.cons_append, List.nil_append, List.cons.injEq] at h
    have h1 := Base64.value_char _ hlast
    rw [← h.1, Base64.value_char _ hne] at h1
    have := Option.some.inj h1
    omega
  · unfold Ristretto.marshalText
    rw [ht, hlen]
    simp [List.length_append]
  · unfold Ristretto.unmarshalText Ristretto.marshalText
    rw [Base64.decode_encode, Base64.decode, hstrip, hdec]

example : Ristretto.marshalText Point.identity = List.replicate 43 65 ++ [61] ∧
    Ristretto.unmarshalText (List.replicate 20 65 ++ [13, 10] ++ List.replicate 22 65 ++ [67, 61]) = .ok Point.identity := by
  decide +kernel

/-! ### C62 -/

/-- The modulus of the field and the order of the group are prime and have the documented values. -/
theorem C62_primes : Nat.Prime p ∧ Nat.Prime q ∧ p = 2 ^ 255 - 19 ∧ q = 2 ^ 252 + 27742317777372353535851937790883648493 :=
  ⟨p_prime, q_prime, rfl, rfl⟩

/-- The curve has `8 q` points, the generator has order `q`, and the elements are exactly its multiples. -/
theorem C62_order : Nat.card E = 8 * q ∧ addOrderOf B = q ∧ Nat.card RG = q ∧ ∀ g : RG, ∃ k : Scalar, k • (base : RG) = g := by
  refine ⟨by rw [card_E, mul_comm], order_B, ?_, RG.base_gen⟩
  have : Function.Bijective fun k : Scalar => k • (base : RG) :=
    ⟨fun _ _ h => smul_base_injective (G := RG) h, fun g => RG.base_gen g⟩
  rw [← Nat.card_congr (Equiv.ofBijective _ this), Nat.card_zmod]

/-- The constants satisfy their defining equations, and the bytes of the source are decoded without an error. -/
theorem C62_constants :
    Ristretto.d * 121666 = -121665 ∧ Ristretto.sqrtM1 ^ 2 = -1 ∧ Ristretto.sqrtADMinusOne ^ 2 = -1 * Ristretto.d - 1 ∧
    Ristretto.invSqrtAMinusD ^ 2 * (-1 - Ristretto.d) = 1 ∧ Ristretto.oneMinusDSQ = 1 - Ristretto.d ^ 2 ∧
    Ristretto.dMinusOneSQ = (Ristretto.d - 1) ^ 2 ∧ ¬ IsSquare Ristretto.d ∧ Ristretto.d = Point.libD ∧
    Ristretto.sqrtM1 = Fp.libSqrtM1 := by
  rw [d_eq, sqrtM1_eq]
  refine ⟨libD_eq, ?_, ?_, invSqrtAMinusD_eq, oneMinusDSQ_eq, dMinusOneSQ_eq, libD_nonsquare, rfl, rfl⟩
  · rw [pow_two]; exact Fp.i_sq
  · rw [sqrtADMinusOne_eq]; ring

/-- The generator is the point with `y = 4/5` and even `x`. -/
theorem C62_generator : B.y * 5 = 4 ∧ Fp.isNegative B.x = false ∧ Rep Point.generator B := by
  refine ⟨?_, ?_, rep_generator⟩
  · show Point.generator.Y * 5 = 4
    decide +kernel
  · show Fp.isNegative Point.generator.X = false
    decide +kernel

/-! ### C68 -/

/-- The arithmetic of the code on coordinates is the arithmetic of the group used by the protocol models. -/
theorem C68_arithmetic {P Q : Point} {g h : RG} (hP : Stands P g) (hQ : Stands Q h) (a b : Scalar) :
    Stands Point.identity 0 ∧ Stands Point.generator (base : RG) ∧
    Stands (Point.add P Q) (g + h) ∧ Stands (Point.subtract P Q) (g - h) ∧ Stands (Point.negate P) (-g) ∧
    Stands (Point.scalarMult a P) (a • g) ∧ Stands (Point.scalarBaseMult a) (a • (base : RG)) ∧
    Stands (Point.doubleScalarBaseMult a P b) (a • g + b • (base : RG)) ∧ (Ristretto.equal P Q = true ↔ g = h) :=
  ⟨stands_identity, stands_generator, hP.add hQ, hP.subtract hQ, hP.negate, hP.scalarMult a, stands_scalarBaseMult a,
    hP.doubleScalarBaseMult a b, hP.equal hQ⟩

/-- `MultiScalarMult` panics exactly on different lengths, otherwise it is the sum of the products. -/
theorem C68_multiScalarMult (s : List Scalar) {p : List Point} {g : List RG} (h : List.Forall₂ Stands p g) :
    (s.length ≠ g.length ∧ Ristretto.multiScalarMult s p = .panic) ∨
    (s.length = g.length ∧ ∃ P, Ristretto.multiScalarMult s p = .ok P ∧ Stands P ((s.zip g).map fun x => x.1 • x.2).sum) := by
  have hl := h.length_eq
  unfold Ristretto.multiScalarMult
  by_cases hs : s.length = g.length
  · right
    refine ⟨hs, _, if_neg (by rw [not_not, hl, hs]), stands_multiScalarMult h s (hs.trans hl.symm)⟩
  · left
    exact ⟨hs, if_pos (by rw [hl]; exact fun h => hs h.symm)⟩

/-- The encodings of the code are those of the group. -/
theorem C68_encodings {P : Point} {g : RG} (hP : Stands P g) :
    Ristretto.bytes P = RGroup.bytes g ∧ Ristretto.bytesEd25519 P = .ok (RGroup.bytesEd25519 g) :=
  ⟨hP.bytes, hP.bytesEd25519⟩

/-- Decoding on coordinates and in the group agree. -/
theorem C68_decoding (b : Bytes) :
    (∃ P g, Ristretto.setCanonicalBytes b = .ok P ∧ RGroup.setCanonicalBytes b = some (g : RG) ∧ Stands P g) ∨
    (Ristretto.setCanonicalBytes b = .err .nonCanonical ∧ RGroup.setCanonicalBytes b = (none : Option RG)) :=
  setCanonicalBytes_stands b

/-- Coordinates that stand for an element are exactly the coordinates of even points; the element is unique, and every
element has coordinates. -/
theorem C68_stands : (∀ P A, Rep P A → Curve.Even A → ∃! g, Stands P g) ∧ (∀ P g, Stands P g → ∃ A, Rep P A ∧ Curve.Even A ∧ SameElement A g.pt) ∧
    ∀ g, ∃ P, Stands P g := by
  refine ⟨?_, ?_, fun g => ⟨_, stands_affine g⟩⟩
  · intro P A rA eA
    exact ⟨cls A, ⟨A, rA, eA, rfl⟩, fun h hh => hh.unique ⟨A, rA, eA, rfl⟩⟩
  · rintro P g ⟨A, rA, eA, rfl⟩
    exact ⟨A, rA, eA, same_cls eA⟩

/-- Two different coordinates of the same element. -/
example : Stands Point.generator (base : RG) ∧ Stands (Point.add Point.generator Point.identity) (base : RG) ∧
    Point.generator ≠ Point.add Point.generator Point.identity := by
  refine ⟨stands_generator, ?_, by decide +kernel⟩
  have := stands_generator.add stands_identity
  rwa [add_zero] at this

/-! ### C51 -/

theorem smul_digest (n : ℕ) (g : RG) : ((n : Scalar) • g).pt = n • g.pt := by
  rw [Nat.cast_smul_eq_nsmul, RG.pt_nsmul]

theorem verify_points (sha : Sha512) (A : RG) (m : Bytes) (sig : Signature RG) :
    PublicKey.verify sha A m sig = .ok true ↔
      sig.S.val • B = sig.R.pt + leNat (sha.sum (edBytes sig.R.pt ++ edBytes A.pt ++ m)) • A.pt := by
  obtain ⟨b, h1, h2⟩ := C50_verify_iff sha A m sig
  rw [h1, Outcome.ok.injEq, h2]
  have hc : Spec.challenge sha sig.R A m = ((leNat (sha.sum (edBytes sig.R.pt ++ edBytes A.pt ++ m)) : ℕ) : Scalar) := by
    unfold Spec.challenge
    rw [leNat_eq_leValue, RG.bytesEd25519_def, RG.bytesEd25519_def]
  rw [hc]
  constructor
  · intro h
    have := congrArg RG.pt h
    rw [RG.pt_add, smul_digest, RG.pt_smul] at this
    exact this
  · intro h
    refine RG.ext ?_
    rw [RG.pt_add, smul_digest, RG.pt_smul]
    exact h

theorem toEd25519_take (sig : Signature RG) : (Signature.toEd25519 sig).take 32 = edBytes sig.R.pt := by
  unfold Signature.toEd25519
  rw [RG.bytesEd25519_def, List.take_left' (edBytes_length _)]

theorem toEd25519_drop (sig : Signature RG) : (Signature.toEd25519 sig).drop 32 = sig.S.bytes := by
  unfold Signature.toEd25519
  rw [RG.bytesEd25519_def, List.drop_left' (edBytes_length _)]

theorem toEd25519_length (sig : Signature RG) : (Signature.toEd25519 sig).length = 64 := by
  unfold Signature.toEd25519
  rw [RG.bytesEd25519_def, List.length_append, edBytes_length, Scalar.bytes_length]

theorem eight_cancel {C : E} (hq : q • C = 0) (h : 8 • C = 0) : C = 0 := by
  rw [← k8_smul hq, mul_comm, mul_smul, h, smul_zero]

/-- `Verify` accepts exactly when RFC 8032 accepts the `ToEd25519` forms, with the cofactor and without. -/
theorem C51_rfc8032 (sha : Sha512) (A : RG) (m : Bytes) (sig : Signature RG) :
    (PublicKey.verify sha A m sig = .ok true ↔
      Spec.Ed25519.Accepts 1 sha.sum (PublicKey.toEd25519 A) m (Signature.toEd25519 sig)) ∧
    (PublicKey.verify sha A m sig = .ok true ↔
      Spec.Ed25519.Accepts 8 sha.sum (PublicKey.toEd25519 A) m (Signature.toEd25519 sig)) := by
  have hA : PublicKey.toEd25519 A = edBytes A.pt := RG.bytesEd25519_def A
  have hS : leNat sig.S.bytes < q := by rw [Scalar.leNat_bytes]; exact ZMod.val_lt _
  have key : ∀ c : ℕ, Spec.Ed25519.Accepts c sha.sum (PublicKey.toEd25519 A) m (Signature.toEd25519 sig) ↔
      c • (sig.S.val • B) = c • sig.R.pt + c • (leNat (sha.sum (edBytes sig.R.pt ++ edBytes A.pt ++ m)) • A.pt) := by
    intro c
    unfold Spec.Ed25519.Accepts
    rw [toEd25519_take, toEd25519_drop, hA, Scalar.leNat_bytes]
    constructor
    · rintro ⟨-, A', R', hA', hR', -, h⟩
      rw [decodes_iff] at hA' hR'
      rw [edBytes_injective hA', edBytes_injective hR'] at *
      exact h
    · intro h
      rw [Scalar.leNat_bytes] at hS
      exact ⟨toEd25519_length sig, A.pt, sig.R.pt, (decodes_iff _ _).2 rfl, (decodes_iff _ _).2 rfl, hS, h⟩
  rw [verify_points, key, key]
  simp only [one_nsmul, true_and]
  constructor
  · intro h
    rw [h, nsmul_add]
  · intro h
    generalize leNat (sha.sum (edBytes sig.R.pt ++ edBytes A.pt ++ m)) = n at h ⊢
    rw [← sub_eq_zero]
    apply eight_cancel
    · have e : sig.S.val • B - (sig.R.pt + n • A.pt) = (sig.S.val • (base : RG) - (sig.R + n • A)).pt := rfl
      rw [e]
      exact RG.q_pt _
    · rw [nsmul_sub, nsmul_add, h, sub_self]

theorem top_bits (s : Scalar) : (Scalar.bytes s).getD 31 0 &&& 224 = 0 := by
  have hlt : s.val < 2 ^ 253 := scalar_lt s
  have hl := Scalar.bytes_length s
  have hv := Scalar.leNat_bytes s
  generalize Scalar.bytes s = b at hl hv ⊢
  obtain ⟨c, hc⟩ : ∃ c, b.drop 31 = [c] := by
    rw [← List.length_eq_one_iff]
    simp [hl]
  have h31 : (b.take 31).length = 31 := by simp [hl]
  have hg : b.getD 31 0 = c := by
    conv_lhs => rw [← List.take_append_drop 31 b, hc]
    rw [List.getD_eq_getElem?_getD, List.getElem?_append_right (by rw [h31]), h31]
    rfl
  have hb' : leNat b = leNat (b.take 31) + 256 ^ 31 * c.toNat := by
    conv_lhs => rw [← List.take_append_drop 31 b, leNat_append, h31, hc]
    simp [leNat]
  have hc32 : c.toNat < 32 := by
    by_contra hcon
    have : 256 ^ 31 * 32 ≤ 256 ^ 31 * c.toNat := Nat.mul_le_mul_left _ (by omega)
    have e : (256 : ℕ) ^ 31 * 32 = 2 ^ 253 := by norm_num
    omega
  rw [hg]
  have key : ∀ n : Fin 32, (n.val &&& 224) = 0 := by decide +kernel
  apply UInt8.toNat_inj.1
  rw [UInt8.toNat_and]
  exact key ⟨c.toNat, hc32⟩

theorem toEd25519_top (sig : Signature RG) : (Signature.toEd25519 sig).getD 63 0 &&& 224 = 0 := by
  have : (Signature.toEd25519 sig).getD 63 0 = sig.S.bytes.getD 31 0 := by
    rw [← toEd25519_drop sig, List.getD_eq_getElem?_getD, List.getD_eq_getElem?_getD, List.getElem?_drop]
  rw [this, top_bits]

theorem ed25519_verify_eq (sha : Sha512) {pk m sig : Bytes} {P : Point} {s : Scalar} (hl : pk.length = 32) (hs : sig.length = 64)
    (ht : sig.getD 63 0 &&& 224 = 0) (hP : Point.setBytes pk = some P) (hS : Scalar.setCanonicalBytes (sig.drop 32) = some s) :
    Ed25519.verify sha pk m sig = .ok (decide (sig.take 32 = Point.bytes (Point.doubleScalarBaseMult
      ((leNat (sha.sum (sig.take 32 ++ pk ++ m)) : ℕ) : Scalar) (Point.negate P) s))) := by
  unfold Ed25519.verify
  rw [if_neg (by rw [hl]; decide), if_neg (by rw [hs, ht]; decide), hP, hS]

/-- `Verify` and crypto/ed25519.Verify on the `ToEd25519` forms give the same answer. -/
theorem C51_crypto_ed25519 (sha : Sha512) (A : RG) (m : Bytes) (sig : Signature RG) :
    Ed25519.verify sha (PublicKey.toEd25519 A) m (Signature.toEd25519 sig) = PublicKey.verify sha A m sig := by
  have hA : PublicKey.toEd25519 A = edBytes A.pt := RG.bytesEd25519_def A
  rw [hA, ed25519_verify_eq sha (edBytes_length _) (toEd25519_length sig) (toEd25519_top sig) (setBytes_edBytes A.pt)
    (by rw [toEd25519_drop]; exact Scalar.set_bytes sig.S), toEd25519_take]
  have h1 := verify_points sha A m sig
  obtain ⟨b, h2, -⟩ := C50_verify_iff sha A m sig
  rw [h2] at h1 ⊢
  generalize leNat (sha.sum (edBytes sig.R.pt ++ edBytes A.pt ++ m)) = n at h1 ⊢
  have hrep := (stands_affine A).negate.doubleScalarBaseMult (n : Scalar) sig.S
  obtain ⟨C, rC, -, -⟩ := hrep
  have rC' : Rep (Point.doubleScalarBaseMult (n : Scalar) (Point.negate (affine A.pt)) sig.S) (((n : Scalar) • (-A) + sig.S • (base : RG)).pt) := by
    have r1 := rep_scalarMult (n : Scalar) (rep_negate (rep A.pt))
    have r2 := rep_scalarMult sig.S rep_generator
    have r := rep_add r1 r2
    rw [RG.pt_add, RG.pt_smul, RG.pt_smul]
    exact r
  rw [point_bytes rC']
  congr 1
  rw [Outcome.ok.injEq] at h1
  rw [Bool.eq_iff_iff, h1, decide_eq_true_eq]
  have e : ((n : Scalar) • (-A) + sig.S • (base : RG)).pt = sig.S.val • B - n • A.pt := by
    rw [RG.pt_add, smul_digest, RG.pt_smul, RG.pt_neg, smul_neg]
    show -(n • A.pt) + sig.S.val • B = _
    abel
  rw [e]
  constructor
  · intro h
    rw [edBytes_injective h]
    abel
  · intro h
    rw [h, add_sub_cancel_right]

/-- Keys and signatures that both sides accept exist for every message. -/
example (sha : Sha512) (a r : Scalar) (m : Bytes) : ∃ sig : Signature RG,
    PublicKey.verify sha (a • (base : RG)) m sig = .ok true ∧
    Spec.Ed25519.Accepts 8 sha.sum (PublicKey.toEd25519 (a • (base : RG))) m (Signature.toEd25519 sig) :=
  ⟨_, C50_complete sha a r m, (C51_rfc8032 sha _ m _).2.1 (C50_complete sha a r m)⟩

/-- One run of crypto/ed25519.Verify on the encodings made by the code: key `[7]B`, `R = [10]B`, challenge 5. -/
example : (do
    let pk ← Ristretto.bytesEd25519 (Point.scalarBaseMult 7)
    let R ← Ristretto.bytesEd25519 (Point.scalarBaseMult 10)
    let good ← Ed25519.verify toySha pk [1, 2, 3] (R ++ Scalar.bytes (10 + 5 * 7))
    let bad ← Ed25519.verify toySha pk [1, 2, 3] (R ++ Scalar.bytes (10 + 5 * 8))
    return (good, bad) : GoRes (Bool × Bool)) = .ok (true, false) := by decide +kernel

end Verif.Props
