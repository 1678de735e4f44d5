import Verif.Model.Messages
import Verif.Lemmas.Bytes
import Verif.Lemmas.Polynomial
import Verif.Lemmas.Group
import Verif.Spec.Messages
import Verif.Props.Polynomial

/-!
Lemmas about the wire format.
-/

namespace Verif

open Verif.Props

variable {G : Type} [RGroup G]

theorem sliceTo_ok {b : Bytes} {n : Nat} (h : n ≤ b.length) : sliceTo b n = .ok (b.take n) := by unfold sliceTo; rw [if_pos h]
theorem sliceFrom_ok {b : Bytes} {n : Nat} (h : n ≤ b.length) : sliceFrom b n = .ok (b.drop n) := by unfold sliceFrom; rw [if_pos h]

theorem be16_eq_be2 (x : UInt16) : be16 x = Spec.be2 x := by
  unfold be16 Spec.be2
  congr 1
  · apply UInt8.toNat_inj.mp
    rw [be16_hi, UInt8.toNat_ofNat']
    have := x.toNat_lt
    omega

namespace Schnorr

theorem marshal_eq (p : Schnorr) : marshalBinary p = p.S.bytes ++ p.R.bytes := by
  unfold marshalBinary bytesAppend; rw [List.nil_append]

theorem bytesAppend_eq (p : Schnorr) (e : Bytes) : bytesAppend p e = e ++ marshalBinary p := by
  unfold marshalBinary bytesAppend; simp

theorem marshal_length (p : Schnorr) : (marshalBinary p).length = 64 := by
  rw [marshal_eq, List.length_append, Scalar.bytes_length, Scalar.bytes_length]

theorem unmarshal_marshal (p : Schnorr) : unmarshalBinary (marshalBinary p) = .ok p := by
  have hl := marshal_length p
  unfold unmarshalBinary
  rw [Outcome.failIf_neg (by omega), Outcome.ok_bind, marshal_eq, sliceTo_append (Scalar.bytes_length _), Outcome.ok_bind,
    Scalar.set_bytes, Outcome.orErr_some, Outcome.ok_bind, sliceFrom_append (Scalar.bytes_length _), Outcome.ok_bind,
    Scalar.set_bytes]
  rfl

theorem unmarshal_ok {data : Bytes} {p : Schnorr} (h : unmarshalBinary data = .ok p) : data = marshalBinary p := by
  unfold unmarshalBinary at h
  by_cases hl : data.length < 64
  · rw [Outcome.failIf_pos hl] at h; simp at h
  rw [Outcome.failIf_neg hl, Outcome.ok_bind, sliceTo_ok (by omega), Outcome.ok_bind] at h
  cases hS : Scalar.setCanonicalBytes (data.take 32) with
  | none => simp [hS] at h
  | some S =>
    rw [hS, Outcome.orErr_some, Outcome.ok_bind, sliceFrom_ok (by omega), Outcome.ok_bind] at h
    cases hR : Scalar.setCanonicalBytes (data.drop 32) with
    | none => simp [hR] at h
    | some R =>
      rw [hR, Outcome.orErr_some, Outcome.ok_bind] at h
      obtain rfl := Outcome.ok.inj h
      rw [marshal_eq]
      show data = S.bytes ++ R.bytes
      rw [Scalar.bytes_set hS, Scalar.bytes_set hR, List.take_append_drop]

theorem unmarshal_no_panic (data : Bytes) : unmarshalBinary data ≠ .panic := by
  unfold unmarshalBinary
  by_cases hl : data.length < 64
  · rw [Outcome.failIf_pos hl]; simp
  rw [Outcome.failIf_neg hl, Outcome.ok_bind, sliceTo_ok (by omega), Outcome.ok_bind]
  cases hS : Scalar.setCanonicalBytes (data.take 32) with
  | none => simp
  | some S =>
    rw [Outcome.orErr_some, Outcome.ok_bind, sliceFrom_ok (by omega), Outcome.ok_bind]
    cases hR : Scalar.setCanonicalBytes (data.drop 32) <;> simp

theorem equal_iff (p o : Schnorr) : equal p o = true ↔ p = o := by
  unfold equal
  obtain ⟨a, b⟩ := p
  obtain ⟨c, d⟩ := o
  simp only [Schnorr.mk.injEq]
  by_cases h1 : c = a
  · by_cases h2 : d = b
    · simp [h1, h2]
    · have : ¬ b = d := fun e => h2 e.symm
      simp [h1, h2, this]
  · have : ¬ a = c := fun e => h1 e.symm
    simp [h1, this]

end Schnorr

namespace Exponent

theorem bytesAppend_marshal (p : Exponent G) (e : Bytes) : bytesAppend p e = e ++ marshalBinary p := by
  unfold marshalBinary; rw [bytesAppend_eq, bytesAppend_eq]; simp

theorem marshal_injective {p p' : Exponent G} (h : marshalBinary p = marshalBinary p') : p = p' := by
  unfold marshalBinary at h
  rw [bytesAppend_eq, bytesAppend_eq, List.nil_append, List.nil_append] at h
  have h2 := (List.append_inj h (by rw [show (ID.bytes _).length = 2 from be16_length _, show (ID.bytes _).length = 2 from be16_length _])).2
  have hl : p.length = p'.length := by
    have := congrArg List.length h2
    rw [flatten_bytes_length, flatten_bytes_length] at this
    omega
  clear h
  induction p generalizing p' with
  | nil => cases p' with
    | nil => rfl
    | cons b p' => simp at hl
  | cons a p ih => cases p' with
    | nil => simp at hl
    | cons b p' =>
      simp only [List.map_cons, List.flatten_cons] at h2
      obtain ⟨h3, h4⟩ := List.append_inj h2 (by rw [RGroup.bytes_length, RGroup.bytes_length])
      rw [Verif.bytes_injective h3, ih h4 (by simpa using hl)]

end Exponent

namespace KeyGen1

theorem marshal_eq (m : KeyGen1 G) : marshalBinary m = m.proof.marshalBinary ++ m.commitments.marshalBinary := by
  unfold marshalBinary bytesAppend
  rw [Exponent.bytesAppend_marshal, Schnorr.bytesAppend_eq, List.nil_append]

theorem bytesAppend_eq (m : KeyGen1 G) (e : Bytes) : bytesAppend m e = e ++ marshalBinary m := by
  rw [marshal_eq]; unfold bytesAppend
  rw [Exponent.bytesAppend_marshal, Schnorr.bytesAppend_eq, List.append_assoc]

theorem marshal_length (m : KeyGen1 G) : (marshalBinary m).length = m.size := by
  rw [marshal_eq, List.length_append, Schnorr.marshal_length, Props.marshal_length]; rfl

theorem unmarshal_marshal (m : KeyGen1 G) (h : m.commitments.length ≤ 65535) :
    unmarshalBinary (marshalBinary m) = .ok m := by
  have hl := Schnorr.marshal_length m.proof
  unfold unmarshalBinary
  rw [marshal_eq, Outcome.failIf_neg (by rw [List.length_append]; omega), Outcome.ok_bind, sliceTo_append hl, Outcome.ok_bind,
    Schnorr.unmarshal_marshal, Outcome.ok_bind, sliceFrom_append hl, Outcome.ok_bind, (C13_roundtrip_partial _ h).1]
  rfl

theorem unmarshal_ok {data : Bytes} {m : KeyGen1 G} (h : unmarshalBinary data = .ok m) :
    data = marshalBinary m ∧ m.commitments.length ≤ 65535 := by
  unfold unmarshalBinary at h
  by_cases hl : data.length < 64
  · rw [Outcome.failIf_pos hl] at h; simp at h
  rw [Outcome.failIf_neg hl, Outcome.ok_bind, sliceTo_ok (by omega), Outcome.ok_bind] at h
  cases hp : Schnorr.unmarshalBinary (data.take 64) with
  | err e => simp [hp] at h
  | panic => simp [hp] at h
  | ok p =>
    rw [hp, Outcome.ok_bind, sliceFrom_ok (by omega), Outcome.ok_bind] at h
    cases hc : (Exponent.unmarshalBinary (data.drop 64) : GoRes (Exponent G)) with
    | err e => simp [hc] at h
    | panic => simp [hc] at h
    | ok c =>
      rw [hc, Outcome.ok_bind] at h
      obtain rfl := Outcome.ok.inj h
      refine ⟨?_, ?_⟩
      · rw [marshal_eq]
        show data = p.marshalBinary ++ Exponent.marshalBinary c
        rw [← Schnorr.unmarshal_ok hp, C13_canonical _ _ hc, List.take_append_drop]
      · obtain ⟨d, _, hl⟩ := Props.unmarshal_ok hc
        have := (d + 1).toNat_lt
        show c.length ≤ _
        omega

theorem unmarshal_no_panic (data : Bytes) : (unmarshalBinary data : GoRes (KeyGen1 G)) ≠ .panic := by
  unfold unmarshalBinary
  by_cases hl : data.length < 64
  · rw [Outcome.failIf_pos hl]; simp
  rw [Outcome.failIf_neg hl, Outcome.ok_bind, sliceTo_ok (by omega), Outcome.ok_bind]
  cases hp : Schnorr.unmarshalBinary (data.take 64) with
  | err e => simp
  | panic => exact absurd hp (Schnorr.unmarshal_no_panic _)
  | ok p =>
    rw [Outcome.ok_bind, sliceFrom_ok (by omega), Outcome.ok_bind]
    cases hc : (Exponent.unmarshalBinary (data.drop 64) : GoRes (Exponent G)) with
    | err e => simp
    | panic => exact absurd hc (C13_unmarshal_no_panic _)
    | ok c => simp

theorem equal_iff (m o : KeyGen1 G) : equal m o = true ↔ m = o := by
  unfold equal
  obtain ⟨a, b⟩ := m
  obtain ⟨c, d⟩ := o
  simp only [KeyGen1.mk.injEq]
  by_cases h1 : c = a
  · by_cases h2 : d = b
    · simp [h1, h2, (Schnorr.equal_iff a a).mpr rfl, (Exponent.equal_iff b b).mpr rfl]
    · have h2' : ¬ b = d := fun e => h2 e.symm
      have : Exponent.equal d b = false := by
        rw [Bool.eq_false_iff]; exact fun e => h2 ((Exponent.equal_iff _ _).mp e)
      simp [h2', this]
  · have h1' : ¬ a = c := fun e => h1 e.symm
    have : Schnorr.equal c a = false := by
      rw [Bool.eq_false_iff]; exact fun e => h1 ((Schnorr.equal_iff _ _).mp e)
    simp [h1', this]

end KeyGen1

namespace KeyGen2

theorem marshal_eq (m : KeyGen2) : marshalBinary m = m.share.bytes := by unfold marshalBinary bytesAppend; rw [List.nil_append]
theorem bytesAppend_eq (m : KeyGen2) (e : Bytes) : bytesAppend m e = e ++ marshalBinary m := by rw [marshal_eq]; rfl
theorem marshal_length (m : KeyGen2) : (marshalBinary m).length = m.size := by rw [marshal_eq, Scalar.bytes_length]; rfl

theorem unmarshal_marshal (m : KeyGen2) : unmarshalBinary (marshalBinary m) = .ok m := by
  unfold unmarshalBinary
  rw [marshal_eq, Outcome.failIf_neg (by rw [Scalar.bytes_length]; simp), Outcome.ok_bind, Scalar.set_bytes]; rfl

theorem unmarshal_ok {data : Bytes} {m : KeyGen2} (h : unmarshalBinary data = .ok m) : data = marshalBinary m := by
  unfold unmarshalBinary at h
  by_cases hl : data.length ≠ 32
  · rw [Outcome.failIf_pos hl] at h; simp at h
  rw [Outcome.failIf_neg hl, Outcome.ok_bind] at h
  cases hS : Scalar.setCanonicalBytes data with
  | none => simp [hS] at h
  | some S =>
    rw [hS, Outcome.orErr_some, Outcome.ok_bind] at h
    obtain rfl := Outcome.ok.inj h
    rw [marshal_eq]; exact (Scalar.bytes_set hS).symm

theorem unmarshal_no_panic (data : Bytes) : unmarshalBinary data ≠ .panic := by
  unfold unmarshalBinary
  by_cases hl : data.length ≠ 32
  · rw [Outcome.failIf_pos hl]; simp
  rw [Outcome.failIf_neg hl, Outcome.ok_bind]
  cases hS : Scalar.setCanonicalBytes data <;> simp

theorem equal_iff (m o : KeyGen2) : equal m o = true ↔ m = o := by
  unfold equal; obtain ⟨a⟩ := m; obtain ⟨b⟩ := o
  simp [eq_comm]

end KeyGen2

namespace Sign2

theorem marshal_eq (m : Sign2) : marshalBinary m = m.Zi.bytes := by unfold marshalBinary bytesAppend; rw [List.nil_append]
theorem bytesAppend_eq (m : Sign2) (e : Bytes) : bytesAppend m e = e ++ marshalBinary m := by rw [marshal_eq]; rfl
theorem marshal_length (m : Sign2) : (marshalBinary m).length = m.size := by rw [marshal_eq, Scalar.bytes_length]; rfl

theorem unmarshal_marshal (m : Sign2) : unmarshalBinary (marshalBinary m) = .ok m := by
  unfold unmarshalBinary
  rw [marshal_eq, Outcome.failIf_neg (by rw [Scalar.bytes_length]; simp), Outcome.ok_bind, Scalar.set_bytes]; rfl

theorem unmarshal_ok {data : Bytes} {m : Sign2} (h : unmarshalBinary data = .ok m) : data = marshalBinary m := by
  unfold unmarshalBinary at h
  by_cases hl : data.length ≠ 32
  · rw [Outcome.failIf_pos hl] at h; simp at h
  rw [Outcome.failIf_neg hl, Outcome.ok_bind] at h
  cases hS : Scalar.setCanonicalBytes data with
  | none => simp [hS] at h
  | some S =>
    rw [hS, Outcome.orErr_some, Outcome.ok_bind] at h
    obtain rfl := Outcome.ok.inj h
    rw [marshal_eq]; exact (Scalar.bytes_set hS).symm

theorem unmarshal_no_panic (data : Bytes) : unmarshalBinary data ≠ .panic := by
  unfold unmarshalBinary
  by_cases hl : data.length ≠ 32
  · rw [Outcome.failIf_pos hl]; simp
  rw [Outcome.failIf_neg hl, Outcome.ok_bind]
  cases hS : Scalar.setCanonicalBytes data <;> simp

theorem equal_iff (m o : Sign2) : equal m o = true ↔ m = o := by
  unfold equal; obtain ⟨a⟩ := m; obtain ⟨b⟩ := o
  simp [eq_comm]

end Sign2

namespace Sign1

theorem marshal_eq (m : Sign1 G) : marshalBinary m = RGroup.bytes m.Di ++ RGroup.bytes m.Ei := by
  unfold marshalBinary bytesAppend; rw [List.nil_append]
theorem bytesAppend_eq (m : Sign1 G) (e : Bytes) : bytesAppend m e = e ++ marshalBinary m := by
  rw [marshal_eq]; unfold bytesAppend; rw [List.append_assoc]
theorem marshal_length (m : Sign1 G) : (marshalBinary m).length = m.size := by
  rw [marshal_eq, List.length_append, RGroup.bytes_length, RGroup.bytes_length]; rfl

theorem unmarshal_marshal (m : Sign1 G) : unmarshalBinary (marshalBinary m) = .ok m := by
  unfold unmarshalBinary
  rw [Outcome.failIf_neg (by rw [marshal_length]; simp [size]), Outcome.ok_bind, marshal_eq,
    sliceTo_append (RGroup.bytes_length _), Outcome.ok_bind, RGroup.set_bytes, Outcome.orErr_some, Outcome.ok_bind,
    sliceFrom_append (RGroup.bytes_length _), Outcome.ok_bind, RGroup.set_bytes]
  rfl

theorem unmarshal_ok {data : Bytes} {m : Sign1 G} (h : unmarshalBinary data = .ok m) : data = marshalBinary m := by
  unfold unmarshalBinary at h
  by_cases hl : data.length ≠ 64
  · rw [Outcome.failIf_pos hl] at h; simp at h
  rw [Outcome.failIf_neg hl, Outcome.ok_bind, sliceTo_ok (by omega), Outcome.ok_bind] at h
  cases hD : (RGroup.setCanonicalBytes (data.take 32) : Option G) with
  | none => simp [hD] at h
  | some D =>
    rw [hD, Outcome.orErr_some, Outcome.ok_bind, sliceFrom_ok (by omega), Outcome.ok_bind] at h
    cases hE : (RGroup.setCanonicalBytes (data.drop 32) : Option G) with
    | none => simp [hE] at h
    | some E =>
      rw [hE, Outcome.orErr_some, Outcome.ok_bind] at h
      obtain rfl := Outcome.ok.inj h
      rw [marshal_eq]
      show data = RGroup.bytes D ++ RGroup.bytes E
      rw [RGroup.bytes_set _ _ hD, RGroup.bytes_set _ _ hE, List.take_append_drop]

theorem unmarshal_no_panic (data : Bytes) : (unmarshalBinary data : GoRes (Sign1 G)) ≠ .panic := by
  unfold unmarshalBinary
  by_cases hl : data.length ≠ 64
  · rw [Outcome.failIf_pos hl]; simp
  rw [Outcome.failIf_neg hl, Outcome.ok_bind, sliceTo_ok (by omega), Outcome.ok_bind]
  cases hD : (RGroup.setCanonicalBytes (data.take 32) : Option G) with
  | none => simp
  | some D =>
    rw [Outcome.orErr_some, Outcome.ok_bind, sliceFrom_ok (by omega), Outcome.ok_bind]
    cases hE : (RGroup.setCanonicalBytes (data.drop 32) : Option G) <;> simp

theorem equal_iff (m o : Sign1 G) : equal m o = true ↔ m = o := by
  unfold equal
  obtain ⟨a, b⟩ := m
  obtain ⟨c, d⟩ := o
  simp only [Sign1.mk.injEq]
  by_cases h1 : c = a
  · by_cases h2 : d = b
    · simp [h1, h2]
    · have : ¬ b = d := fun e => h2 e.symm
      simp [h1, h2, this]
  · have : ¬ a = c := fun e => h1 e.symm
    simp [h1, this]

end Sign1

namespace Header

theorem check_ok_iff (t : MsgType) (f o : ID) : check t f o = .ok () ↔ Spec.ValidHeader t f o := by
  unfold check Spec.ValidHeader MsgType.keyGen1 MsgType.sign1 MsgType.sign2 MsgType.keyGen2
  by_cases h1 : t = 1 ∨ t = 3 ∨ t = 4
  · have h2 : t ≠ 2 := by rintro rfl; revert h1; decide
    by_cases ho : o = 0 <;> by_cases hf : f = 0 <;> simp [h1, h2, ho, hf, Outcome.failIf]
  · by_cases h2 : t = 2
    · by_cases ho : o = 0 <;> by_cases hf : f = 0 <;> simp [h1, h2, ho, hf, Outcome.failIf]
    · simp [h1, h2]

theorem check_no_panic (t : MsgType) (f o : ID) : check t f o ≠ .panic := by
  unfold check
  split_ifs <;> by_cases ho : o = 0 <;> by_cases hf : f = 0 <;> simp [ho, hf, Outcome.failIf]

theorem unmarshal_cons (t : MsgType) (f o : ID) (rest : Bytes) :
    unmarshalBinary (t :: (f.bytes ++ (o.bytes ++ rest))) = (check t f o >>= fun _ => .ok ⟨t, f, o⟩) := by
  have hf : (ID.bytes f).length = 2 := be16_length f
  have ho : (ID.bytes o).length = 2 := be16_length o
  unfold unmarshalBinary
  rw [Outcome.failIf_neg (by simp only [List.length_cons, List.length_append, hf, ho, headerSize]; omega), Outcome.ok_bind]
  have e0 : goIndex (t :: (f.bytes ++ (o.bytes ++ rest))) 0 = .ok t := rfl
  have e1 : sliceFrom (t :: (f.bytes ++ (o.bytes ++ rest))) 1 = .ok (f.bytes ++ (o.bytes ++ rest)) := by
    rw [sliceFrom_ok (by simp)]; rfl
  have e2 : sliceFrom (t :: (f.bytes ++ (o.bytes ++ rest))) (1 + 2) = .ok (o.bytes ++ rest) := by
    rw [show t :: (f.bytes ++ (o.bytes ++ rest)) = (t :: f.bytes) ++ (o.bytes ++ rest) from rfl]
    exact sliceFrom_append (by simp [hf])
  rw [e0, Outcome.ok_bind, e1, Outcome.ok_bind, fromBytes_bytes_append, Outcome.ok_bind, e2, Outcome.ok_bind,
    fromBytes_bytes_append, Outcome.ok_bind]
  rfl

theorem data_cases (data : Bytes) : data.length < 5 ∨ ∃ (t : MsgType) (f o : ID) (rest : Bytes),
    data = t :: (f.bytes ++ (o.bytes ++ rest)) := by
  by_cases hl : data.length < 5
  · exact Or.inl hl
  right
  match data, hl with
  | [], hl => simp at hl
  | t :: data, hl =>
    rcases fromBytes_cases data with ⟨h, _⟩ | ⟨f, rest, _, rfl⟩
    · simp only [List.length_cons] at hl; omega
    · rcases fromBytes_cases rest with ⟨h, _⟩ | ⟨o, rest, _, rfl⟩
      · have hf : (ID.bytes f).length = 2 := be16_length f
        simp only [List.length_cons, List.length_append, hf] at hl; omega
      · exact ⟨t, f, o, rest, rfl⟩

theorem unmarshal_short {data : Bytes} (h : data.length < 5) : unmarshalBinary data = .err .tooShort := by
  unfold unmarshalBinary; rw [Outcome.failIf_pos (by unfold headerSize; omega)]; rfl

theorem unmarshal_ok {data : Bytes} {h : Header} (hh : unmarshalBinary data = .ok h) :
    Spec.ValidHeader h.type h.fromID h.toID ∧ ∃ rest, data = h.type :: (h.fromID.bytes ++ (h.toID.bytes ++ rest)) := by
  rcases data_cases data with hl | ⟨t, f, o, rest, rfl⟩
  · rw [unmarshal_short hl] at hh; cases hh
  · rw [unmarshal_cons] at hh
    cases hc : check t f o with
    | ok u =>
      rw [hc, Outcome.ok_bind] at hh
      obtain rfl := Outcome.ok.inj hh
      exact ⟨(check_ok_iff _ _ _).mp hc, rest, rfl⟩
    | err e => rw [hc] at hh; cases hh
    | panic => rw [hc] at hh; cases hh

theorem unmarshal_no_panic (data : Bytes) : unmarshalBinary data ≠ .panic := by
  rcases data_cases data with hl | ⟨t, f, o, rest, rfl⟩
  · rw [unmarshal_short hl]; simp
  · rw [unmarshal_cons]
    cases hc : check t f o with
    | ok u => simp
    | err e => simp
    | panic => exact absurd hc (check_no_panic _ _ _)

theorem bytesAppend_ok {h : Header} (hv : Spec.ValidHeader h.type h.fromID h.toID) (e : Bytes) :
    bytesAppend h e = .ok (e ++ (h.type :: (h.fromID.bytes ++ h.toID.bytes))) := by
  unfold bytesAppend
  rw [(check_ok_iff _ _ _).mpr hv, Outcome.ok_bind]
  simp

theorem bytesAppend_ok_iff {h : Header} {e r : Bytes} : bytesAppend h e = .ok r ↔
    Spec.ValidHeader h.type h.fromID h.toID ∧ r = e ++ (h.type :: (h.fromID.bytes ++ h.toID.bytes)) := by
  by_cases hv : Spec.ValidHeader h.type h.fromID h.toID
  · rw [bytesAppend_ok hv]; simp [hv, eq_comm]
  · constructor
    · intro hh
      unfold bytesAppend at hh
      cases hc : check h.type h.fromID h.toID with
      | ok u => exact absurd ((check_ok_iff _ _ _).mp hc) hv
      | err e => rw [hc] at hh; cases hh
      | panic => rw [hc] at hh; cases hh
    · intro hh; exact absurd hh.1 hv

end Header

end Verif
