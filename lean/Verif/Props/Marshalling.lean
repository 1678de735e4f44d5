import Verif.Model.Marshalling
import Verif.Lemmas.Outcome
import Verif.Props.Messages

/-!
C78: what the self-test `CheckFROSTMarshaler` establishes about a type that passes it, and which values of the repository's
types pass it.
-/

namespace Verif.Props

open Verif

variable {G : Type} [RGroup G]

/-- What passing the check means, without reference to the order of its steps: one byte string is what the input marshals to, what
appending it to nothing gives, as long as the size says, decoded by the output without error, and what the output then marshals
to. -/
def Spec.Passes {α : Type} (M : Marshaler α) (input output output' : α) : Prop :=
  ∃ b, M.marshal input = .ok b ∧ M.append input [] = .ok b ∧ M.size input = b.length ∧ M.unmarshal output b = .ok output' ∧
    M.marshal output' = .ok b

theorem wrap_ok {α : Type} {f : GoErr → CheckErr} {x : GoRes α} {a : α} : CheckErr.wrap f x = .ok a ↔ x = .ok a := by
  cases x <;> simp [CheckErr.wrap]

/-- C78: the check succeeds exactly when the five conditions hold. -/
theorem C78_check_iff {α : Type} (M : Marshaler α) (input output output' : α) :
    checkMarshaler M input output = .ok output' ↔ Spec.Passes M input output output' := by
  unfold checkMarshaler Spec.Passes
  constructor
  · intro h
    simp only [Outcome.bind_eq_ok, wrap_ok, Outcome.pure_def] at h
    obtain ⟨b, h1, o, h2, c, h3, _, h4, _, h5, d, h6, _, h7, h8⟩ := h
    have e4 : b = c := by
      by_contra hne; rw [Outcome.failIf_pos hne] at h4; cases h4
    have e5 : M.size input = b.length := by
      by_contra hne; rw [Outcome.failIf_pos hne] at h5; cases h5
    have e7 : b = d := by
      by_contra hne; rw [Outcome.failIf_pos hne] at h7; cases h7
    subst e4; subst e7
    cases h8
    exact ⟨b, h1, h6, e5, h2, h3⟩
  · rintro ⟨b, h1, h6, e5, h2, h3⟩
    rw [h1]
    simp only [CheckErr.wrap, Outcome.ok_bind, h2, h3, ne_eq, not_true_eq_false, e5, h6, Outcome.failIf_False, Outcome.pure_def]

/-- The header: exactly the valid ones pass, and come out unchanged. -/
theorem C78_header (h o o' : Header) : checkMarshaler Marshaler.header h o = .ok o' ↔
    Spec.ValidHeader h.type h.fromID h.toID ∧ o' = h := by
  rw [C78_check_iff]
  unfold Spec.Passes Marshaler.header
  simp only
  constructor
  · rintro ⟨b, h1, -, -, h2, -⟩
    rw [C18_roundtrip h b h1] at h2
    cases h2
    exact ⟨((C18_marshal_iff _ _).mp h1).1, rfl⟩
  · rintro ⟨hv, rfl⟩
    have hm := (C18_marshal_iff _ _).mpr ⟨hv, rfl⟩
    exact ⟨_, hm, hm, rfl, C18_roundtrip _ _ hm, hm⟩

/-- The payloads and parts of fixed size, and the signature: every value passes and comes out unchanged, whatever the receiver
held. -/
theorem C78_fixed (a a' : KeyGen2) (b b' : Sign1 G) (c c' : Sign2) (d d' : Schnorr) (s s' : Signature G) :
    checkMarshaler Marshaler.keyGen2 a a' = .ok a ∧ checkMarshaler Marshaler.sign1 b b' = .ok b ∧
    checkMarshaler Marshaler.sign2 c c' = .ok c ∧ checkMarshaler Marshaler.schnorr d d' = .ok d ∧
    checkMarshaler Marshaler.signature s s' = .ok s := by
  refine ⟨(C78_check_iff _ _ _ _).mpr ⟨_, rfl, rfl, ?_, ?_, rfl⟩, (C78_check_iff _ _ _ _).mpr ⟨_, rfl, rfl, ?_, ?_, rfl⟩,
    (C78_check_iff _ _ _ _).mpr ⟨_, rfl, rfl, ?_, ?_, rfl⟩, (C78_check_iff _ _ _ _).mpr ⟨_, rfl, rfl, ?_, ?_, rfl⟩,
    (C78_check_iff _ _ _ _).mpr ⟨_, rfl, rfl, ?_, ?_, rfl⟩⟩
  · exact (KeyGen2.marshal_length a).symm
  · exact KeyGen2.unmarshal_marshal a
  · exact (Sign1.marshal_length b).symm
  · exact Sign1.unmarshal_marshal b
  · exact (Sign2.marshal_length c).symm
  · exact Sign2.unmarshal_marshal c
  · exact (Schnorr.marshal_length d).symm
  · exact Schnorr.unmarshal_marshal d
  · exact (C56_roundtrip s).2.1.symm
  · exact (C56_roundtrip s).1

/-- The commitments: exactly those with fewer than 65536 points pass, and come out unchanged. -/
theorem C78_exponent (p o o' : Exponent G) : checkMarshaler Marshaler.exponent p o = .ok o' ↔ p.length < 65536 ∧ o' = p := by
  rw [C78_check_iff]
  unfold Spec.Passes Marshaler.exponent
  simp only
  constructor
  · rintro ⟨b, h1, -, -, h2, -⟩
    cases h1
    have hl : p.length < 65536 := by
      obtain ⟨d, hd, hn⟩ := unmarshal_ok h2
      have hc := Exponent.marshal_injective (C13_canonical _ _ h2)
      subst hc
      have := (d + 1).toNat_lt
      omega
    rw [(C13_roundtrip_partial p (by omega)).1] at h2
    cases h2
    exact ⟨hl, rfl⟩
  · rintro ⟨hl, rfl⟩
    obtain ⟨h1, h2⟩ := C13_roundtrip_partial o' (by omega)
    exact ⟨_, rfl, rfl, h2.symm, h1, rfl⟩

theorem keyGen1_decodes (p q : KeyGen1 G) (h : KeyGen1.unmarshalBinary p.marshalBinary = .ok q) :
    p.commitments.length < 65536 ∧ q = p := by
  have hl : p.commitments.length < 65536 := by
    obtain ⟨h1, h2⟩ := KeyGen1.unmarshal_ok h
    have : p = q := by
      have he := h1
      rw [KeyGen1.marshal_eq, KeyGen1.marshal_eq] at he
      obtain ⟨e1, e2⟩ := List.append_inj he (by rw [Schnorr.marshal_length, Schnorr.marshal_length])
      obtain ⟨⟨S, R⟩, c⟩ := p
      obtain ⟨⟨S', R'⟩, c'⟩ := q
      simp only at e1 e2
      obtain rfl := Exponent.marshal_injective e2
      rw [Schnorr.marshal_eq, Schnorr.marshal_eq] at e1
      obtain ⟨e3, e4⟩ := List.append_inj e1 (by rw [Scalar.bytes_length, Scalar.bytes_length])
      obtain rfl := Scalar.bytes_injective e3
      obtain rfl := Scalar.bytes_injective e4
      rfl
    subst this
    omega
  rw [KeyGen1.unmarshal_marshal p (by omega)] at h
  cases h
  exact ⟨hl, rfl⟩

/-- The payload of the first key generation message: exactly those with fewer than 65536 commitments pass. -/
theorem C78_keyGen1 (p o o' : KeyGen1 G) : checkMarshaler Marshaler.keyGen1 p o = .ok o' ↔
    p.commitments.length < 65536 ∧ o' = p := by
  rw [C78_check_iff]
  unfold Spec.Passes Marshaler.keyGen1
  simp only
  constructor
  · rintro ⟨b, h1, -, -, h2, -⟩
    cases h1
    exact keyGen1_decodes p o' h2
  · rintro ⟨hl, rfl⟩
    exact ⟨_, rfl, rfl, (KeyGen1.marshal_length _).symm, KeyGen1.unmarshal_marshal _ (by omega), rfl⟩

theorem message_size (m : Message G) (b : Bytes) (h : Message.marshalBinary m = .ok b) : m.size = b.length := by
  obtain ⟨hv, pb, hp, rfl⟩ := (message_marshal m b).mp h
  obtain ⟨⟨t, f, o⟩, k1, k2, s1, s2⟩ := m
  unfold Message.size MsgType.keyGen1 MsgType.keyGen2 MsgType.sign1 MsgType.sign2
  rw [List.length_append, header_bytes_length]
  unfold Spec.payloadBytes at hp
  simp only at hp ⊢
  show 5 + _ = _
  congr 1
  split_ifs at hp ⊢ with h1 h2 h3 h4
  · cases k1 with
    | none => cases hp
    | some p =>
      simp only [Option.map_some, Option.some.injEq, Option.getD_some] at hp ⊢
      rw [← hp, ← keyGen1_bytes, KeyGen1.marshal_length]
  · cases k2 with
    | none => cases hp
    | some p =>
      simp only [Option.map_some, Option.some.injEq, Option.getD_some] at hp ⊢
      rw [← hp, Scalar.bytes_length]; rfl
  · cases s1 with
    | none => cases hp
    | some p =>
      simp only [Option.map_some, Option.some.injEq, Option.getD_some] at hp ⊢
      rw [← hp, List.length_append, RGroup.bytes_length, RGroup.bytes_length]; rfl
  · cases s2 with
    | none => cases hp
    | some p =>
      simp only [Option.map_some, Option.some.injEq, Option.getD_some] at hp ⊢
      rw [← hp, Scalar.bytes_length]; rfl

/-- C78: a message that passes the check equals what was decoded, in the sense of `Equal` and in header and payload bytes. -/
theorem C78_message_sound (m r r' : Message G) (h : checkMarshaler Marshaler.message m r = .ok r') :
    Message.equal m r' = true ∧ r'.header = m.header ∧ Spec.payloadBytes r' = Spec.payloadBytes m := by
  obtain ⟨b, h1, -, -, -, h2⟩ := (C78_check_iff _ _ _ _).mp h
  have he := (C24_equal_wire m r' b b h1 h2).mpr rfl
  obtain ⟨_, pa, hpa, hb⟩ := (message_marshal _ _).mp h1
  obtain ⟨_, pb, hpb, hb'⟩ := (message_marshal _ _).mp h2
  obtain ⟨hh, hp⟩ := (C24_equal_iff m r' pa pb hpa hpb).mp he
  exact ⟨he, hh.symm, by rw [hpa, hpb, hp]⟩

/-- C78: which messages pass the check with which receivers.  A message passes if its header is valid, the payload of its type is
there and the commitments of a first key generation message are fewer than 65536.  With more commitments the payload does not
decode, `UnmarshalBinary` does not report it, and the check passes all the same if the receiver already held the payload. -/
theorem C78_message_iff (m r : Message G) :
    (∃ r', checkMarshaler Marshaler.message m r = .ok r') ↔
      Spec.ValidHeader m.header.type m.header.fromID m.header.toID ∧ (Spec.payloadBytes m).isSome ∧
        (m.header.type = 1 → ∀ p, m.keyGen1 = some p → p.commitments.length < 65536 ∨ r.keyGen1 = some p) := by
  constructor
  · rintro ⟨r', h⟩
    obtain ⟨-, hhd, hpay⟩ := C78_message_sound m r r' h
    obtain ⟨b, h1, -, -, h2, h3⟩ := (C78_check_iff _ _ _ _).mp h
    obtain ⟨hv, pa, hpa, hb⟩ := (message_marshal _ _).mp h1
    refine ⟨hv, by rw [hpa]; rfl, fun ht p hp => ?_⟩
    by_cases hl : p.commitments.length < 65536
    · exact .inl hl
    right
    have h2' : Message.unmarshalBinary r b = .ok r' := h2
    rw [hb, message_unmarshal r hv, if_pos ht] at h2'
    have hpb : pa = p.marshalBinary := by
      unfold Spec.payloadBytes at hpa
      rw [if_pos ht, hp, Option.map_some, ← keyGen1_bytes] at hpa
      exact (Option.some.inj hpa).symm
    rw [hpb] at h2'
    cases hd : (KeyGen1.unmarshalBinary p.marshalBinary : GoRes (KeyGen1 G)) with
    | ok q => exact absurd (keyGen1_decodes p q hd).1 hl
    | panic => exact absurd hd (KeyGen1.unmarshal_no_panic _)
    | err e =>
      rw [hd] at h2'
      simp only [Message.payload, Outcome.ok_bind, Outcome.ok.injEq] at h2'
      subst h2'
      unfold Spec.payloadBytes at hpay
      simp only [ht, if_pos, hp, Option.map_some, ← keyGen1_bytes] at hpay
      cases hr : r.keyGen1 with
      | none => rw [hr] at hpay; cases hpay
      | some q =>
        rw [hr] at hpay
        simp only [Option.map_some, Option.some.injEq] at hpay
        rw [KeyGen1.marshal_eq, KeyGen1.marshal_eq] at hpay
        obtain ⟨e1, e2⟩ := List.append_inj hpay (by rw [Schnorr.marshal_length, Schnorr.marshal_length])
        obtain ⟨⟨S, R⟩, c⟩ := p
        obtain ⟨⟨S', R'⟩, c'⟩ := q
        simp only at e1 e2
        obtain rfl := Exponent.marshal_injective e2
        rw [Schnorr.marshal_eq, Schnorr.marshal_eq] at e1
        obtain ⟨e3, e4⟩ := List.append_inj e1 (by rw [Scalar.bytes_length, Scalar.bytes_length])
        obtain rfl := Scalar.bytes_injective e3
        obtain rfl := Scalar.bytes_injective e4
        rfl
  · rintro ⟨hv, hs, hk⟩
    obtain ⟨pb, hpb⟩ := Option.isSome_iff_exists.mp hs
    have hm := (message_marshal m _).mpr ⟨hv, pb, hpb, rfl⟩
    -- it is enough that the decoded message has the header and the payload of the input
    have key : ∀ r', Message.unmarshalBinary r (Spec.headerBytes m.header.type m.header.fromID m.header.toID ++ pb) = .ok r' →
        r'.header = m.header → Spec.payloadBytes r' = some pb → ∃ r', checkMarshaler Marshaler.message m r = .ok r' := by
      intro r' h1 h2 h3
      refine ⟨r', (C78_check_iff _ _ _ _).mpr ⟨_, hm, hm, message_size m _ hm, h1, ?_⟩⟩
      show Message.marshalBinary r' = _
      rw [message_marshal, h2]
      exact ⟨hv, pb, h3, rfl⟩
    by_cases hf : Spec.Fits m
    · obtain ⟨-, hr⟩ := message_roundtrip m r hf _ hm
      refine key _ hr rfl ?_
      rw [← hpb]
      unfold Spec.payloadBytes
      simp only
      split_ifs <;> rfl
    · unfold Spec.Fits at hf
      push Not at hf
      obtain ⟨ht, p, hp, hl⟩ := hf
      obtain h | h := hk ht p hp
      · omega
      have hpb' : pb = p.marshalBinary := by
        unfold Spec.payloadBytes at hpb
        rw [if_pos ht, hp, Option.map_some, ← keyGen1_bytes] at hpb
        exact (Option.some.inj hpb).symm
      have hu := message_unmarshal r hv pb
      rw [if_pos ht, hpb'] at hu
      cases hd : (KeyGen1.unmarshalBinary p.marshalBinary : GoRes (KeyGen1 G)) with
      | ok q => exact absurd (keyGen1_decodes p q hd).1 (by omega)
      | panic => exact absurd hd (KeyGen1.unmarshal_no_panic _)
      | err e =>
        rw [hd] at hu
        simp only [Message.payload, Outcome.ok_bind] at hu
        rw [← hpb'] at hu
        refine key _ hu rfl ?_
        unfold Spec.payloadBytes
        simp only [ht, if_pos, h, Option.map_some, ← keyGen1_bytes, hpb']

/-- The messages the protocol sends pass into a fresh message, and come out unchanged. -/
theorem C78_protocol_messages (f o : ID) (hf : f ≠ 0) (ho : o ≠ 0) (π : Schnorr) (c : Exponent G) (hc : c.length < 65536)
    (s z : Scalar) (D E : G) :
    checkMarshaler Marshaler.message (Message.newKeyGen1 f π c) Message.fresh = .ok (Message.newKeyGen1 f π c) ∧
    checkMarshaler Marshaler.message (Message.newKeyGen2 f o s : Message G) Message.fresh = .ok (Message.newKeyGen2 f o s) ∧
    checkMarshaler Marshaler.message (Message.newSign1 f D E) Message.fresh = .ok (Message.newSign1 f D E) ∧
    checkMarshaler Marshaler.message (Message.newSign2 f z : Message G) Message.fresh = .ok (Message.newSign2 f z) := by
  have hp : ∀ m : Message G, (∃ b, Message.marshalBinary m = .ok b ∧ Message.unmarshalBinary Message.fresh b = .ok m) →
      checkMarshaler Marshaler.message m Message.fresh = .ok m := by
    rintro m ⟨b, h1, h2⟩
    exact (C78_check_iff _ _ _ _).mpr ⟨b, h1, h1, message_size m b h1, h2, h1⟩
  obtain ⟨b1, h1, -, h1'⟩ := C19_keyGen1 (G := G) f hf π c (by omega)
  obtain ⟨b2, h2, -, h2'⟩ := C19_keyGen2 (G := G) f o hf ho s
  obtain ⟨b3, h3, -, h3'⟩ := C19_sign1 (G := G) f hf D E
  obtain ⟨b4, h4, -, h4'⟩ := C19_sign2 (G := G) f hf z
  exact ⟨hp _ ⟨b1, h1, h1'⟩, hp _ ⟨b2, h2, h2'⟩, hp _ ⟨b3, h3, h3'⟩, hp _ ⟨b4, h4, h4'⟩⟩

/-- C78, the limit of the check: it never compares the decoded value with the input, so a type that writes the same bytes for every
value and decodes them to any fixed value passes with every input. -/
theorem C78_lossy_passes {α : Type} (b : Bytes) (d : α) (input output : α) :
    checkMarshaler (⟨fun _ => .ok b, fun _ _ => .ok d, fun _ e => .ok (e ++ b), fun _ => b.length⟩ : Marshaler α) input output =
      .ok d :=
  (C78_check_iff _ _ _ _).mpr ⟨b, rfl, rfl, rfl, rfl, rfl⟩

/-- C78: the check also passes a type whose `BytesAppend` throws away the bytes it should append to, because it is called with
nothing to append to. -/
theorem C78_append_not_checked (p : Scalar) :
    checkMarshaler (⟨fun m => .ok m.marshalBinary, fun _ => KeyGen2.unmarshalBinary, fun m _ => .ok m.marshalBinary, KeyGen2.size⟩ :
      Marshaler KeyGen2) ⟨p⟩ ⟨0⟩ = .ok ⟨p⟩ :=
  (C78_check_iff _ _ _ _).mpr ⟨_, rfl, rfl, (KeyGen2.marshal_length _).symm, KeyGen2.unmarshal_marshal _, rfl⟩

/-- What `BytesAppend` is for, and the check does not see: the encoding is put behind the bytes that are there. -/
def Spec.Appends {α : Type} (M : Marshaler α) : Prop :=
  ∀ x existing r, M.append x existing = .ok r ↔ ∃ b, M.marshal x = .ok b ∧ r = existing ++ b

theorem appends_of {α : Type} {M : Marshaler α} {f : α → Bytes} (h1 : ∀ x, M.marshal x = .ok (f x)) (h2 : ∀ x e, M.append x e = .ok (e ++ f x)) : Spec.Appends M := by
  intro x e r
  rw [h1, h2]
  constructor
  · intro h; cases h; exact ⟨_, rfl, rfl⟩
  · rintro ⟨b, h, rfl⟩; cases h; rfl

/-- C78: all types of the repository do that. -/
theorem C78_appends : Spec.Appends Marshaler.header ∧ Spec.Appends (Marshaler.message : Marshaler (Message G)) ∧ Spec.Appends (Marshaler.keyGen1 : Marshaler (KeyGen1 G)) ∧
    Spec.Appends Marshaler.keyGen2 ∧ Spec.Appends (Marshaler.sign1 : Marshaler (Sign1 G)) ∧ Spec.Appends Marshaler.sign2 ∧
    Spec.Appends (Marshaler.exponent : Marshaler (Exponent G)) ∧ Spec.Appends Marshaler.schnorr ∧ Spec.Appends (Marshaler.signature : Marshaler (Signature G)) := by
  refine ⟨fun h e r => ?_, fun m e r => ?_, appends_of (fun _ => rfl) fun x e => congrArg Outcome.ok (KeyGen1.bytesAppend_eq x e),
    appends_of (fun _ => rfl) fun x e => congrArg Outcome.ok (KeyGen2.bytesAppend_eq x e), appends_of (fun _ => rfl) fun x e => congrArg Outcome.ok (Sign1.bytesAppend_eq x e),
    appends_of (fun _ => rfl) fun x e => congrArg Outcome.ok (Sign2.bytesAppend_eq x e), appends_of (fun _ => rfl) fun x e => congrArg Outcome.ok (Exponent.bytesAppend_marshal x e),
    appends_of (fun _ => rfl) fun x e => congrArg Outcome.ok (Schnorr.bytesAppend_eq x e), appends_of (fun _ => rfl) fun x e => congrArg Outcome.ok (show Signature.bytesAppend x e = e ++ Signature.marshalBinary x by simp [Signature.bytesAppend, Signature.marshalBinary])⟩
  · show Header.bytesAppend h e = .ok r ↔ ∃ b, Header.bytesAppend h [] = .ok b ∧ r = e ++ b
    simp only [Header.bytesAppend_ok_iff]
    constructor
    · rintro ⟨h1, rfl⟩; exact ⟨_, ⟨h1, rfl⟩, by simp⟩
    · rintro ⟨b, ⟨h1, rfl⟩, rfl⟩; exact ⟨h1, by simp⟩
  · show Message.bytesAppend m e = .ok r ↔ ∃ b, Message.bytesAppend m [] = .ok b ∧ r = e ++ b
    simp only [message_bytesAppend]
    constructor
    · rintro ⟨h1, p, h2, rfl⟩; exact ⟨_, ⟨h1, p, h2, rfl⟩, by simp⟩
    · rintro ⟨b, ⟨h1, p, h2, rfl⟩, rfl⟩; exact ⟨h1, p, h2, by simp⟩

/-- Two different messages, both pass into a receiver that held something else. -/
example : checkMarshaler Marshaler.message (Message.newKeyGen1 3 ⟨5, 6⟩ [Toy.of 7, Toy.of 8]) Message.fresh =
      .ok (Message.newKeyGen1 3 ⟨5, 6⟩ [Toy.of 7, Toy.of 8]) ∧
    (∃ r', checkMarshaler Marshaler.message (Message.newKeyGen2 3 4 9 : Message Toy) (Message.newKeyGen1 3 ⟨5, 6⟩ [Toy.of 7]) =
      .ok r') :=
  ⟨(C78_protocol_messages 3 4 (by decide) (by decide) ⟨5, 6⟩ [Toy.of 7, Toy.of 8] (by decide) 0 0 (Toy.of 1) (Toy.of 1)).1,
    (C78_message_iff _ _).mpr ⟨by decide, by decide, by decide⟩⟩

/-- A receiver that held the oversized payload hides that it does not decode; a fresh one does not. -/
example : (∃ r', checkMarshaler Marshaler.message (Message.newKeyGen1 3 ⟨5, 6⟩ (List.replicate 65536 (Toy.of 7)))
      (Message.newKeyGen1 3 ⟨5, 6⟩ (List.replicate 65536 (Toy.of 7))) = .ok r') ∧
    ¬ ∃ r', checkMarshaler Marshaler.message (Message.newKeyGen1 3 ⟨5, 6⟩ (List.replicate 65536 (Toy.of 7))) Message.fresh =
      .ok r' := by
  rw [C78_message_iff, C78_message_iff]
  refine ⟨⟨by decide, rfl, fun _ p hp => .inr hp⟩, fun h => ?_⟩
  obtain h | h := h.2.2 rfl _ rfl
  · rw [List.length_replicate] at h; omega
  · cases h

end Verif.Props
