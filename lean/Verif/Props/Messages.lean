import Verif.Lemmas.Messages
import Verif.Props.Eddsa
import Verif.Props.Schnorr

/-!
C18 to C24: the wire format.
-/

namespace Verif.Props

open Verif

variable {G : Type} [RGroup G]

theorem header_bytes (t : MsgType) (f o : ID) (rest : Bytes) :
    t :: (f.bytes ++ (o.bytes ++ rest)) = Spec.headerBytes t f o ++ rest := by
  unfold Spec.headerBytes ID.bytes
  rw [be16_eq_be2, be16_eq_be2]; simp

theorem header_bytes_length (t : MsgType) (f o : ID) : (Spec.headerBytes t f o).length = 5 := rfl

theorem header_bytes_inj {t t' : MsgType} {f o f' o' : ID} (h : Spec.headerBytes t f o = Spec.headerBytes t' f' o') :
    t = t' ∧ f = f' ∧ o = o' := by
  have h1 := header_bytes t f o []
  have h2 := header_bytes t' f' o' []
  rw [List.append_nil, List.append_nil] at h1 h2
  rw [← h1, ← h2] at h
  injection h with ht h
  obtain ⟨h3, h4⟩ := List.append_inj h (by rw [show (ID.bytes f).length = 2 from rfl]; rfl)
  exact ⟨ht, be16_injective h3, be16_injective h4⟩

/-- C18: a byte string is accepted as a header exactly when it starts with the five bytes of a well-formed header, and the
result is that header; nothing is looked at beyond. -/
theorem C18_unmarshal_iff (data : Bytes) (h : Header) :
    Header.unmarshalBinary data = .ok h ↔
      Spec.ValidHeader h.type h.fromID h.toID ∧ ∃ rest, data = Spec.headerBytes h.type h.fromID h.toID ++ rest := by
  constructor
  · intro hh
    obtain ⟨hv, rest, rfl⟩ := Header.unmarshal_ok hh
    exact ⟨hv, rest, header_bytes _ _ _ _⟩
  · rintro ⟨hv, rest, rfl⟩
    rw [← header_bytes, Header.unmarshal_cons, (Header.check_ok_iff _ _ _).mpr hv]; rfl

example : Spec.ValidHeader 2 7 9 ∧ ¬ Spec.ValidHeader 2 7 0 ∧ ¬ Spec.ValidHeader 1 7 9 ∧ ¬ Spec.ValidHeader 0 7 0 ∧
  ¬ Spec.ValidHeader 3 0 0 := by decide

/-- C18: marshalling succeeds exactly for well-formed headers and gives the five bytes. -/
theorem C18_marshal_iff (h : Header) (b : Bytes) :
    Header.marshalBinary h = .ok b ↔
      Spec.ValidHeader h.type h.fromID h.toID ∧ b = Spec.headerBytes h.type h.fromID h.toID := by
  unfold Header.marshalBinary
  rw [Header.bytesAppend_ok_iff]
  have := header_bytes h.type h.fromID h.toID []
  simp only [List.append_nil] at this
  rw [List.nil_append, this]

/-- C18: accepted headers re-marshal to the first five bytes, `Size` is 5. -/
theorem C18_remarshal (data : Bytes) (h : Header) (hh : Header.unmarshalBinary data = .ok h) :
    Header.marshalBinary h = .ok (data.take 5) ∧ h.size = 5 := by
  obtain ⟨hv, rest, rfl⟩ := (C18_unmarshal_iff data h).mp hh
  refine ⟨?_, rfl⟩
  rw [C18_marshal_iff]
  exact ⟨hv, by rw [List.take_append_of_le_length (by rw [header_bytes_length]), List.take_of_length_le (by rw [header_bytes_length])]⟩

/-- C18: marshalled headers unmarshal to themselves. -/
theorem C18_roundtrip (h : Header) (b : Bytes) (hb : Header.marshalBinary h = .ok b) : Header.unmarshalBinary b = .ok h := by
  obtain ⟨hv, rfl⟩ := (C18_marshal_iff h b).mp hb
  exact (C18_unmarshal_iff _ _).mpr ⟨hv, [], by simp⟩

/-- C18: a well-formed header is a broadcast exactly when its type is not KeyGen2. -/
theorem C18_broadcast (h : Header) (hv : Spec.ValidHeader h.type h.fromID h.toID) : h.isBroadcast = true ↔ h.type ≠ 2 := by
  obtain ⟨t, f, o⟩ := h
  obtain ⟨_, ⟨ht, ho⟩ | ⟨ht, ho⟩⟩ := hv
  · simp only at ht ho
    subst ho
    rcases ht with rfl | rfl | rfl <;> simp [Header.isBroadcast] <;> decide
  · simp only at ht ho
    subst ht
    simp [Header.isBroadcast, ho]

/-- The bytes of the payload that belongs to the type of a message, if present: for KeyGen1 the two proof scalars, the degree
(number of commitments minus one, modulo 2^16) and the commitments. -/
def Spec.payloadBytes (m : Message G) : Option Bytes :=
  if m.header.type = 1 then m.keyGen1.map fun p => p.proof.S.bytes ++ p.proof.R.bytes ++
      (Verif.Spec.be2 (UInt16.ofNat (p.commitments.length + 65535)) ++ (p.commitments.map RGroup.bytes).flatten)
  else if m.header.type = 2 then m.keyGen2.map fun p => p.share.bytes
  else if m.header.type = 3 then m.sign1.map fun p => RGroup.bytes p.Di ++ RGroup.bytes p.Ei
  else if m.header.type = 4 then m.sign2.map fun p => p.Zi.bytes
  else none

/-- The number of commitments fits the wire format. -/
def Spec.Fits (m : Message G) : Prop := m.header.type = 1 → ∀ p, m.keyGen1 = some p → p.commitments.length ≤ 65535

theorem exponent_bytes (c : Exponent G) : Exponent.marshalBinary c =
    Verif.Spec.be2 (UInt16.ofNat (c.length + 65535)) ++ (c.map RGroup.bytes).flatten := by
  unfold Exponent.marshalBinary
  rw [Exponent.bytesAppend_eq, List.nil_append]
  have h : Exponent.degree c = UInt16.ofNat (c.length + 65535) := by
    unfold Exponent.degree
    generalize c.length = n
    apply UInt16.toNat_inj.mp
    rw [UInt16.toNat_sub, UInt16.toNat_ofNat', UInt16.toNat_ofNat', show (1 : UInt16).toNat = 1 from rfl]
    omega
  rw [h, ← be16_eq_be2]
  rfl

theorem keyGen1_bytes (p : KeyGen1 G) : p.marshalBinary = p.proof.S.bytes ++ p.proof.R.bytes ++
      (Verif.Spec.be2 (UInt16.ofNat (p.commitments.length + 65535)) ++ (p.commitments.map RGroup.bytes).flatten) := by
  rw [KeyGen1.marshal_eq, Schnorr.marshal_eq, exponent_bytes]

/-- `MarshalBinary` with a prefix, in terms of the specification. -/
theorem message_bytesAppend (m : Message G) (e b : Bytes) :
    Message.bytesAppend m e = .ok b ↔ Spec.ValidHeader m.header.type m.header.fromID m.header.toID ∧
      ∃ pb, Spec.payloadBytes m = some pb ∧ b = e ++ (Spec.headerBytes m.header.type m.header.fromID m.header.toID ++ pb) := by
  by_cases hv : Spec.ValidHeader m.header.type m.header.fromID m.header.toID
  swap
  · refine ⟨fun h => ?_, fun h => absurd h.1 hv⟩
    unfold Message.bytesAppend at h
    cases hc : Header.bytesAppend m.header e with
    | ok u => exact absurd (Header.bytesAppend_ok_iff.mp hc).1 hv
    | err e => rw [hc] at h; cases h
    | panic => rw [hc] at h; cases h
  unfold Message.bytesAppend
  rw [Header.bytesAppend_ok hv, Outcome.ok_bind]
  have hb := header_bytes m.header.type m.header.fromID m.header.toID []
  simp only [List.append_nil] at hb
  rw [hb]
  simp only [hv, true_and]
  unfold Spec.payloadBytes MsgType.keyGen1 MsgType.keyGen2 MsgType.sign1 MsgType.sign2
  by_cases h1 : m.header.type = 1
  · rw [if_pos h1, if_pos h1]
    cases m.keyGen1 with
    | none => simp
    | some p => simp [KeyGen1.bytesAppend_eq, keyGen1_bytes, eq_comm]
  rw [if_neg h1, if_neg h1]
  by_cases h2 : m.header.type = 2
  · rw [if_pos h2, if_pos h2]
    cases m.keyGen2 with
    | none => simp
    | some p => simp [KeyGen2.bytesAppend_eq, KeyGen2.marshal_eq, eq_comm]
  rw [if_neg h2, if_neg h2]
  by_cases h3 : m.header.type = 3
  · rw [if_pos h3, if_pos h3]
    cases m.sign1 with
    | none => simp
    | some p => simp [Sign1.bytesAppend_eq, Sign1.marshal_eq, eq_comm]
  rw [if_neg h3, if_neg h3]
  by_cases h4 : m.header.type = 4
  · rw [if_pos h4, if_pos h4]
    cases m.sign2 with
    | none => simp
    | some p => simp [Sign2.bytesAppend_eq, Sign2.marshal_eq, eq_comm]
  rw [if_neg h4, if_neg h4]
  simp

theorem message_bytesAppend_no_panic (m : Message G) (e : Bytes) : Message.bytesAppend m e ≠ .panic := by
  unfold Message.bytesAppend Header.bytesAppend
  cases hc : Header.check m.header.type m.header.fromID m.header.toID with
  | panic => exact absurd hc (Header.check_no_panic _ _ _)
  | err e => simp
  | ok u =>
    simp only [Outcome.ok_bind, Outcome.pure_def]
    split_ifs
    · cases m.keyGen1 <;> simp
    · cases m.keyGen2 <;> simp
    · cases m.sign1 <;> simp
    · cases m.sign2 <;> simp
    · simp

/-! ### C23 -/

/-- C23: `BytesAppend` appends the marshalled bytes. -/
theorem C23_message_append (m : Message G) (e b : Bytes) (h : Message.marshalBinary m = .ok b) :
    Message.bytesAppend m e = .ok (e ++ b) := by
  obtain ⟨hv, pb, hp, rfl⟩ := (message_bytesAppend m [] b).mp h
  exact (message_bytesAppend _ _ _).mpr ⟨hv, pb, hp, by simp⟩

/-- C23: it fails, without a panic, exactly when `MarshalBinary` fails. -/
theorem C23_message_fails (m : Message G) (e : Bytes) :
    (∃ x, Message.bytesAppend m e = .err x) ↔ ∃ x, Message.marshalBinary m = .err x := by
  have key : ∀ e₁ e₂ : Bytes, (∃ x, Message.bytesAppend m e₁ = .err x) → ∃ x, Message.bytesAppend m e₂ = .err x := by
    intro e₁ e₂ ⟨x, hx⟩
    cases h : Message.bytesAppend m e₂ with
    | err y => exact ⟨y, rfl⟩
    | panic => exact absurd h (message_bytesAppend_no_panic m e₂)
    | ok b =>
      obtain ⟨hv, pb, hp, rfl⟩ := (message_bytesAppend _ _ _).mp h
      rw [(message_bytesAppend m e₁ _).mpr ⟨hv, pb, hp, rfl⟩] at hx
      cases hx
  exact ⟨key _ _, key _ _⟩

/-- C23 for the headers. -/
theorem C23_header_append (h : Header) (e : Bytes) :
    (∀ b, Header.marshalBinary h = .ok b → Header.bytesAppend h e = .ok (e ++ b)) ∧
      ((∃ x, Header.bytesAppend h e = .err x) ↔ ∃ x, Header.marshalBinary h = .err x) := by
  unfold Header.marshalBinary Header.bytesAppend
  cases Header.check h.type h.fromID h.toID <;> simp

/-- C23 for the payloads, proofs, commitments, and signatures, none of which can fail. -/
theorem C23_payload_append (e : Bytes) (a : KeyGen1 G) (b : KeyGen2) (c : Sign1 G) (d : Sign2) (π : Schnorr) (p : Exponent G)
    (s : Signature G) :
    a.bytesAppend e = e ++ a.marshalBinary ∧ b.bytesAppend e = e ++ b.marshalBinary ∧ c.bytesAppend e = e ++ c.marshalBinary ∧
      d.bytesAppend e = e ++ d.marshalBinary ∧ π.bytesAppend e = e ++ π.marshalBinary ∧
      p.bytesAppend e = e ++ p.marshalBinary ∧ s.bytesAppend e = e ++ s.marshalBinary :=
  ⟨KeyGen1.bytesAppend_eq _ _, KeyGen2.bytesAppend_eq _ _, Sign1.bytesAppend_eq _ _, Sign2.bytesAppend_eq _ _,
    Schnorr.bytesAppend_eq _ _, Exponent.bytesAppend_marshal _ _, by simp [Signature.bytesAppend, Signature.marshalBinary]⟩

/-! ### C19 -/

theorem message_marshal (m : Message G) (b : Bytes) :
    Message.marshalBinary m = .ok b ↔ Spec.ValidHeader m.header.type m.header.fromID m.header.toID ∧
      ∃ pb, Spec.payloadBytes m = some pb ∧ b = Spec.headerBytes m.header.type m.header.fromID m.header.toID ++ pb := by
  unfold Message.marshalBinary
  rw [message_bytesAppend]; simp

/-- Decoding of a message whose header is well formed. -/
theorem message_unmarshal (r : Message G) {t : MsgType} {f o : ID} (hv : Spec.ValidHeader t f o) (rest : Bytes) :
    Message.unmarshalBinary r (Spec.headerBytes t f o ++ rest) =
      (if t = 1 then
        (Message.payload r.keyGen1 (KeyGen1.unmarshalBinary rest) >>= fun p => .ok { r with header := ⟨t, f, o⟩, keyGen1 := p })
      else if t = 2 then
        (Message.payload r.keyGen2 (KeyGen2.unmarshalBinary rest) >>= fun p => .ok { r with header := ⟨t, f, o⟩, keyGen2 := p })
      else if t = 3 then
        (Message.payload r.sign1 (Sign1.unmarshalBinary rest) >>= fun p => .ok { r with header := ⟨t, f, o⟩, sign1 := p })
      else
        (Message.payload r.sign2 (Sign2.unmarshalBinary rest) >>= fun p => .ok { r with header := ⟨t, f, o⟩, sign2 := p })) := by
  unfold Message.unmarshalBinary
  rw [(C18_unmarshal_iff _ ⟨t, f, o⟩).mpr ⟨hv, rest, rfl⟩, Outcome.ok_bind]
  simp only []
  rw [sliceFrom_append (show (Spec.headerBytes t f o).length = Header.size _ from header_bytes_length t f o), Outcome.ok_bind]
  unfold MsgType.keyGen1 MsgType.keyGen2 MsgType.sign1 MsgType.sign2
  split_ifs with h1 h2 h3 h4
  · rfl
  · rfl
  · rfl
  · rfl
  · obtain ⟨_, ⟨h | h | h, _⟩ | ⟨h, _⟩⟩ := hv <;> contradiction

/-- C19 in general: a message whose commitments fit, marshalled and unmarshalled into a receiver, replaces exactly the header
and the payload of its type. -/
theorem message_roundtrip (m r : Message G) (hf : Spec.Fits m) (b : Bytes) (h : Message.marshalBinary m = .ok b) :
    b.length = m.size ∧ Message.unmarshalBinary r b = .ok ⟨m.header,
      if m.header.type = 1 then m.keyGen1 else r.keyGen1, if m.header.type = 2 then m.keyGen2 else r.keyGen2,
      if m.header.type = 3 then m.sign1 else r.sign1, if m.header.type = 4 then m.sign2 else r.sign2⟩ := by
  obtain ⟨hv, pb, hp, rfl⟩ := (message_marshal m b).mp h
  rw [message_unmarshal r hv]
  obtain ⟨⟨t, f, o⟩, k1, k2, s1, s2⟩ := m
  unfold Message.size MsgType.keyGen1 MsgType.keyGen2 MsgType.sign1 MsgType.sign2
  simp only at hv hp hf ⊢
  rw [List.length_append, header_bytes_length]
  unfold Spec.payloadBytes at hp
  unfold Spec.Fits at hf
  simp only at hp hf
  have hval : t = 1 ∨ t = 2 ∨ t = 3 ∨ t = 4 := by
    obtain ⟨_, ⟨h | h | h, _⟩ | ⟨h, _⟩⟩ := hv <;> simp [h]
  rcases hval with rfl | rfl | rfl | rfl
  · cases k1 with
    | none => simp at hp
    | some p =>
      simp only [↓reduceIte, Option.map_some, Option.some.injEq] at hp
      rw [← keyGen1_bytes] at hp
      subst hp
      simp only [↓reduceIte, KeyGen1.unmarshal_marshal p (hf rfl p rfl), KeyGen1.marshal_length]
      exact ⟨rfl, rfl⟩
  · cases k2 with
    | none => simp at hp
    | some p =>
      simp only [↓reduceIte, Option.map_some, Option.some.injEq, show ¬ ((2 : UInt8) = 1) by decide] at hp
      rw [← KeyGen2.marshal_eq] at hp
      subst hp
      simp only [↓reduceIte, KeyGen2.unmarshal_marshal, KeyGen2.marshal_length, show ¬ ((2 : UInt8) = 1) by decide]
      exact ⟨rfl, rfl⟩
  · cases s1 with
    | none => simp at hp
    | some p =>
      simp only [↓reduceIte, Option.map_some, Option.some.injEq, show ¬ ((3 : UInt8) = 1) by decide,
        show ¬ ((3 : UInt8) = 2) by decide] at hp
      rw [← Sign1.marshal_eq] at hp
      subst hp
      simp only [↓reduceIte, Sign1.unmarshal_marshal, Sign1.marshal_length, show ¬ ((3 : UInt8) = 1) by decide,
        show ¬ ((3 : UInt8) = 2) by decide]
      exact ⟨rfl, rfl⟩
  · cases s2 with
    | none => simp at hp
    | some p =>
      simp only [↓reduceIte, Option.map_some, Option.some.injEq, show ¬ ((4 : UInt8) = 1) by decide,
        show ¬ ((4 : UInt8) = 2) by decide, show ¬ ((4 : UInt8) = 3) by decide] at hp
      rw [← Sign2.marshal_eq] at hp
      subst hp
      simp only [↓reduceIte, Sign2.unmarshal_marshal, Sign2.marshal_length, show ¬ ((4 : UInt8) = 1) by decide,
        show ¬ ((4 : UInt8) = 2) by decide, show ¬ ((4 : UInt8) = 3) by decide]
      exact ⟨rfl, rfl⟩

/-- C19 for KeyGen1, up to 65535 commitments (all a threshold below 65535 can give; 65536 fail, see
`C13_roundtrip_65536_fails`). -/
theorem C19_keyGen1 (f : ID) (hf : f ≠ 0) (π : Schnorr) (c : Exponent G) (hc : c.length ≤ 65535) :
    ∃ b, Message.marshalBinary (Message.newKeyGen1 f π c) = .ok b ∧ b.length = (Message.newKeyGen1 f π c).size ∧
      Message.unmarshalBinary Message.fresh b = .ok (Message.newKeyGen1 f π c) := by
  have h : Message.marshalBinary (Message.newKeyGen1 f π c) =
      .ok (Spec.headerBytes 1 f 0 ++ (⟨π, c⟩ : KeyGen1 G).marshalBinary) := by
    rw [message_marshal]
    exact ⟨⟨hf, Or.inl ⟨Or.inl rfl, rfl⟩⟩, _, rfl, by rw [keyGen1_bytes]; rfl⟩
  have hfit : Spec.Fits (Message.newKeyGen1 f π c) := by
    intro _ p hp
    obtain rfl := Option.some.inj hp
    exact hc
  obtain ⟨h1, h2⟩ := message_roundtrip _ Message.fresh hfit _ h
  exact ⟨_, h, h1, h2⟩

theorem C19_keyGen2 (f o : ID) (hf : f ≠ 0) (ho : o ≠ 0) (s : Scalar) :
    ∃ b, Message.marshalBinary (Message.newKeyGen2 f o s : Message G) = .ok b ∧
      b.length = (Message.newKeyGen2 f o s : Message G).size ∧
      Message.unmarshalBinary Message.fresh b = .ok (Message.newKeyGen2 f o s : Message G) := by
  have h : Message.marshalBinary (Message.newKeyGen2 f o s : Message G) = .ok (Spec.headerBytes 2 f o ++ s.bytes) := by
    rw [message_marshal]
    exact ⟨⟨hf, Or.inr ⟨rfl, ho⟩⟩, _, rfl, rfl⟩
  obtain ⟨h1, h2⟩ := message_roundtrip (Message.newKeyGen2 f o s : Message G) Message.fresh
    (fun h => absurd (show (2 : UInt8) = 1 from h) (by decide)) _ h
  exact ⟨_, h, h1, h2⟩

theorem C19_sign1 (f : ID) (hf : f ≠ 0) (D E : G) :
    ∃ b, Message.marshalBinary (Message.newSign1 f D E) = .ok b ∧ b.length = (Message.newSign1 f D E).size ∧
      Message.unmarshalBinary Message.fresh b = .ok (Message.newSign1 f D E) := by
  have h : Message.marshalBinary (Message.newSign1 f D E) =
      .ok (Spec.headerBytes 3 f 0 ++ (RGroup.bytes D ++ RGroup.bytes E)) := by
    rw [message_marshal]
    exact ⟨⟨hf, Or.inl ⟨Or.inr (Or.inl rfl), rfl⟩⟩, _, rfl, rfl⟩
  obtain ⟨h1, h2⟩ := message_roundtrip (Message.newSign1 f D E) Message.fresh
    (fun h => absurd (show (3 : UInt8) = 1 from h) (by decide)) _ h
  exact ⟨_, h, h1, h2⟩

theorem C19_sign2 (f : ID) (hf : f ≠ 0) (z : Scalar) :
    ∃ b, Message.marshalBinary (Message.newSign2 f z : Message G) = .ok b ∧ b.length = (Message.newSign2 f z : Message G).size ∧
      Message.unmarshalBinary Message.fresh b = .ok (Message.newSign2 f z : Message G) := by
  have h : Message.marshalBinary (Message.newSign2 f z : Message G) = .ok (Spec.headerBytes 4 f 0 ++ z.bytes) := by
    rw [message_marshal]
    exact ⟨⟨hf, Or.inl ⟨Or.inr (Or.inr rfl), rfl⟩⟩, _, rfl, rfl⟩
  obtain ⟨h1, h2⟩ := message_roundtrip (Message.newSign2 f z : Message G) Message.fresh
    (fun h => absurd (show (4 : UInt8) = 1 from h) (by decide)) _ h
  exact ⟨_, h, h1, h2⟩

example : ∃ b, Message.marshalBinary (Message.newKeyGen1 3 ⟨5, 6⟩ [Toy.of 7, Toy.of 8]) = .ok b ∧ b.length = 135 ∧
    Message.unmarshalBinary Message.fresh b = .ok (Message.newKeyGen1 3 ⟨5, 6⟩ [Toy.of 7, Toy.of 8]) :=
  C19_keyGen1 3 (by decide) _ _ (by decide)

/-! ### C20, C21 -/

/-- What an accepted byte string says, whatever the receiver held. -/
theorem message_accepted (r m : Message G) (data : Bytes) (h : Message.unmarshalBinary r data = .ok m) :
    Spec.ValidHeader m.header.type m.header.fromID m.header.toID ∧
      ∃ rest, data = Spec.headerBytes m.header.type m.header.fromID m.header.toID ++ rest ∧
        (Message.marshalBinary m = .ok data ∧ Spec.Fits m ∨
          ((∀ m' : Message G, Spec.Fits m' → Message.marshalBinary m' ≠ .ok data) ∧ m = { r with header := m.header })) := by
  have hh : ∃ hd, Header.unmarshalBinary data = .ok hd := by
    unfold Message.unmarshalBinary at h
    cases hc : Header.unmarshalBinary data with
    | ok hd => exact ⟨hd, rfl⟩
    | err e => rw [hc] at h; cases h
    | panic => rw [hc] at h; cases h
  obtain ⟨⟨t, f, o⟩, hh⟩ := hh
  obtain ⟨hv, rest, rfl⟩ := (C18_unmarshal_iff _ _).mp hh
  simp only at hv h
  rw [message_unmarshal r hv] at h
  -- if the bytes are those of some message that fits, decoding into a fresh message gives its payload
  have hround : ∀ m' : Message G, Spec.Fits m' → Message.marshalBinary m' = .ok (Spec.headerBytes t f o ++ rest) →
      m'.header = ⟨t, f, o⟩ := by
    intro m' hf hm
    obtain ⟨hv', pb, _, he⟩ := (message_marshal _ _).mp hm
    obtain ⟨e1, _⟩ := List.append_inj he (by rw [header_bytes_length, header_bytes_length])
    obtain ⟨ht, h1, h2⟩ := header_bytes_inj e1
    obtain ⟨⟨t', f', o'⟩, _⟩ := m'
    simp only at ht h1 h2
    subst ht; subst h1; subst h2; rfl
  have hval : t = 1 ∨ t = 2 ∨ t = 3 ∨ t = 4 := by
    obtain ⟨_, ⟨h | h | h, _⟩ | ⟨h, _⟩⟩ := hv <;> simp [h]
  rcases hval with rfl | rfl | rfl | rfl
  · rw [if_pos rfl] at h
    cases hd : (KeyGen1.unmarshalBinary rest : GoRes (KeyGen1 G)) with
    | panic => exact absurd hd (KeyGen1.unmarshal_no_panic _)
    | ok p =>
      rw [hd] at h
      obtain rfl := Outcome.ok.inj h
      obtain ⟨hp, hl⟩ := KeyGen1.unmarshal_ok hd
      refine ⟨hv, rest, rfl, Or.inl ⟨?_, ?_⟩⟩
      · rw [message_marshal]
        refine ⟨hv, rest, ?_, rfl⟩
        rw [hp, keyGen1_bytes]; rfl
      · intro _ p' hp'
        obtain rfl := Option.some.inj hp'
        exact hl
    | err e =>
      rw [hd] at h
      obtain rfl := Outcome.ok.inj h
      refine ⟨hv, rest, rfl, Or.inr ⟨?_, rfl⟩⟩
      intro m' hf hm
      have hh := hround m' hf hm
      have hrt := (message_roundtrip m' Message.fresh hf _ hm).2
      rw [message_unmarshal _ hv, if_pos rfl, hd] at hrt
      have := congrArg (fun x : Message G => x.keyGen1) (Outcome.ok.inj hrt)
      simp only [hh, ↓reduceIte, Message.fresh] at this
      obtain ⟨_, pb, hpb, _⟩ := (message_marshal _ _).mp hm
      unfold Spec.payloadBytes at hpb
      rw [hh, ← this] at hpb
      simp at hpb
  · rw [if_neg (by decide), if_pos rfl] at h
    cases hd : KeyGen2.unmarshalBinary rest with
    | panic => exact absurd hd (KeyGen2.unmarshal_no_panic _)
    | ok p =>
      rw [hd] at h
      obtain rfl := Outcome.ok.inj h
      refine ⟨hv, rest, rfl, Or.inl ⟨?_, fun h => absurd (show (2 : UInt8) = 1 from h) (by decide)⟩⟩
      rw [message_marshal]
      refine ⟨hv, rest, ?_, rfl⟩
      rw [KeyGen2.unmarshal_ok hd, KeyGen2.marshal_eq]; rfl
    | err e =>
      rw [hd] at h
      obtain rfl := Outcome.ok.inj h
      refine ⟨hv, rest, rfl, Or.inr ⟨?_, rfl⟩⟩
      intro m' hf hm
      have hh := hround m' hf hm
      have hrt := (message_roundtrip m' Message.fresh hf _ hm).2
      rw [message_unmarshal _ hv, if_neg (by decide), if_pos rfl, hd] at hrt
      have := congrArg (fun x : Message G => x.keyGen2) (Outcome.ok.inj hrt)
      simp only [hh, ↓reduceIte, Message.fresh] at this
      obtain ⟨_, pb, hpb, _⟩ := (message_marshal _ _).mp hm
      unfold Spec.payloadBytes at hpb
      rw [hh, ← this] at hpb
      simp at hpb
  · rw [if_neg (by decide), if_neg (by decide), if_pos rfl] at h
    cases hd : (Sign1.unmarshalBinary rest : GoRes (Sign1 G)) with
    | panic => exact absurd hd (Sign1.unmarshal_no_panic _)
    | ok p =>
      rw [hd] at h
      obtain rfl := Outcome.ok.inj h
      refine ⟨hv, rest, rfl, Or.inl ⟨?_, fun h => absurd (show (3 : UInt8) = 1 from h) (by decide)⟩⟩
      rw [message_marshal]
      refine ⟨hv, rest, ?_, rfl⟩
      rw [Sign1.unmarshal_ok hd, Sign1.marshal_eq]; rfl
    | err e =>
      rw [hd] at h
      obtain rfl := Outcome.ok.inj h
      refine ⟨hv, rest, rfl, Or.inr ⟨?_, rfl⟩⟩
      intro m' hf hm
      have hh := hround m' hf hm
      have hrt := (message_roundtrip m' Message.fresh hf _ hm).2
      rw [message_unmarshal _ hv, if_neg (by decide), if_neg (by decide), if_pos rfl, hd] at hrt
      have := congrArg (fun x : Message G => x.sign1) (Outcome.ok.inj hrt)
      simp only [hh, ↓reduceIte, Message.fresh] at this
      obtain ⟨_, pb, hpb, _⟩ := (message_marshal _ _).mp hm
      unfold Spec.payloadBytes at hpb
      rw [hh, ← this] at hpb
      simp at hpb
  · rw [if_neg (by decide), if_neg (by decide), if_neg (by decide)] at h
    cases hd : Sign2.unmarshalBinary rest with
    | panic => exact absurd hd (Sign2.unmarshal_no_panic _)
    | ok p =>
      rw [hd] at h
      obtain rfl := Outcome.ok.inj h
      refine ⟨hv, rest, rfl, Or.inl ⟨?_, fun h => absurd (show (4 : UInt8) = 1 from h) (by decide)⟩⟩
      rw [message_marshal]
      refine ⟨hv, rest, ?_, rfl⟩
      rw [Sign2.unmarshal_ok hd, Sign2.marshal_eq]; rfl
    | err e =>
      rw [hd] at h
      obtain rfl := Outcome.ok.inj h
      refine ⟨hv, rest, rfl, Or.inr ⟨?_, rfl⟩⟩
      intro m' hf hm
      have hh := hround m' hf hm
      have hrt := (message_roundtrip m' Message.fresh hf _ hm).2
      rw [message_unmarshal _ hv, if_neg (by decide), if_neg (by decide), if_neg (by decide), hd] at hrt
      have := congrArg (fun x : Message G => x.sign2) (Outcome.ok.inj hrt)
      simp only [hh, ↓reduceIte, Message.fresh] at this
      obtain ⟨_, pb, hpb, _⟩ := (message_marshal _ _).mp hm
      unfold Spec.payloadBytes at hpb
      rw [hh, ← this] at hpb
      simp at hpb

theorem payloadBytes_fresh (h : Header) : Spec.payloadBytes ({ Message.fresh with header := h } : Message G) = none := by
  unfold Spec.payloadBytes Message.fresh; simp

/-- C20: what was accepted into a fresh message with its payload present re-marshals to exactly the same bytes. -/
theorem C20_canonical (m : Message G) (data : Bytes) (h : Message.unmarshalBinary Message.fresh data = .ok m)
    (hp : (Spec.payloadBytes m).isSome) : Message.marshalBinary m = .ok data := by
  obtain ⟨_, rest, _, ⟨h1, _⟩ | ⟨_, h2⟩⟩ := message_accepted _ _ _ h
  · exact h1
  · rw [h2, payloadBytes_fresh] at hp; cases hp

/-- C20: no two byte strings decode to the same message with a payload. -/
theorem C20_injective (m : Message G) (a b : Bytes) (ha : Message.unmarshalBinary Message.fresh a = .ok m)
    (hb : Message.unmarshalBinary Message.fresh b = .ok m) (hp : (Spec.payloadBytes m).isSome) : a = b :=
  Outcome.ok.inj ((C20_canonical m a ha hp).symm.trans (C20_canonical m b hb hp))

/-- C20: two messages with the same bytes have the same header, in particular the same type. -/
theorem C20_types_disjoint (m m' : Message G) (b : Bytes) (h : Message.marshalBinary m = .ok b)
    (h' : Message.marshalBinary m' = .ok b) : m.header = m'.header := by
  obtain ⟨_, pb, _, rfl⟩ := (message_marshal _ _).mp h
  obtain ⟨_, pb', _, he⟩ := (message_marshal _ _).mp h'
  obtain ⟨e1, _⟩ := List.append_inj he (by rw [header_bytes_length, header_bytes_length])
  obtain ⟨ht, h1, h2⟩ := header_bytes_inj e1
  obtain ⟨⟨t, f, o⟩, _⟩ := m
  obtain ⟨⟨t', f', o'⟩, _⟩ := m'
  simp only at ht h1 h2
  subst ht; subst h1; subst h2; rfl

/-- C20 as stated without the presence of the payload is false: two byte strings decode to the same (empty) message. -/
theorem C20_without_payload_collides :
    (Message.unmarshalBinary Message.fresh [2, 0, 7, 0, 9] : GoRes (Message G)) =
      Message.unmarshalBinary Message.fresh [2, 0, 7, 0, 9, 1] ∧
    Message.unmarshalBinary Message.fresh [2, 0, 7, 0, 9] = .ok ({ header := ⟨2, 7, 9⟩ } : Message G) := by
  have hv : Spec.ValidHeader 2 7 9 := by decide
  have h1 := message_unmarshal (Message.fresh : Message G) hv []
  have h2 := message_unmarshal (Message.fresh : Message G) hv [1]
  have e1 : Spec.headerBytes 2 7 9 ++ [] = [2, 0, 7, 0, 9] := by decide
  have e2 : Spec.headerBytes 2 7 9 ++ [1] = [2, 0, 7, 0, 9, 1] := by decide
  rw [e1] at h1
  rw [e2] at h2
  rw [h1, h2]
  exact ⟨rfl, rfl⟩

/-- C21, the exact rule (any receiver): if the bytes are the encoding of a message, the receiver re-marshals to them; otherwise
the payloads of the receiver are left as they were, and no error is returned either way.  What C21 asks for in the second
case, an error, is missing: see the refutations. -/
theorem C21_accepted_partial (r m : Message G) (data : Bytes) (h : Message.unmarshalBinary r data = .ok m) :
    (∃ m' : Message G, Spec.Fits m' ∧ Message.marshalBinary m' = .ok data) ∧ Message.marshalBinary m = .ok data ∨
      (¬ ∃ m' : Message G, Spec.Fits m' ∧ Message.marshalBinary m' = .ok data) ∧ m = { r with header := m.header } := by
  obtain ⟨_, rest, _, ⟨h1, h2⟩ | ⟨h1, h2⟩⟩ := message_accepted _ _ _ h
  · exact Or.inl ⟨⟨m, h2, h1⟩, h1⟩
  · exact Or.inr ⟨fun ⟨m', hf, hm⟩ => h1 m' hf hm, h2⟩

/-- C21: an error is returned exactly for a bad header. -/
theorem C21_error_iff (r : Message G) (data : Bytes) :
    (∃ e, Message.unmarshalBinary r data = .err e) ↔ ∃ e, Header.unmarshalBinary data = .err e := by
  constructor
  · intro ⟨e, he⟩
    cases hc : Header.unmarshalBinary data with
    | err e => exact ⟨e, rfl⟩
    | panic => exact absurd hc (Header.unmarshal_no_panic _)
    | ok h =>
      obtain ⟨hv, rest, rfl⟩ := (C18_unmarshal_iff _ _).mp hc
      rw [message_unmarshal r hv] at he
      split_ifs at he
      · cases hd : (KeyGen1.unmarshalBinary rest : GoRes (KeyGen1 G)) <;> rw [hd] at he <;> cases he
      · cases hd : KeyGen2.unmarshalBinary rest <;> rw [hd] at he <;> cases he
      · cases hd : (Sign1.unmarshalBinary rest : GoRes (Sign1 G)) <;> rw [hd] at he <;> cases he
      · cases hd : Sign2.unmarshalBinary rest <;> rw [hd] at he <;> cases he
  · intro ⟨e, he⟩
    refine ⟨e, ?_⟩
    unfold Message.unmarshalBinary
    rw [he]; rfl

/-- C21 refuted: for every message type a bare header is accepted with a nil error and a nil payload. -/
theorem C21_bare_header_accepted (t : MsgType) (f o : ID) (hv : Spec.ValidHeader t f o) :
    Message.unmarshalBinary Message.fresh (Spec.headerBytes t f o) = .ok ({ header := ⟨t, f, o⟩ } : Message G) := by
  have h := message_unmarshal (Message.fresh : Message G) hv []
  rw [List.append_nil] at h
  rw [h]
  split_ifs <;> rfl

example : Spec.ValidHeader 1 7 0 ∧ Spec.ValidHeader 2 7 9 ∧ Spec.ValidHeader 3 7 0 ∧ Spec.ValidHeader 4 7 0 := by decide

/-- C21 refuted: with a receiver used before, a message without payload takes over the payload of an earlier message of another
sender: here the share `s` sent by `f` is attributed to `f'`. -/
theorem C21_stale_payload (f f' o : ID) (hf : f ≠ 0) (hf' : f' ≠ 0) (ho : o ≠ 0) (s : Scalar) :
    ∃ b, Message.marshalBinary (Message.newKeyGen2 f o s : Message G) = .ok b ∧
      ∃ r, Message.unmarshalBinary (Message.fresh : Message G) b = .ok r ∧
        Message.unmarshalBinary r (Spec.headerBytes 2 f' o) = .ok (Message.newKeyGen2 f' o s) := by
  obtain ⟨b, h1, _, h3⟩ := C19_keyGen2 (G := G) f o hf ho s
  refine ⟨b, h1, _, h3, ?_⟩
  have h := message_unmarshal (Message.newKeyGen2 f o s : Message G) (t := 2) (f := f') (o := o) ⟨hf', Or.inr ⟨rfl, ho⟩⟩ []
  rw [List.append_nil] at h
  rw [h]; rfl

/-! ### C22 (unmarshalling) -/

/-- C22, first half: no byte string makes any of the decoders panic, for any receiver.  The second half (processing of accepted
messages) is false, see `C22_bad_payload_crashes`. -/
theorem C22_unmarshal_no_panic_partial (data : Bytes) (r : Message G) :
    Message.unmarshalBinary r data ≠ .panic ∧ Header.unmarshalBinary data ≠ .panic ∧
      (KeyGen1.unmarshalBinary data : GoRes (KeyGen1 G)) ≠ .panic ∧ KeyGen2.unmarshalBinary data ≠ .panic ∧
      (Sign1.unmarshalBinary data : GoRes (Sign1 G)) ≠ .panic ∧ Sign2.unmarshalBinary data ≠ .panic ∧
      Schnorr.unmarshalBinary data ≠ .panic ∧ (Exponent.unmarshalBinary data : GoRes (Exponent G)) ≠ .panic ∧
      (Signature.unmarshalBinary data : GoRes (Signature G)) ≠ .panic ∧
      (SecretShare.unmarshalBinary data : GoRes (SecretShare G)) ≠ .panic := by
  refine ⟨?_, Header.unmarshal_no_panic _, KeyGen1.unmarshal_no_panic _, KeyGen2.unmarshal_no_panic _,
    Sign1.unmarshal_no_panic _, Sign2.unmarshal_no_panic _, Schnorr.unmarshal_no_panic _, C13_unmarshal_no_panic _,
    ?_, ?_⟩
  · cases hc : Header.unmarshalBinary data with
    | panic => exact absurd hc (Header.unmarshal_no_panic _)
    | err e => unfold Message.unmarshalBinary; rw [hc]; simp
    | ok h =>
      obtain ⟨hv, rest, rfl⟩ := (C18_unmarshal_iff _ _).mp hc
      rw [message_unmarshal r hv]
      split_ifs
      · cases hd : (KeyGen1.unmarshalBinary rest : GoRes (KeyGen1 G)) <;> simp [Message.payload]
        exact absurd hd (KeyGen1.unmarshal_no_panic _)
      · cases hd : KeyGen2.unmarshalBinary rest <;> simp [Message.payload]
        exact absurd hd (KeyGen2.unmarshal_no_panic _)
      · cases hd : (Sign1.unmarshalBinary rest : GoRes (Sign1 G)) <;> simp [Message.payload]
        exact absurd hd (Sign1.unmarshal_no_panic _)
      · cases hd : Sign2.unmarshalBinary rest <;> simp [Message.payload]
        exact absurd hd (Sign2.unmarshal_no_panic _)
  · exact C56_no_panic data
  · exact C52_no_panic data

/-! ### C24 -/

/-- C24: for messages that carry the payload of their type, `Equal` is equality of headers and payload bytes. -/
theorem C24_equal_iff (m o : Message G) (a b : Bytes) (ha : Spec.payloadBytes m = some a) (hb : Spec.payloadBytes o = some b) :
    Message.equal m o = true ↔ m.header = o.header ∧ a = b := by
  unfold Message.equal MsgType.keyGen1 MsgType.keyGen2 MsgType.sign1 MsgType.sign2
  by_cases hh : m.header = o.header
  swap
  · have : m.header.equal o.header = false := by unfold Header.equal; simp [hh]
    simp [this, hh]
  have : m.header.equal o.header = true := by unfold Header.equal; simp [hh]
  rw [this]
  simp only [Bool.true_eq_false, if_false, hh, true_and]
  unfold Spec.payloadBytes at ha hb
  rw [hh] at ha
  by_cases h1 : o.header.type = 1
  · rw [if_pos h1] at ha hb ⊢
    cases hm : m.keyGen1 with
    | none => simp [hm] at ha
    | some p => cases ho : o.keyGen1 with
      | none => simp [ho] at hb
      | some p' =>
        simp only [hm, ho, Option.map_some, Option.some.injEq, ← keyGen1_bytes] at ha hb
        subst ha; subst hb
        simp only [KeyGen1.equal_iff]
        refine ⟨fun h => by rw [h], fun h => ?_⟩
        rw [KeyGen1.marshal_eq, KeyGen1.marshal_eq] at h
        obtain ⟨e1, e2⟩ := List.append_inj h (by rw [Schnorr.marshal_length, Schnorr.marshal_length])
        obtain ⟨⟨S, R⟩, c⟩ := p
        obtain ⟨⟨S', R'⟩, c'⟩ := p'
        simp only at e1 e2
        obtain rfl := Exponent.marshal_injective e2
        rw [Schnorr.marshal_eq, Schnorr.marshal_eq] at e1
        obtain ⟨e3, e4⟩ := List.append_inj e1 (by rw [Scalar.bytes_length, Scalar.bytes_length])
        obtain rfl := Scalar.bytes_injective e3
        obtain rfl := Scalar.bytes_injective e4
        rfl
  rw [if_neg h1] at ha hb ⊢
  by_cases h2 : o.header.type = 2
  · rw [if_pos h2] at ha hb ⊢
    cases hm : m.keyGen2 with
    | none => simp [hm] at ha
    | some p => cases ho : o.keyGen2 with
      | none => simp [ho] at hb
      | some p' =>
        simp only [hm, ho, Option.map_some, Option.some.injEq] at ha hb
        subst ha; subst hb
        simp only [KeyGen2.equal_iff]
        obtain ⟨x⟩ := p
        obtain ⟨y⟩ := p'
        exact ⟨fun h => by rw [h], fun h => congrArg _ (Scalar.bytes_injective h)⟩
  rw [if_neg h2] at ha hb ⊢
  by_cases h3 : o.header.type = 3
  · rw [if_pos h3] at ha hb ⊢
    cases hm : m.sign1 with
    | none => simp [hm] at ha
    | some p => cases ho : o.sign1 with
      | none => simp [ho] at hb
      | some p' =>
        simp only [hm, ho, Option.map_some, Option.some.injEq] at ha hb
        subst ha; subst hb
        simp only [Sign1.equal_iff]
        obtain ⟨D, E⟩ := p
        obtain ⟨D', E'⟩ := p'
        refine ⟨fun h => by rw [h], fun h => ?_⟩
        obtain ⟨e1, e2⟩ := List.append_inj h (by rw [RGroup.bytes_length, RGroup.bytes_length])
        rw [show D = D' from Verif.bytes_injective e1, show E = E' from Verif.bytes_injective e2]
  rw [if_neg h3] at ha hb ⊢
  by_cases h4 : o.header.type = 4
  · rw [if_pos h4] at ha hb ⊢
    cases hm : m.sign2 with
    | none => simp [hm] at ha
    | some p => cases ho : o.sign2 with
      | none => simp [ho] at hb
      | some p' =>
        simp only [hm, ho, Option.map_some, Option.some.injEq] at ha hb
        subst ha; subst hb
        simp only [Sign2.equal_iff]
        obtain ⟨x⟩ := p
        obtain ⟨y⟩ := p'
        exact ⟨fun h => by rw [h], fun h => congrArg _ (Scalar.bytes_injective h)⟩
  rw [if_neg h4] at hb
  cases hb

/-- C24: for messages that marshal, `Equal` is equality of the bytes. -/
theorem C24_equal_wire (m o : Message G) (a b : Bytes) (ha : Message.marshalBinary m = .ok a)
    (hb : Message.marshalBinary o = .ok b) : Message.equal m o = true ↔ a = b := by
  obtain ⟨_, pa, hpa, rfl⟩ := (message_marshal _ _).mp ha
  obtain ⟨_, pb, hpb, rfl⟩ := (message_marshal _ _).mp hb
  rw [C24_equal_iff m o pa pb hpa hpb]
  constructor
  · rintro ⟨h, rfl⟩; rw [h]
  · intro h
    obtain ⟨e1, e2⟩ := List.append_inj h (by rw [header_bytes_length, header_bytes_length])
    obtain ⟨ht, h1, h2⟩ := header_bytes_inj e1
    refine ⟨?_, e2⟩
    obtain ⟨⟨t, f, d⟩, _⟩ := m
    obtain ⟨⟨t', f', d'⟩, _⟩ := o
    simp only at ht h1 h2
    subst ht; subst h1; subst h2; rfl

/-- C24: an equivalence relation on messages that carry the payload of their type. -/
theorem C24_equivalence (m o n : Message G) (hm : (Spec.payloadBytes m).isSome) (ho : (Spec.payloadBytes o).isSome)
    (hn : (Spec.payloadBytes n).isSome) :
    Message.equal m m = true ∧ (Message.equal m o = true → Message.equal o m = true) ∧
      (Message.equal m o = true → Message.equal o n = true → Message.equal m n = true) := by
  obtain ⟨a, ha⟩ := Option.isSome_iff_exists.mp hm
  obtain ⟨b, hb⟩ := Option.isSome_iff_exists.mp ho
  obtain ⟨c, hc⟩ := Option.isSome_iff_exists.mp hn
  rw [C24_equal_iff m m a a ha ha, C24_equal_iff m o a b ha hb, C24_equal_iff o m b a hb ha, C24_equal_iff o n b c hb hc,
    C24_equal_iff m n a c ha hc]
  exact ⟨⟨rfl, rfl⟩, fun h => ⟨h.1.symm, h.2.symm⟩, fun h h' => ⟨h.1.trans h'.1, h.2.trans h'.2⟩⟩

/-- Without the payload, `Equal` is not reflexive: a message decoded from a bare header differs from itself. -/
theorem C24_empty_message_not_equal_itself (h : Header) : Message.equal ({ header := h } : Message G) { header := h } = false := by
  unfold Message.equal Header.equal; simp

example : (Spec.payloadBytes (Message.newSign1 4 (Toy.of 3) (Toy.of 9))).isSome := by decide

end Verif.Props
