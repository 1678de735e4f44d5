import Verif.Model.Receiver
import Verif.Lemmas.Messages
import Verif.Props.Messages
import Verif.Props.Polynomial
import Verif.Curve.Group

/-!
C87: decoding into a receiver that already holds something.
-/

namespace Verif.Props

open Verif Verif.Method

variable {G : Type} [RGroup G] {S α β : Type}

/-- A method that returns no value does on every receiver what the function `f` says: the result replaces the receiver (through
`emb`), or the same error is returned, or it panics too. -/
def Spec.Decodes (emb : β → S) (m : Method S Unit) (f : GoRes β) : Prop :=
  ∀ r, (∀ v, f = .ok v → m r = (emb v, .ok ())) ∧ (∀ e, f = .err e → (m r).2 = .err e) ∧ (f = .panic → (m r).2 = .panic)

/-- What is returned, and on success what is in the receiver, is the same for every receiver. -/
def Spec.Fresh (m : Method S Unit) : Prop :=
  ∀ r r', (m r).2 = (m r').2 ∧ ((m r).2 = .ok () → (m r).1 = (m r').1)

/-- A method that returns an error has left the receiver alone. -/
def Spec.Intact (m : Method S Unit) : Prop := ∀ r r' e, m r = (r', .err e) → r' = r

@[simp] theorem method_pure (a : α) (s : S) : (pure a : Method S α) s = (s, .ok a) := rfl
@[simp] theorem call_ok_bind (a : α) (f : α → Method S β) (s : S) : (call (.ok a) >>= f) s = f a s := rfl
@[simp] theorem call_err_bind (e : GoErr) (f : α → Method S β) (s : S) : ((call (.err e) : Method S α) >>= f) s = (s, .err e) := rfl
@[simp] theorem call_panic_bind (f : α → Method S β) (s : S) : ((call .panic : Method S α) >>= f) s = (s, .panic) := rfl
@[simp] theorem assign_bind (g : S → S) (f : Unit → Method S β) (s : S) : (assign g >>= f) s = f () (g s) := rfl
@[simp] theorem call_apply (x : GoRes α) (s : S) : (call x : Method S α) s = (s, x) := rfl
@[simp] theorem assign_apply (g : S → S) (s : S) : assign g s = (g s, .ok ()) := rfl

theorem decodes_fresh {emb : β → S} {m : Method S Unit} {f : GoRes β} (h : Spec.Decodes emb m f) : Spec.Fresh m := by
  intro r r'
  obtain ⟨a, b, c⟩ := h r
  obtain ⟨a', b', c'⟩ := h r'
  cases f with
  | ok v => rw [a v rfl, a' v rfl]; exact ⟨rfl, fun _ => rfl⟩
  | err e => rw [b e rfl, b' e rfl]; exact ⟨rfl, nofun⟩
  | panic => rw [c rfl, c' rfl]; exact ⟨rfl, nofun⟩

/-- Headers. -/
theorem C87_header (data : Bytes) :
    Spec.Decodes id (Header.unmarshalInto data) (Header.unmarshalBinary data) ∧ Spec.Intact (Header.unmarshalInto data) := by
  have key : ∀ r, (∃ v, Header.unmarshalBinary data = .ok v ∧ Header.unmarshalInto data r = (v, .ok ())) ∨
      (∃ e, Header.unmarshalBinary data = .err e ∧ Header.unmarshalInto data r = (r, .err e)) ∨
      (Header.unmarshalBinary data = .panic ∧ Header.unmarshalInto data r = (r, .panic)) := by
    intro r
    unfold Header.unmarshalBinary Header.unmarshalInto
    cases Outcome.failIf (data.length < headerSize) GoErr.tooShort <;> simp
    cases goIndex data 0 <;> simp
    cases sliceFrom data 1 <;> simp
    rename_i b
    cases ID.fromBytes b <;> simp
    cases sliceFrom data 3 <;> simp
    rename_i b
    cases ID.fromBytes b <;> simp
    rename_i t _ f o
    cases Header.check t f o <;> simp
  refine ⟨fun r => ?_, fun r r' e h => ?_⟩
  · rcases key r with ⟨v, h1, h2⟩ | ⟨e, h1, h2⟩ | ⟨h1, h2⟩ <;> rw [h1, h2] <;> simp
  · rcases key r with ⟨v, h1, h2⟩ | ⟨e, h1, h2⟩ | ⟨h1, h2⟩ <;> rw [h2] at h <;> cases h
    rfl

theorem C87_keygen2 (data : Bytes) :
    Spec.Decodes id (KeyGen2.unmarshalInto data) (KeyGen2.unmarshalBinary data) ∧ Spec.Intact (KeyGen2.unmarshalInto data) := by
  unfold KeyGen2.unmarshalBinary KeyGen2.unmarshalInto Spec.Decodes Spec.Intact
  cases Outcome.failIf (data.length ≠ 32) GoErr.wrongLength <;> simp
  cases Outcome.orErr (Scalar.setCanonicalBytes data) GoErr.nonCanonical <;> simp

theorem C87_sign2 (data : Bytes) :
    Spec.Decodes id (Sign2.unmarshalInto data) (Sign2.unmarshalBinary data) ∧ Spec.Intact (Sign2.unmarshalInto data) := by
  unfold Sign2.unmarshalBinary Sign2.unmarshalInto Spec.Decodes Spec.Intact
  cases Outcome.failIf (data.length ≠ 32) GoErr.wrongLength <;> simp
  cases Outcome.orErr (Scalar.setCanonicalBytes data) GoErr.nonCanonical <;> simp

theorem C87_public (ord : MapOrder) (data : Bytes) :
    Spec.Decodes id (Public.readInto (G := G) ord data) (Json.readPublic ord data) ∧ Spec.Intact (Public.readInto (G := G) ord data) := by
  unfold Public.readInto Spec.Decodes Spec.Intact
  cases Json.readPublic (G := G) ord data <;> simp

theorem C87_id (text : Bytes) :
    Spec.Decodes id (ID.unmarshalInto text) (ID.unmarshalText text) ∧ Spec.Intact (ID.unmarshalInto text) := by
  unfold ID.unmarshalInto Spec.Decodes Spec.Intact
  cases ID.unmarshalText text <;> simp

/-- C02: what `UnmarshalText` leaves in the receiver: the value of the decimal string, or what was there before. -/
theorem C02_receiver (text : Bytes) (r : ID) :
    (Spec.IsDecimal text ∧ ∃ id : ID, Spec.decimalValue text = id.toNat ∧ ID.unmarshalInto text r = (id, .ok ())) ∨
    ((¬ ∃ id : ID, Spec.IsDecimal text ∧ Spec.decimalValue text = id.toNat) ∧ ∃ e, ID.unmarshalInto text r = (r, .err e)) := by
  unfold ID.unmarshalInto
  cases h : ID.unmarshalText text with
  | ok id => exact Or.inl ⟨((C02_unmarshalText_exact text id).mp h).1, id, ((C02_unmarshalText_exact text id).mp h).2, by simp⟩
  | err e =>
    refine Or.inr ⟨?_, e, by simp⟩
    rintro ⟨id, hd⟩
    rw [(C02_unmarshalText_exact text id).mpr hd] at h
    cases h
  | panic => exact absurd h (C02_unmarshalText_no_panic text)

theorem C87_element (text : Bytes) :
    Spec.Decodes id (elementInto (G := G) text) (Json.elementText text) ∧ Spec.Intact (elementInto (G := G) text) := by
  unfold elementInto Json.elementText Spec.Decodes Spec.Intact
  cases Outcome.orErr (Base64.decode text) GoErr.base64 <;> simp
  rename_i b
  cases Outcome.orErr (RGroup.setCanonicalBytes (G := G) b) GoErr.nonCanonical <;> simp

/-- Signatures: the same as `unmarshalBinary`. -/
theorem C87_signature_decodes (data : Bytes) :
    Spec.Decodes id (Signature.unmarshalInto (G := G) data) (Signature.unmarshalBinary data) := by
  unfold Signature.unmarshalBinary Signature.unmarshalInto Spec.Decodes
  cases Outcome.failIf (data.length < 64) GoErr.tooShort <;> simp
  cases sliceTo data 32 <;> simp
  rename_i b
  cases Outcome.orErr (RGroup.setCanonicalBytes (G := G) b) GoErr.nonCanonical <;> simp
  cases sliceFrom data 32 <;> simp
  rename_i b
  cases Outcome.orErr (Scalar.setCanonicalBytes b) GoErr.nonCanonical <;> simp

/-- What a failed decoding leaves in a signature: the old one if the bytes are too few or the first half is refused, else the new `R` with the
old `S`. -/
theorem C87_signature_left (data : Bytes) (r r' : Signature G) (e : GoErr) (h : Signature.unmarshalInto data r = (r', .err e)) :
    ((data.length < 64 ∨ RGroup.setCanonicalBytes (G := G) (data.take 32) = none) ∧ r' = r) ∨
    (64 ≤ data.length ∧ ∃ R, RGroup.setCanonicalBytes (data.take 32) = some R ∧ Scalar.setCanonicalBytes (data.drop 32) = none ∧
      r' = ⟨R, r.S⟩) := by
  unfold Signature.unmarshalInto at h
  by_cases hl : data.length < 64
  · rw [Outcome.failIf_pos hl, call_err_bind] at h
    cases h
    exact .inl ⟨.inl hl, rfl⟩
  rw [Outcome.failIf_neg hl, call_ok_bind, sliceTo_ok (by omega), call_ok_bind, sliceFrom_ok (by omega)] at h
  cases hR : RGroup.setCanonicalBytes (G := G) (data.take 32) with
  | none => rw [hR] at h; simp at h; exact .inl ⟨.inr rfl, h.1.symm⟩
  | some R =>
    rw [hR] at h
    cases hS : Scalar.setCanonicalBytes (data.drop 32) with
    | none => simp [hS] at h; exact .inr ⟨by omega, R, rfl, rfl, h.1.symm⟩
    | some s => simp [hS] at h

/-- The second case happens: two halves, one good and one refused, leave a mixture. -/
theorem C87_signature_mixed (R : G) (b : Bytes) (hb : 32 ≤ b.length) (hs : Scalar.setCanonicalBytes b = none) (r : Signature G) :
    Signature.unmarshalInto (RGroup.bytes R ++ b) r = (⟨R, r.S⟩, .err .nonCanonical) := by
  have hl : (RGroup.bytes R).length = 32 := RGroup.bytes_length R
  unfold Signature.unmarshalInto
  rw [Outcome.failIf_neg (by simp [hl]; omega), call_ok_bind, sliceTo_append hl, call_ok_bind, sliceFrom_append hl]
  simp [RGroup.set_bytes, hs]

/-- Proofs. -/
theorem C87_schnorr_decodes (data : Bytes) : Spec.Decodes id (Schnorr.unmarshalInto data) (Schnorr.unmarshalBinary data) := by
  unfold Schnorr.unmarshalBinary Schnorr.unmarshalInto Spec.Decodes
  cases Outcome.failIf (data.length < 64) GoErr.tooShort <;> simp
  cases sliceTo data 32 <;> simp
  rename_i b
  cases Outcome.orErr (Scalar.setCanonicalBytes b) GoErr.nonCanonical <;> simp
  cases sliceFrom data 32 <;> simp
  rename_i b
  cases Outcome.orErr (Scalar.setCanonicalBytes b) GoErr.nonCanonical <;> simp

theorem C87_schnorr_left (data : Bytes) (r r' : Schnorr) (e : GoErr) (h : Schnorr.unmarshalInto data r = (r', .err e)) :
    ((data.length < 64 ∨ Scalar.setCanonicalBytes (data.take 32) = none) ∧ r' = r) ∨
    (64 ≤ data.length ∧ ∃ s, Scalar.setCanonicalBytes (data.take 32) = some s ∧ Scalar.setCanonicalBytes (data.drop 32) = none ∧
      r' = ⟨s, r.R⟩) := by
  unfold Schnorr.unmarshalInto at h
  by_cases hl : data.length < 64
  · rw [Outcome.failIf_pos hl, call_err_bind] at h
    cases h
    exact .inl ⟨.inl hl, rfl⟩
  rw [Outcome.failIf_neg hl, call_ok_bind, sliceTo_ok (by omega), call_ok_bind, sliceFrom_ok (by omega)] at h
  cases hR : Scalar.setCanonicalBytes (data.take 32) with
  | none => rw [hR] at h; simp at h; exact .inl ⟨.inr rfl, h.1.symm⟩
  | some R =>
    rw [hR] at h
    cases hS : Scalar.setCanonicalBytes (data.drop 32) with
    | none => simp [hS] at h; exact .inr ⟨by omega, R, rfl, rfl, h.1.symm⟩
    | some s => simp [hS] at h

/-- Nonce commitments. -/
theorem C87_sign1_decodes (data : Bytes) :
    Spec.Decodes id (Sign1.unmarshalInto (G := G) data) (Sign1.unmarshalBinary data) := by
  unfold Sign1.unmarshalBinary Sign1.unmarshalInto Spec.Decodes
  cases Outcome.failIf (data.length ≠ 64) GoErr.wrongLength <;> simp
  cases sliceTo data 32 <;> simp
  rename_i b
  cases Outcome.orErr (RGroup.setCanonicalBytes (G := G) b) GoErr.nonCanonical <;> simp
  cases sliceFrom data 32 <;> simp
  rename_i b
  cases Outcome.orErr (RGroup.setCanonicalBytes (G := G) b) GoErr.nonCanonical <;> simp

theorem C87_sign1_left (data : Bytes) (r r' : Sign1 G) (e : GoErr) (h : Sign1.unmarshalInto data r = (r', .err e)) :
    ((data.length ≠ 64 ∨ RGroup.setCanonicalBytes (G := G) (data.take 32) = none) ∧ r' = r) ∨
    (data.length = 64 ∧ ∃ D, RGroup.setCanonicalBytes (data.take 32) = some D ∧ RGroup.setCanonicalBytes (G := G) (data.drop 32) = none ∧
      r' = ⟨D, r.Ei⟩) := by
  unfold Sign1.unmarshalInto at h
  by_cases hl : data.length ≠ 64
  · rw [Outcome.failIf_pos hl, call_err_bind] at h
    cases h
    exact .inl ⟨.inl hl, rfl⟩
  rw [Outcome.failIf_neg hl, call_ok_bind, sliceTo_ok (by omega), call_ok_bind, sliceFrom_ok (by omega)] at h
  cases hR : RGroup.setCanonicalBytes (G := G) (data.take 32) with
  | none => rw [hR] at h; simp at h; exact .inl ⟨.inr rfl, h.1.symm⟩
  | some R =>
    rw [hR] at h
    cases hS : RGroup.setCanonicalBytes (G := G) (data.drop 32) with
    | none => simp [hS] at h; exact .inr ⟨by omega, R, rfl, rfl, h.1.symm⟩
    | some s => simp [hS] at h

/-- Secret shares. -/
theorem C87_share_decodes (data : Bytes) :
    Spec.Decodes id (SecretShare.unmarshalInto (G := G) data) (SecretShare.unmarshalBinary data) := by
  unfold SecretShare.unmarshalBinary SecretShare.unmarshalInto Spec.Decodes
  cases Outcome.failIf (data.length ≠ 34) GoErr.wrongLength <;> simp
  cases ID.fromBytes data <;> simp
  cases sliceFrom data 2 <;> simp
  rename_i b
  cases Outcome.orErr (Scalar.setCanonicalBytes b) GoErr.nonCanonical <;> simp

/-- A failed decoding of a share leaves the old share if the length is wrong, else the old secret and public value under the new ID. -/
theorem C87_share_left (data : Bytes) (r r' : SecretShare G) (e : GoErr) (h : SecretShare.unmarshalInto data r = (r', .err e)) :
    (data.length ≠ 34 ∧ r' = r) ∨
    (∃ id b, data = ID.bytes id ++ b ∧ b.length = 32 ∧ Scalar.setCanonicalBytes b = none ∧ r' = ⟨id, r.secret, r.pub⟩) := by
  unfold SecretShare.unmarshalInto at h
  by_cases hl : data.length ≠ 34
  · rw [Outcome.failIf_pos hl, call_err_bind] at h
    cases h
    exact .inl ⟨hl, rfl⟩
  rw [Outcome.failIf_neg hl, call_ok_bind] at h
  rcases fromBytes_cases data with ⟨hc, -⟩ | ⟨id, b, hf, hd⟩
  · omega
  have hil : (ID.bytes id).length = 2 := by simp [ID.bytes, be16_length]
  have hb : b.length = 32 := by
    have := congrArg List.length hd
    rw [List.length_append, hil] at this
    omega
  rw [hf] at h
  rw [hd, sliceFrom_append hil] at h
  cases hS : Scalar.setCanonicalBytes b with
  | none => simp [hS] at h; exact .inr ⟨id, b, hd, hb, hS, h.1.symm⟩
  | some s => simp [hS] at h

/-- So a record of one party's ID with bytes that are no scalar turns a share into one with that ID and the secret of its old owner. -/
theorem C87_share_mixed (id : ID) (b : Bytes) (hb : b.length = 32) (hs : Scalar.setCanonicalBytes b = none) (r : SecretShare G) :
    SecretShare.unmarshalInto (ID.bytes id ++ b) r = (⟨id, r.secret, r.pub⟩, .err .nonCanonical) := by
  have hil : (ID.bytes id).length = 2 := by simp [ID.bytes, be16_length]
  unfold SecretShare.unmarshalInto
  rw [Outcome.failIf_neg (by simp [hil, hb]), call_ok_bind, fromBytes_bytes_append, sliceFrom_append hil]
  simp [hs]

/-- The same through JSON. -/
theorem C87_shareJSON_decodes (data : Bytes) :
    Spec.Decodes id (SecretShare.readInto (G := G) data) (Json.readSecretShare data) := by
  have key : ∀ out : SecretShare.Json,
      Spec.Decodes id (SecretShare.unmarshalJSONInto (G := G) out) (SecretShare.unmarshalJSON out) := by
    intro out
    unfold SecretShare.unmarshalJSONInto SecretShare.unmarshalJSON Spec.Decodes
    cases Outcome.orErr (Scalar.setCanonicalBytes out.secret) GoErr.nonCanonical <;> simp
  have bad : Spec.Decodes id (call (.err .json) : Method (SecretShare G) Unit) (.err .json) := by
    intro r; simp
  unfold SecretShare.readInto Json.readSecretShare
  cases Json.parse data with
  | none => exact bad
  | some v =>
    cases v with
    | obj l =>
      simp only [Json.secretShare]
      rcases hm : Json.secretMembers l ⟨0, []⟩ false with ⟨out, _ | _⟩
      · exact key out
      · exact bad
    | null => exact key _
    | _ => exact bad

/-- A failed decoding from JSON changes at most the ID. -/
theorem C87_shareJSON_left (data : Bytes) (r r' : SecretShare G) (e : GoErr) (h : SecretShare.readInto data r = (r', .err e)) :
    r'.secret = r.secret ∧ r'.pub = r.pub := by
  have key : ∀ out : SecretShare.Json, SecretShare.unmarshalJSONInto out r = (r', .err e) → r'.secret = r.secret ∧ r'.pub = r.pub := by
    intro out h
    unfold SecretShare.unmarshalJSONInto at h
    cases hs : Scalar.setCanonicalBytes out.secret <;> simp [hs] at h
    rw [← h.1]
    exact ⟨rfl, rfl⟩
  have bad : (call (.err .json) : Method (SecretShare G) Unit) r = (r', .err e) → r'.secret = r.secret ∧ r'.pub = r.pub := by
    intro h; cases h; exact ⟨rfl, rfl⟩
  unfold SecretShare.readInto at h
  cases hp : Json.parse data with
  | none => rw [hp] at h; exact bad h
  | some v =>
    rw [hp] at h
    cases v with
    | obj l =>
      dsimp only at h
      rcases hm : Json.secretMembers l ⟨0, []⟩ false with ⟨out, _ | _⟩ <;> rw [hm] at h
      · exact key out h
      · exact bad h
    | null => exact key _ h
    | _ => exact bad h

/-- A public key: what is decoded does not depend on the receiver, unless the text is null, which is accepted and leaves the key as it
was.  An error leaves it as well. -/
theorem C87_publicKey (data : Bytes) :
    Spec.Intact (PublicKey.readInto (G := G) data) ∧
    (Json.parse data ≠ some .null → Spec.Fresh (PublicKey.readInto (G := G) data)) ∧
    (Json.parse data = some .null → ∀ r : G, PublicKey.readInto data r = (r, .ok ())) := by
  unfold PublicKey.readInto
  cases Json.parse data with
  | none => exact ⟨fun r r' e h => (by cases h; rfl), fun _ r r' => ⟨rfl, nofun⟩, nofun⟩
  | some v =>
    cases v with
    | str s => exact ⟨(C87_element s).2, fun _ => decodes_fresh (C87_element s).1, nofun⟩
    | null => exact ⟨fun r r' e h => (by cases h), fun h => absurd rfl h, fun _ r => rfl⟩
    | _ => exact ⟨fun r r' e h => (by cases h; rfl), fun _ r r' => ⟨rfl, nofun⟩, nofun⟩

theorem decodeInto_spec (k : Nat) : ∀ (pre : Exponent.Ptrs G) (remaining : Bytes), remaining.length = 32 * k →
    (∃ cs, Exponent.decodeLoop k remaining = .ok cs ∧
      Exponent.decodeInto k pre.length remaining (pre ++ List.replicate k none) = (pre ++ cs.map some, .ok ())) ∨
    (∃ (cs : List G) (b : Bytes), Exponent.decodeLoop (G := G) k remaining = .err .nonCanonical ∧ cs.length < k ∧
      (∃ tail, remaining = (cs.map RGroup.bytes).flatten ++ b ++ tail) ∧ RGroup.setCanonicalBytes (G := G) b = none ∧ b.length = 32 ∧
      Exponent.decodeInto k pre.length remaining (pre ++ List.replicate k none) =
        (pre ++ cs.map some ++ List.replicate (k - cs.length) none, .err .nonCanonical)) := by
  induction k with
  | zero => intro pre remaining _; exact .inl ⟨[], rfl, by simp [Exponent.decodeInto]⟩
  | succ k ih =>
    intro pre remaining hl
    have hset : ∀ c : Option G, (pre ++ List.replicate (k + 1) none).set pre.length c = pre ++ c :: List.replicate k none := by
      intro c
      rw [List.replicate_succ, List.set_append_right _ _ (le_refl _), Nat.sub_self, List.set_cons_zero]
    unfold Exponent.decodeInto Exponent.decodeLoop
    rw [sliceTo_ok (by omega), sliceFrom_ok (by omega)]
    cases hc : RGroup.setCanonicalBytes (G := G) (remaining.take 32) with
    | none =>
      refine .inr ⟨[], remaining.take 32, by simp [hc], by simp, ⟨remaining.drop 32, by simp⟩, hc, by simp; omega, ?_⟩
      simp [hc, hset, List.replicate_succ]
    | some c =>
      have hpre : pre ++ some c :: List.replicate k none = (pre ++ [some c]) ++ List.replicate k none := by simp
      have hlen : pre.length + 1 = (pre ++ [some c]).length := by simp
      have hrest : (remaining.drop 32).length = 32 * k := by simp; omega
      have hb := RGroup.bytes_set _ _ hc
      rcases ih (pre ++ [some c]) (remaining.drop 32) hrest with ⟨cs, h1, h2⟩ | ⟨cs, b, h1, hlt, ⟨tail, ht⟩, hn, hbl, h2⟩
      · refine .inl ⟨c :: cs, by simp [hc, h1], ?_⟩
        simp only [call_ok_bind, assign_bind, hc, Outcome.orErr_some, hset]
        rw [hpre, hlen, h2]
        simp
      · refine .inr ⟨c :: cs, b, by simp [hc, h1], by simpa using hlt, ⟨tail, ?_⟩, hn, hbl, ?_⟩
        · simp only [List.map_cons, List.flatten_cons, hb, List.append_assoc]
          rw [← List.append_assoc _ b, ← ht, List.take_append_drop]
        · simp only [call_ok_bind, assign_bind, hc, Outcome.orErr_some, hset]
          rw [hpre, hlen, h2]
          simp

/-- The length that a degree calls for. -/
def Spec.exponentLength (degree : UInt16) : Nat := 2 + 32 * ((degree.toNat + 1) % 65536)

theorem exponentInto_cases (data : Bytes) (r : Exponent.Ptrs G) :
    (∃ e, Exponent.unmarshalBinary (G := G) data = .err e ∧ Exponent.unmarshalInto data r = (r, .err e) ∧
      ∀ d rest, data = ID.bytes d ++ rest → data.length ≠ Spec.exponentLength d) ∨
    (∃ cs, Exponent.unmarshalBinary data = .ok cs ∧ Exponent.unmarshalInto data r = (cs.map some, .ok ())) ∨
    (∃ (d : ID) (cs : List G) (b tail : Bytes), data = ID.bytes d ++ ((cs.map RGroup.bytes).flatten ++ b ++ tail) ∧ data.length = Spec.exponentLength d ∧
      cs.length < d.toNat + 1 ∧ b.length = 32 ∧ RGroup.setCanonicalBytes (G := G) b = none ∧
      Exponent.unmarshalBinary (G := G) data = .err .nonCanonical ∧
      Exponent.unmarshalInto data r = (cs.map some ++ List.replicate (d.toNat + 1 - cs.length) none, .err .nonCanonical)) := by
  rcases fromBytes_cases data with ⟨hc, hf⟩ | ⟨d, rest, hf, hd⟩
  · refine .inl ⟨.tooShort, by unfold Exponent.unmarshalBinary; rw [hf]; rfl,
      by unfold Exponent.unmarshalInto; rw [hf]; rfl, ?_⟩
    intro d rest hd
    have := congrArg List.length hd
    simp [ID.bytes, be16_length] at this
    omega
  have hil : (ID.bytes d).length = 2 := by simp [ID.bytes, be16_length]
  have hs : sliceFrom data 2 = .ok rest := by rw [hd]; exact sliceFrom_append hil
  have hdl : data.length = 2 + rest.length := by rw [hd, List.length_append, hil]
  have hd1 : (d + 1).toNat = (d.toNat + 1) % 65536 := by
    rw [UInt16.toNat_add]; rfl
  by_cases h1 : rest.length = (d + 1).toNat * 32
  · have hu : Exponent.unmarshalBinary (G := G) data = Exponent.decodeLoop (d + 1).toNat rest := by
      unfold Exponent.unmarshalBinary
      rw [hf, Outcome.ok_bind, hs]
      simp [h1]
    have hi : Exponent.unmarshalInto (G := G) data r =
        Exponent.decodeInto (d + 1).toNat 0 rest (List.replicate (d + 1).toNat none) := by
      unfold Exponent.unmarshalInto
      rw [hf, call_ok_bind, hs]
      simp [h1]
    rw [hu, hi]
    rcases decodeInto_spec (G := G) (d + 1).toNat [] rest (by omega) with ⟨cs, a, b⟩ | ⟨cs, b, a, hlt, ⟨tail, ht⟩, hn, hbl, h2⟩
    · exact .inr (.inl ⟨cs, a, by simpa using b⟩)
    · have hne : (d.toNat + 1) % 65536 = d.toNat + 1 := by
        rcases Nat.lt_or_ge (d.toNat + 1) 65536 with h | h
        · exact Nat.mod_eq_of_lt h
        · have : d.toNat < 65536 := d.toNat_lt
          have h0 : d.toNat + 1 = 65536 := by omega
          rw [hd1, h0] at hlt
          simp at hlt
      refine .inr (.inr ⟨d, cs, b, tail, ?_, ?_, ?_, hbl, hn, a, ?_⟩)
      · rw [hd, ht]
      · unfold Spec.exponentLength; omega
      · omega
      · rw [← hne, ← hd1]; simpa using h2
  · have hne : ∀ d' rest', data = ID.bytes d' ++ rest' → data.length ≠ Spec.exponentLength d' := by
      intro d' rest' hd'
      have : d' = d := by
        have h := fromBytes_bytes_append d' rest'
        rw [← hd', hf] at h
        cases h; rfl
      subst this
      unfold Spec.exponentLength
      omega
    by_cases h2 : rest.length % 32 = 0
    · rw [hd1] at h1
      refine .inl ⟨.wrongLength, ?_, ?_, hne⟩
      · unfold Exponent.unmarshalBinary
        rw [hf, Outcome.ok_bind, hs]
        simp [h1, h2]
      · unfold Exponent.unmarshalInto
        rw [hf, call_ok_bind, hs]
        simp [h1, h2]
    · refine .inl ⟨.wrongLength, ?_, ?_, hne⟩
      · unfold Exponent.unmarshalBinary
        rw [hf, Outcome.ok_bind, hs]
        simp [h2]
      · unfold Exponent.unmarshalInto
        rw [hf, call_ok_bind, hs]
        simp [h2]

/-- Polynomials in the exponent: on success there are no nil pointers and the points are those of `unmarshalBinary`. -/
theorem C87_exponent_decodes (data : Bytes) :
    Spec.Decodes (List.map some) (Exponent.unmarshalInto (G := G) data) (Exponent.unmarshalBinary data) := by
  intro r
  rcases exponentInto_cases data r with ⟨e, h1, h2, -⟩ | ⟨cs, h1, h2⟩ | ⟨d, cs, b, tail, -, -, -, -, -, h1, h2⟩ <;> rw [h1, h2] <;> simp

/-- A failed decoding leaves the old polynomial if the length is not the one the degree calls for; else the old one is lost and what is left has the points before the
one that was refused, and nil pointers from there on. -/
theorem C87_exponent_left (data : Bytes) (r r' : Exponent.Ptrs G) (e : GoErr) (h : Exponent.unmarshalInto data r = (r', .err e)) :
    (r' = r ∧ ∀ d rest, data = ID.bytes d ++ rest → data.length ≠ Spec.exponentLength d) ∨
    (∃ (d : ID) (cs : List G) (b tail : Bytes), data = ID.bytes d ++ ((cs.map RGroup.bytes).flatten ++ b ++ tail) ∧ data.length = Spec.exponentLength d ∧
      b.length = 32 ∧ RGroup.setCanonicalBytes (G := G) b = none ∧ cs.length < d.toNat + 1 ∧
      r' = cs.map some ++ List.replicate (d.toNat + 1 - cs.length) none) := by
  rcases exponentInto_cases data r with ⟨e, h1, h2, h3⟩ | ⟨cs, h1, h2⟩ | ⟨d, cs, b, tail, a1, a2, a3, a4, a5, h1, h2⟩ <;>
    rw [h2] at h <;> cases h
  · exact .inl ⟨rfl, h3⟩
  · exact .inr ⟨d, cs, b, tail, a1, a2, a4, a5, a3, rfl⟩

theorem ptrBytesLoop_none (cs : List G) (n : Nat) (hn : 0 < n) : ∀ existing,
    Exponent.ptrBytesLoop (cs.map some ++ List.replicate n none) existing = .panic := by
  induction cs with
  | nil =>
    intro existing
    obtain ⟨m, rfl⟩ : ∃ m, n = m + 1 := ⟨n - 1, by omega⟩
    simp [List.replicate_succ, Exponent.ptrBytesLoop]
  | cons c cs ih => intro existing; simp [Exponent.ptrBytesLoop, ih]

theorem ptrBytesLoop_some (cs : List G) : ∀ existing,
    Exponent.ptrBytesLoop (cs.map some) existing = .ok (cs.foldl (fun acc c => acc ++ RGroup.bytes c) existing) := by
  induction cs with
  | nil => intro existing; rfl
  | cons c cs ih => intro existing; simp [Exponent.ptrBytesLoop, ih]

/-- On pointers that are not nil `BytesAppend` is the one of the model. -/
theorem C87_exponent_bytes (p : Exponent G) (existing : Bytes) :
    Exponent.ptrBytesAppend (p.map some) existing = .ok (p.bytesAppend existing) := by
  unfold Exponent.ptrBytesAppend Exponent.bytesAppend Exponent.degree
  rw [ptrBytesLoop_some, List.length_map]

/-- What a failed decoding leaves is either the old polynomial or one that cannot be written: that panics. -/
theorem C87_exponent_unusable (data : Bytes) (r r' : Exponent.Ptrs G) (e : GoErr) (h : Exponent.unmarshalInto data r = (r', .err e))
    (existing : Bytes) : r' = r ∨ Exponent.ptrBytesAppend r' existing = .panic := by
  rcases C87_exponent_left data r r' e h with ⟨h, -⟩ | ⟨d, cs, b, tail, -, -, -, -, hlt, rfl⟩
  · exact .inl h
  · exact .inr (by unfold Exponent.ptrBytesAppend; exact ptrBytesLoop_none _ _ (by omega) _)

/-- `KeyGen1` messages. -/
def Spec.keyGen1Ptrs (k : KeyGen1 G) : KeyGen1.Ptrs G := ⟨some k.proof, some (k.commitments.map some)⟩

theorem C87_keygen1_refines (data : Bytes) :
    Spec.Decodes Spec.keyGen1Ptrs (KeyGen1.unmarshalInto (G := G) data) (KeyGen1.unmarshalBinary data) := by
  intro r
  unfold KeyGen1.unmarshalInto KeyGen1.unmarshalBinary
  by_cases hl : data.length < 64
  · simp [Outcome.failIf_pos hl]
  rw [Outcome.failIf_neg hl, call_ok_bind, sliceTo_ok (by omega), sliceFrom_ok (by omega)]
  simp only [assign_bind, call_ok_bind, Outcome.ok_bind]
  obtain ⟨a, b, c⟩ := C87_schnorr_decodes (data.take 64) ⟨0, 0⟩
  obtain ⟨a', b', c'⟩ := C87_exponent_decodes (G := G) (data.drop 64) []
  cases hs : Schnorr.unmarshalBinary (data.take 64) with
  | err e =>
    have := b e hs
    simp only [Bind.bind, KeyGen1.onProof, this, Outcome.bind]
    simp
  | panic =>
    have := c hs
    simp only [Bind.bind, KeyGen1.onProof, this, Outcome.bind]
    simp
  | ok p =>
    have := a p hs
    cases hx : Exponent.unmarshalBinary (G := G) (data.drop 64) with
    | err e =>
      have h' := b' e hx
      simp only [Bind.bind, KeyGen1.onProof, this, KeyGen1.onCommitments, h', call, Outcome.bind]
      simp
    | panic =>
      have h' := c' hx
      simp only [Bind.bind, KeyGen1.onProof, this, KeyGen1.onCommitments, h', call, Outcome.bind]
      simp
    | ok q =>
      have h' := a' q hx
      simp only [Bind.bind, KeyGen1.onProof, this, KeyGen1.onCommitments, h', call, Outcome.bind]
      simp [Spec.keyGen1Ptrs]

/-- A failed decoding of a `KeyGen1` leaves the old message if the bytes are fewer than 64, else nothing of the old message: what is left
is the same for every receiver. -/
theorem C87_keygen1_left (data : Bytes) (r r' : KeyGen1.Ptrs G) (e : GoErr) (h : KeyGen1.unmarshalInto data r = (r', .err e)) :
    (data.length < 64 ∧ r' = r) ∨ (64 ≤ data.length ∧ ∀ r2, KeyGen1.unmarshalInto data r2 = (r', .err e)) := by
  unfold KeyGen1.unmarshalInto at h ⊢
  by_cases hl : data.length < 64
  · rw [Outcome.failIf_pos hl, call_err_bind] at h
    cases h
    exact .inl ⟨hl, rfl⟩
  rw [Outcome.failIf_neg hl] at h ⊢
  exact .inr ⟨by omega, fun r2 => h⟩

/-- Messages: the model's `unmarshalBinary` says what is in the receiver afterwards, and an error leaves it alone. -/
theorem C87_message (data : Bytes) (m : Message G) :
    (∀ m', Message.unmarshalBinary m data = .ok m' → Message.unmarshalInto data m = (m', .ok ())) ∧
    (∀ e, Message.unmarshalBinary m data = .err e → Message.unmarshalInto data m = (m, .err e)) := by
  unfold Message.unmarshalBinary Message.unmarshalInto
  obtain ⟨a, b, -⟩ := (C87_header data).1 m.header
  have ni := (C87_header data).2 m.header
  cases hh : Header.unmarshalBinary data with
  | err e =>
    have h2 := b e hh
    have h1 := ni _ e (Prod.ext rfl h2)
    have h3 : Header.unmarshalInto data m.header = (m.header, .err e) := Prod.ext h1 h2
    rw [h3]
    simp
  | panic => simp
  | ok h =>
    have h2 := a h hh
    have hl : 5 ≤ data.length := by
      by_contra hc
      unfold Header.unmarshalBinary at hh
      rw [Outcome.failIf_pos (by unfold headerSize; omega)] at hh
      cases hh
    have hs : sliceFrom data h.size = .ok (data.drop 5) := sliceFrom_ok hl
    have hv := ((C18_unmarshal_iff _ _).mp hh).1
    rw [h2]
    simp only [id, Outcome.ok_bind, hs]
    unfold Message.payloadInto
    by_cases k1 : h.type = MsgType.keyGen1
    · rw [if_pos k1, if_pos k1]
      cases KeyGen1.unmarshalBinary (G := G) (List.drop 5 data) <;> simp [Message.payload, Bind.bind, Outcome.bind, assign]
    by_cases k2 : h.type = MsgType.keyGen2
    · rw [if_neg k1, if_pos k2, if_neg k1, if_pos k2]
      cases KeyGen2.unmarshalBinary (List.drop 5 data) <;> simp [Message.payload, Bind.bind, Outcome.bind, assign]
    by_cases k3 : h.type = MsgType.sign1
    · rw [if_neg k1, if_neg k2, if_pos k3, if_neg k1, if_neg k2, if_pos k3]
      cases Sign1.unmarshalBinary (G := G) (List.drop 5 data) <;> simp [Message.payload, Bind.bind, Outcome.bind, assign]
    by_cases k4 : h.type = MsgType.sign2
    · rw [if_neg k1, if_neg k2, if_neg k3, if_pos k4, if_neg k1, if_neg k2, if_neg k3, if_pos k4]
      cases Sign2.unmarshalBinary (List.drop 5 data) <;> simp [Message.payload, Bind.bind, Outcome.bind, assign]
    · exfalso
      have := (Header.check_ok_iff _ _ _).mpr hv
      unfold Header.check at this
      simp [k1, k2, k3, k4] at this

/-- What is returned by decoding, and on success what is in the receiver, is the same for every receiver.  (Not so for `Message`:
`C21_stale_payload`; nor for `PublicKey`: `C87_publicKey`.) -/
theorem C87_fresh (data : Bytes) (ord : MapOrder) :
    Spec.Fresh (Header.unmarshalInto data) ∧ Spec.Fresh (KeyGen1.unmarshalInto (G := G) data) ∧ Spec.Fresh (KeyGen2.unmarshalInto data) ∧
    Spec.Fresh (Sign1.unmarshalInto (G := G) data) ∧ Spec.Fresh (Sign2.unmarshalInto data) ∧ Spec.Fresh (Schnorr.unmarshalInto data) ∧
    Spec.Fresh (Exponent.unmarshalInto (G := G) data) ∧ Spec.Fresh (Signature.unmarshalInto (G := G) data) ∧
    Spec.Fresh (SecretShare.unmarshalInto (G := G) data) ∧ Spec.Fresh (SecretShare.readInto (G := G) data) ∧
    Spec.Fresh (Public.readInto (G := G) ord data) ∧ Spec.Fresh (ID.unmarshalInto data) ∧ Spec.Fresh (elementInto (G := G) data) :=
  ⟨decodes_fresh (C87_header data).1, decodes_fresh (C87_keygen1_refines data), decodes_fresh (C87_keygen2 data).1,
    decodes_fresh (C87_sign1_decodes data), decodes_fresh (C87_sign2 data).1, decodes_fresh (C87_schnorr_decodes data),
    decodes_fresh (C87_exponent_decodes data), decodes_fresh (C87_signature_decodes data), decodes_fresh (C87_share_decodes data),
    decodes_fresh (C87_shareJSON_decodes data), decodes_fresh (C87_public ord data).1, decodes_fresh (C87_id data).1,
    decodes_fresh (C87_element data).1⟩

/-- The bytes of `ℓ`, the smallest number that is no canonical scalar. -/
def Demo.ell : Bytes := [0xed, 0xd3, 0xf5, 0x5c, 0x1a, 0x63, 0x12, 0x58, 0xd6, 0x9c, 0xf7, 0xa2, 0xde, 0xf9, 0xde, 0x14,
  0, 0, 0, 0, 0, 0, 0, 0, 0, 0, 0, 0, 0, 0, 0, 0x10]

theorem Demo.ell_refused : Scalar.setCanonicalBytes Demo.ell = none := by decide +kernel

/-- So these three do not leave their receiver alone in general. -/
theorem C87_not_intact :
    ¬ (∀ data, Spec.Intact (Signature.unmarshalInto (G := G) data)) ∧ ¬ (∀ data, Spec.Intact (SecretShare.unmarshalInto (G := G) data)) ∧
    ¬ (∀ data, Spec.Intact (Schnorr.unmarshalInto data)) := by
  refine ⟨fun h => ?_, fun h => ?_, fun h => ?_⟩
  · have h1 := C87_signature_mixed (base : G) Demo.ell (by decide) Demo.ell_refused ⟨0, 0⟩
    have h2 := h _ _ _ _ h1
    injection h2 with h3
    exact base_ne_zero' h3
  · have h1 := C87_share_mixed (G := G) 7 Demo.ell (by decide) Demo.ell_refused ⟨3, 0, 0⟩
    have h2 := h _ _ _ _ h1
    injection h2 with h3
    exact absurd h3 (by decide)
  · have h1 : Schnorr.unmarshalInto (Scalar.bytes 1 ++ Demo.ell) ⟨0, 0⟩ = (⟨1, 0⟩, .err .nonCanonical) := by
      have hl : (Scalar.bytes 1).length = 32 := by decide +kernel
      unfold Schnorr.unmarshalInto
      rw [Outcome.failIf_neg (by simp [hl, Demo.ell]), call_ok_bind, sliceTo_append hl, call_ok_bind, sliceFrom_append hl]
      simp [Demo.ell_refused, show Scalar.setCanonicalBytes (Scalar.bytes 1) = some 1 by decide +kernel]
    have h2 := h _ _ _ _ h1
    injection h2 with h3
    exact absurd h3 (by decide)

/-- A share of party 3 after the texts `null` and `{"id":7}`, both refused: the IDs are 0 and 7, the secret is still that of party 3. -/
example : SecretShare.readInto [110, 117, 108, 108] (⟨3, 5, base⟩ : SecretShare Toy) = (⟨0, 5, base⟩, .err .nonCanonical) ∧
    SecretShare.readInto [123, 34, 105, 100, 34, 58, 55, 125] (⟨3, 5, base⟩ : SecretShare Toy) = (⟨7, 5, base⟩, .err .nonCanonical) := by
  refine ⟨?_, ?_⟩
  · have h : Json.parse [110, 117, 108, 108] = some .null := by rfl
    unfold SecretShare.readInto
    rw [h]
    rfl
  · have h : Json.parse [123, 34, 105, 100, 34, 58, 55, 125] = some (.obj [([105, 100], .num [55])]) := by rfl
    unfold SecretShare.readInto
    rw [h]
    have h2 : Json.secretMembers [([105, 100], .num [55])] ⟨0, []⟩ false = (⟨7, []⟩, false) := by rfl
    dsimp only
    rw [h2]
    rfl

/-- In the group of the code, 32 bytes `0xff` are no point. -/
theorem Demo.ff_refused : RGroup.setCanonicalBytes (G := Curve.RG) (List.replicate 32 0xff) = none := by decide +kernel

/-- A polynomial of degree 1 whose second point is refused: the receiver is left with one point and one nil pointer, and writing it panics;
what it held before is gone. -/
example (old : Exponent.Ptrs Curve.RG) :
    let data := ID.bytes 1 ++ (RGroup.bytes (base : Curve.RG) ++ List.replicate 32 0xff)
    Exponent.unmarshalInto data old = ([some base, none], .err .nonCanonical) ∧
      Exponent.ptrBytesAppend [some (base : Curve.RG), none] [] = .panic := by
  refine ⟨?_, rfl⟩
  have hb : (RGroup.bytes (base : Curve.RG)).length = 32 := RGroup.bytes_length _
  have hl : (ID.bytes 1 ++ (RGroup.bytes (base : Curve.RG) ++ List.replicate 32 0xff)).length = Spec.exponentLength 1 := by
    simp [hb, ID.bytes, be16_length, Spec.exponentLength]
  unfold Exponent.unmarshalInto
  rw [fromBytes_bytes_append, call_ok_bind, sliceFrom_append (by rfl), call_ok_bind]
  have h2 : ((1 : ID) + 1).toNat = 2 := by decide
  simp only [List.length_append, hb, List.length_replicate, h2]
  simp only [Outcome.failIf_neg (show ¬ ((32 + 32) % 32 ≠ 0) by decide), Outcome.failIf_neg (show ¬ (32 + 32 ≠ 2 * 32) by decide),
    call_ok_bind, assign_bind]
  unfold Exponent.decodeInto
  rw [sliceTo_append hb, sliceFrom_append hb]
  simp only [call_ok_bind, assign_bind, RGroup.set_bytes, Outcome.orErr_some]
  unfold Exponent.decodeInto
  rw [sliceTo_ok (by simp)]
  simp only [call_ok_bind, assign_bind, List.take_replicate, Nat.min_self, Demo.ff_refused, Outcome.orErr_none, call_err_bind]
  rfl

/-- The same for the nonce commitments of a signer: a good first half and a bad second half. -/
example (D E : Curve.RG) :
    Sign1.unmarshalInto (RGroup.bytes D ++ List.replicate 32 0xff) ⟨E, E⟩ = (⟨D, E⟩, .err .nonCanonical) := by
  have hl : (RGroup.bytes D).length = 32 := RGroup.bytes_length D
  unfold Sign1.unmarshalInto
  rw [Outcome.failIf_neg (by simp [hl]), call_ok_bind, sliceTo_append hl, call_ok_bind, sliceFrom_append hl]
  simp only [call_ok_bind, assign_bind, RGroup.set_bytes, Outcome.orErr_some, Demo.ff_refused, Outcome.orErr_none, call_err_bind]

end Verif.Props
