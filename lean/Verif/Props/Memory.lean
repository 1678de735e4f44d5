import Verif.Lemmas.Memory
import Verif.Lemmas.Messages
import Verif.Props.Marshalling

/-!
C103 to C107: the functions that append to slices, copy them or write into them, in memory.
-/

namespace Verif.Props

open Verif.Spec Verif.Memory Mem

variable {G : Type} [RGroup G]

/-! ### Appending -/

variable (grow : Nat → Nat → Nat) {μ : Mem UInt8} {s : Slice}

theorem schnorr_appended (p : Schnorr) (h : μ.Wf s) :
    Appended μ s p.marshalBinary (p.bytesAppendMem grow s μ).2 (p.bytesAppendMem grow s μ).1 := by
  have h₁ := appended grow p.S.bytes h
  have h₂ := appended grow p.R.bytes h₁.wf
  exact h₁.append h₂

theorem sign1_appended (p : Sign1 G) (h : μ.Wf s) :
    Appended μ s p.marshalBinary (p.bytesAppendMem grow s μ).2 (p.bytesAppendMem grow s μ).1 := by
  have h₁ := appended grow (RGroup.bytes p.Di) h
  have h₂ := appended grow (RGroup.bytes p.Ei) h₁.wf
  exact h₁.append h₂

theorem signature_appended (p : Signature G) (h : μ.Wf s) :
    Appended μ s p.marshalBinary (p.bytesAppendMem grow s μ).2 (p.bytesAppendMem grow s μ).1 := by
  have h₁ := appended grow (RGroup.bytes p.R) h
  have h₂ := appended grow p.S.bytes h₁.wf
  exact h₁.append h₂

theorem sign2_appended (p : Sign2) (h : μ.Wf s) :
    Appended μ s p.marshalBinary (p.bytesAppendMem grow s μ).2 (p.bytesAppendMem grow s μ).1 := appended grow p.Zi.bytes h

theorem keyGen2_appended (p : KeyGen2) (h : μ.Wf s) :
    Appended μ s p.marshalBinary (p.bytesAppendMem grow s μ).2 (p.bytesAppendMem grow s μ).1 := appended grow p.share.bytes h

theorem appendLoop_appended (cs : List G) : ∀ {μ : Mem UInt8} {s : Slice}, μ.Wf s →
    Appended μ s (cs.map RGroup.bytes).flatten (Exponent.appendLoopMem grow cs s μ).2 (Exponent.appendLoopMem grow cs s μ).1 := by
  induction cs with
  | nil => intro μ s h; exact Appended.nil h
  | cons c cs ih =>
    intro μ s h
    have h₁ := appended grow (RGroup.bytes c) h
    exact h₁.append (ih h₁.wf)

theorem foldl_append (cs : List G) : ∀ e : Bytes,
    cs.foldl (fun acc c => acc ++ RGroup.bytes c) e = e ++ (cs.map RGroup.bytes).flatten := by
  induction cs with
  | nil => simp
  | cons c cs ih => intro e; simp [ih]

theorem exponent_append (p : Exponent G) (e : Bytes) : p.bytesAppend e = e ++ p.marshalBinary := by
  simp [Exponent.marshalBinary, Exponent.bytesAppend, foldl_append]

theorem exponent_appended (p : Exponent G) (h : μ.Wf s) :
    Appended μ s p.marshalBinary (p.bytesAppendMem grow s μ).2 (p.bytesAppendMem grow s μ).1 := by
  have h₁ := appended grow (ID.bytes p.degree) h
  have h₂ := h₁.append (appendLoop_appended grow p h₁.wf)
  simp only [Exponent.marshalBinary, Exponent.bytesAppend, foldl_append]
  exact h₂

theorem keyGen1_appended (p : KeyGen1 G) (h : μ.Wf s) :
    Appended μ s p.marshalBinary (p.bytesAppendMem grow s μ).2 (p.bytesAppendMem grow s μ).1 := by
  have h₁ := schnorr_appended grow p.proof h
  have h₂ := h₁.append (exponent_appended grow p.commitments h₁.wf)
  rw [show p.marshalBinary = p.proof.marshalBinary ++ p.commitments.marshalBinary from exponent_append _ _]
  exact h₂

/-- C103: appending the signature, and each of the four payloads and their parts, to a slice. -/
theorem C103_append (h : μ.Wf s) :
    (∀ p : Schnorr, Appended μ s p.marshalBinary (p.bytesAppendMem grow s μ).2 (p.bytesAppendMem grow s μ).1) ∧
    (∀ p : Exponent G, Appended μ s p.marshalBinary (p.bytesAppendMem grow s μ).2 (p.bytesAppendMem grow s μ).1) ∧
    (∀ p : KeyGen1 G, Appended μ s p.marshalBinary (p.bytesAppendMem grow s μ).2 (p.bytesAppendMem grow s μ).1) ∧
    (∀ p : KeyGen2, Appended μ s p.marshalBinary (p.bytesAppendMem grow s μ).2 (p.bytesAppendMem grow s μ).1) ∧
    (∀ p : Sign1 G, Appended μ s p.marshalBinary (p.bytesAppendMem grow s μ).2 (p.bytesAppendMem grow s μ).1) ∧
    (∀ p : Sign2, Appended μ s p.marshalBinary (p.bytesAppendMem grow s μ).2 (p.bytesAppendMem grow s μ).1) ∧
    (∀ p : Signature G, Appended μ s p.marshalBinary (p.bytesAppendMem grow s μ).2 (p.bytesAppendMem grow s μ).1) :=
  ⟨fun p => schnorr_appended grow p h, fun p => exponent_appended grow p h, fun p => keyGen1_appended grow p h,
    fun p => keyGen2_appended grow p h, fun p => sign1_appended grow p h, fun p => sign2_appended grow p h,
    fun p => signature_appended grow p h⟩

/-- C103: the elements of the result are what the model without memory says. -/
theorem C103_values (h : μ.Wf s) :
    (∀ p : Schnorr, (p.bytesAppendMem grow s μ).2.read (p.bytesAppendMem grow s μ).1 = p.bytesAppend (μ.read s)) ∧
    (∀ p : Exponent G, (p.bytesAppendMem grow s μ).2.read (p.bytesAppendMem grow s μ).1 = p.bytesAppend (μ.read s)) ∧
    (∀ p : KeyGen1 G, (p.bytesAppendMem grow s μ).2.read (p.bytesAppendMem grow s μ).1 = p.bytesAppend (μ.read s)) ∧
    (∀ p : KeyGen2, (p.bytesAppendMem grow s μ).2.read (p.bytesAppendMem grow s μ).1 = p.bytesAppend (μ.read s)) ∧
    (∀ p : Sign1 G, (p.bytesAppendMem grow s μ).2.read (p.bytesAppendMem grow s μ).1 = p.bytesAppend (μ.read s)) ∧
    (∀ p : Sign2, (p.bytesAppendMem grow s μ).2.read (p.bytesAppendMem grow s μ).1 = p.bytesAppend (μ.read s)) ∧
    (∀ p : Signature G, (p.bytesAppendMem grow s μ).2.read (p.bytesAppendMem grow s μ).1 = p.bytesAppend (μ.read s)) := by
  refine ⟨fun p => ?_, fun p => ?_, fun p => ?_, fun p => ?_, fun p => ?_, fun p => ?_, fun p => ?_⟩
  · rw [(schnorr_appended grow p h).read]; simp [Schnorr.marshalBinary, Schnorr.bytesAppend]
  · rw [(exponent_appended grow p h).read, exponent_append]
  · rw [(keyGen1_appended grow p h).read]
    simp [KeyGen1.marshalBinary, KeyGen1.bytesAppend, exponent_append, Schnorr.bytesAppend]
  · rw [(keyGen2_appended grow p h).read]; simp [KeyGen2.marshalBinary, KeyGen2.bytesAppend]
  · rw [(sign1_appended grow p h).read]; simp [Sign1.marshalBinary, Sign1.bytesAppend]
  · rw [(sign2_appended grow p h).read]; simp [Sign2.marshalBinary, Sign2.bytesAppend]
  · rw [(signature_appended grow p h).read]; simp [Signature.marshalBinary, Signature.bytesAppend]

theorem header_appended (hd : Header) (h : μ.Wf s) (hc : Header.check hd.type hd.fromID hd.toID = .ok ()) :
    ∃ s' μ', hd.bytesAppendMem grow s μ = (.ok s', μ') ∧ Appended μ s ([hd.type] ++ hd.fromID.bytes ++ hd.toID.bytes) μ' s' := by
  have h₁ := appended grow [hd.type] h
  have h₂ := appended grow hd.fromID.bytes h₁.wf
  have h₃ := appended grow hd.toID.bytes h₂.wf
  refine ⟨_, _, ?_, (h₁.append h₂).append h₃⟩
  unfold Header.bytesAppendMem
  rw [hc]
  rfl

/-- C103: appending a header; on an error nothing is written. -/
theorem C103_header (hd : Header) (h : μ.Wf s) :
    (∀ b, hd.marshalBinary = .ok b → ∃ s' μ', hd.bytesAppendMem grow s μ = (.ok s', μ') ∧ Appended μ s b μ' s' ∧
      hd.bytesAppend (μ.read s) = .ok (μ'.read s')) ∧
    (∀ e, hd.marshalBinary = .err e → hd.bytesAppendMem grow s μ = (.err e, μ) ∧ hd.bytesAppend (μ.read s) = .err e) ∧
    hd.marshalBinary ≠ .panic := by
  unfold Header.marshalBinary Header.bytesAppend
  cases hc : Header.check hd.type hd.fromID hd.toID with
  | ok _ =>
    obtain ⟨s', μ', hr, ha⟩ := header_appended grow hd h hc
    refine ⟨fun b hb => ?_, fun e he => (nomatch he), fun he => (nomatch he)⟩
    cases hb
    refine ⟨s', μ', hr, ha, ?_⟩
    rw [ha.read]
    simp [pure, bind, Outcome.bind]
  | err e =>
    refine ⟨fun b hb => (nomatch hb), fun e he => ?_, fun he => (nomatch he)⟩
    cases he
    refine ⟨?_, rfl⟩
    unfold Header.bytesAppendMem
    rw [hc]
    rfl
  | panic =>
    exfalso
    revert hc
    unfold Header.check Outcome.failIf
    split_ifs <;> intro hc <;> cases hc

/-- C103: appending a message.  On an error at most the header was written, behind the end of the slice. -/
theorem C103_message (m : Message G) (h : μ.Wf s) :
    (∀ b, m.marshalBinary = .ok b → ∃ s' μ', m.bytesAppendMem grow s μ = (.ok s', μ') ∧ Appended μ s b μ' s' ∧
      m.bytesAppend (μ.read s) = .ok (μ'.read s')) ∧
    (∀ e, m.marshalBinary = .err e → ∃ μ', m.bytesAppendMem grow s μ = (.err e, μ') ∧ Keeps μ μ' (Behind s 5) ∧
      m.bytesAppend (μ.read s) = .err e) ∧
    m.marshalBinary ≠ .panic := by
  obtain ⟨ho, he, hp⟩ := C103_header grow m.header h
  unfold Header.marshalBinary at ho he hp
  unfold Message.marshalBinary Message.bytesAppend
  cases hb : m.header.bytesAppend [] with
  | panic => exact absurd hb hp
  | err e =>
    obtain ⟨hr, hv⟩ := he e hb
    refine ⟨fun b hb => (nomatch hb), fun e' he' => ?_, fun he => (nomatch he)⟩
    cases he'
    refine ⟨μ, ?_, Keeps.refl _ _, by rw [hv]; rfl⟩
    unfold Message.bytesAppendMem
    simp only [bind, StateT.bind, hr]
    rfl
  | ok b₁ =>
    obtain ⟨s₁, μ₁, hr, ha, hv⟩ := ho b₁ hb
    have hlen : b₁.length = 5 := by
      unfold Header.bytesAppend at hb
      cases hc : Header.check m.header.type m.header.fromID m.header.toID with
      | ok _ => rw [hc] at hb; cases hb; rfl
      | err e => rw [hc] at hb; cases hb
      | panic => rw [hc] at hb; cases hb
    have hkeep : Keeps μ μ₁ (Behind s 5) := hlen ▸ ha.keeps
    rw [hv, ha.read]
    unfold Message.bytesAppendMem
    simp only [bind, StateT.bind, hr, Outcome.bind]
    split_ifs
    · cases m.keyGen1 with
      | none => exact ⟨fun b hb => (nomatch hb), fun e he => by cases he; exact ⟨μ₁, rfl, hkeep, rfl⟩, fun he => (nomatch he)⟩
      | some p =>
        refine ⟨fun b hb => ?_, fun e he => (nomatch he), fun he => (nomatch he)⟩
        cases hb
        have h₂ := ha.append (keyGen1_appended grow p ha.wf)
        have e₀ : ∀ e : Bytes, p.bytesAppend e = e ++ p.marshalBinary := fun e => by
          simp [KeyGen1.marshalBinary, KeyGen1.bytesAppend, exponent_append, Schnorr.bytesAppend]
        rw [e₀]
        refine ⟨(p.bytesAppendMem grow s₁ μ₁).1, (p.bytesAppendMem grow s₁ μ₁).2, rfl, h₂, ?_⟩
        show Outcome.ok (p.bytesAppend (μ.read s ++ b₁)) = _
        rw [e₀, h₂.read, List.append_assoc]
    · cases m.keyGen2 with
      | none => exact ⟨fun b hb => (nomatch hb), fun e he => by cases he; exact ⟨μ₁, rfl, hkeep, rfl⟩, fun he => (nomatch he)⟩
      | some p =>
        refine ⟨fun b hb => ?_, fun e he => (nomatch he), fun he => (nomatch he)⟩
        cases hb
        have h₂ := ha.append (keyGen2_appended grow p ha.wf)
        rw [KeyGen2.bytesAppend_eq]
        refine ⟨(p.bytesAppendMem grow s₁ μ₁).1, (p.bytesAppendMem grow s₁ μ₁).2, rfl, h₂, ?_⟩
        show Outcome.ok (p.bytesAppend (μ.read s ++ b₁)) = _
        rw [KeyGen2.bytesAppend_eq, h₂.read, List.append_assoc]
    · cases m.sign1 with
      | none => exact ⟨fun b hb => (nomatch hb), fun e he => by cases he; exact ⟨μ₁, rfl, hkeep, rfl⟩, fun he => (nomatch he)⟩
      | some p =>
        refine ⟨fun b hb => ?_, fun e he => (nomatch he), fun he => (nomatch he)⟩
        cases hb
        have h₂ := ha.append (sign1_appended grow p ha.wf)
        have e₀ : ∀ e : Bytes, p.bytesAppend e = e ++ p.marshalBinary := fun e => by
          simp [Sign1.marshalBinary, Sign1.bytesAppend]
        rw [e₀]
        refine ⟨(p.bytesAppendMem grow s₁ μ₁).1, (p.bytesAppendMem grow s₁ μ₁).2, rfl, h₂, ?_⟩
        show Outcome.ok (p.bytesAppend (μ.read s ++ b₁)) = _
        rw [e₀, h₂.read, List.append_assoc]
    · cases m.sign2 with
      | none => exact ⟨fun b hb => (nomatch hb), fun e he => by cases he; exact ⟨μ₁, rfl, hkeep, rfl⟩, fun he => (nomatch he)⟩
      | some p =>
        refine ⟨fun b hb => ?_, fun e he => (nomatch he), fun he => (nomatch he)⟩
        cases hb
        have h₂ := ha.append (sign2_appended grow p ha.wf)
        rw [Sign2.bytesAppend_eq]
        refine ⟨(p.bytesAppendMem grow s₁ μ₁).1, (p.bytesAppendMem grow s₁ μ₁).2, rfl, h₂, ?_⟩
        show Outcome.ok (p.bytesAppend (μ.read s ++ b₁)) = _
        rw [Sign2.bytesAppend_eq, h₂.read, List.append_assoc]
    · exact ⟨fun b hb => (nomatch hb), fun e he => by cases he; exact ⟨μ₁, rfl, hkeep, rfl⟩, fun he => (nomatch he)⟩

/-- C103: whoever has a slice of memory that was there before, and that does not reach behind the end of the slice appended to, sees no change.
In particular the slice appended to keeps its elements. -/
theorem C103_others {vs : List UInt8} {μ' : Mem UInt8} {s' t : Slice} (ha : Appended μ s vs μ' s') (ht : μ.Wf t)
    (hd : t.arr ≠ s.arr ∨ t.off + t.len ≤ s.off + s.len ∨ s.off + s.cap ≤ t.off) : μ'.Wf t ∧ μ'.read t = μ.read t := by
  refine ⟨ha.keeps.wf ht, ha.keeps.read ht fun i h₁ h₂ hb => ?_⟩
  obtain ⟨e₁, e₂, e₃, e₄⟩ := hb
  rcases hd with hd | hd | hd
  · exact hd e₁
  · omega
  · omega

/-- C103: but two messages appended to the same slice with room end up in the same place: the slice returned first reads as the second message. -/
theorem C103_overwritten {vs ws : List UInt8} {μ₁ μ₂ : Mem UInt8} {s₁ s₂ : Slice} (h₁ : Appended μ s vs μ₁ s₁) (h₂ : Appended μ₁ s ws μ₂ s₂)
    (hs : μ.Wf s) (hl : vs.length = ws.length) (room : s.len + vs.length ≤ s.cap) : s₁ = s₂ ∧ μ₂.read s₁ = μ.read s ++ ws := by
  obtain ⟨a₁, a₂, a₃, _⟩ := h₁.room room
  obtain ⟨b₁, b₂, b₃, _⟩ := h₂.room (hl ▸ room)
  have e : s₁ = s₂ := by
    have l₁ := h₁.len
    have l₂ := h₂.len
    cases s₁; cases s₂
    simp only at *
    subst a₁ a₂ a₃ b₁ b₂ b₃
    simp [l₁, l₂, hl]
  refine ⟨e, ?_⟩
  rw [e, h₂.read, (C103_others h₁ hs (Or.inr (Or.inl (le_refl _)))).2]

/-! ### Marshalling -/

/-- C104: `MarshalBinary` of payloads, proofs, polynomials, shares and signatures, and `ToEd25519`: one allocation of exactly the size of the result. -/
theorem C104_marshal (μ : Mem UInt8) :
    (∀ p : Schnorr, Exact μ p.marshalBinary (p.marshalBinaryMem grow μ).2 (p.marshalBinaryMem grow μ).1) ∧
    (∀ p : Exponent G, Exact μ p.marshalBinary (p.marshalBinaryMem grow μ).2 (p.marshalBinaryMem grow μ).1) ∧
    (∀ p : KeyGen1 G, Exact μ p.marshalBinary (p.marshalBinaryMem grow μ).2 (p.marshalBinaryMem grow μ).1) ∧
    (∀ p : KeyGen2, Exact μ p.marshalBinary (p.marshalBinaryMem grow μ).2 (p.marshalBinaryMem grow μ).1) ∧
    (∀ p : Sign1 G, Exact μ p.marshalBinary (p.marshalBinaryMem grow μ).2 (p.marshalBinaryMem grow μ).1) ∧
    (∀ p : Sign2, Exact μ p.marshalBinary (p.marshalBinaryMem grow μ).2 (p.marshalBinaryMem grow μ).1) ∧
    (∀ p : Signature G, Exact μ p.marshalBinary (p.marshalBinaryMem grow μ).2 (p.marshalBinaryMem grow μ).1) ∧
    (∀ p : Signature G, Exact μ p.toEd25519 (p.toEd25519Mem grow μ).2 (p.toEd25519Mem grow μ).1) ∧
    (∀ p : SecretShare G, Exact μ p.marshalBinary (p.marshalBinaryMem grow μ).2 (p.marshalBinaryMem grow μ).1) := by
  have w : ∀ n, (make 0 n μ).2.Wf (make 0 n μ).1 := fun n => make_wf μ (Nat.zero_le n)
  refine ⟨fun p => ?_, fun p => ?_, fun p => ?_, fun p => ?_, fun p => ?_, fun p => ?_, fun p => ?_, fun p => ?_, fun p => ?_⟩
  · have h := schnorr_appended grow p (w 64)
    rw [show p.marshalBinaryMem grow μ = p.bytesAppendMem grow (make 0 64 μ).1 (make 0 64 μ).2 from rfl]
    exact exact_of_make (Schnorr.marshal_length p) h
  · refine exact_of_make (n := p.size) ?_ (exponent_appended grow p (w p.size))
    simp only [Exponent.marshalBinary, Exponent.bytesAppend, foldl_append, List.nil_append, List.length_append,
      Exponent.flatten_bytes_length]
    rfl
  · have h := keyGen1_appended grow p (w p.size)
    rw [show p.marshalBinaryMem grow μ = p.bytesAppendMem grow (make 0 p.size μ).1 (make 0 p.size μ).2 from rfl]
    exact exact_of_make (KeyGen1.marshal_length p) h
  · have h := keyGen2_appended grow p (w 32)
    rw [show p.marshalBinaryMem grow μ = p.bytesAppendMem grow (make 0 32 μ).1 (make 0 32 μ).2 from rfl]
    exact exact_of_make (KeyGen2.marshal_length p) h
  · have h := sign1_appended grow p (w 64)
    rw [show p.marshalBinaryMem grow μ = p.bytesAppendMem grow (make 0 64 μ).1 (make 0 64 μ).2 from rfl]
    exact exact_of_make (Sign1.marshal_length p) h
  · have h := sign2_appended grow p (w 32)
    rw [show p.marshalBinaryMem grow μ = p.bytesAppendMem grow (make 0 32 μ).1 (make 0 32 μ).2 from rfl]
    exact exact_of_make (Sign2.marshal_length p) h
  · refine exact_of_make (n := 64) ?_ (signature_appended grow p (w 64))
    simp [Signature.marshalBinary, Signature.bytesAppend, RGroup.bytes_length, Scalar.bytes_length]
  · have h₁ := appended grow (RGroup.bytesEd25519 p.R) (w 64)
    refine exact_of_make (n := 64) ?_ (h₁.append (appended grow p.S.bytes h₁.wf))
    simp [Signature.toEd25519, RGroup.bytesEd25519_length, Scalar.bytes_length]
  · have h₁ := appended grow p.id.bytes (w (2 + 32))
    refine exact_of_make (n := 2 + 32) ?_ (h₁.append (appended grow p.secret.bytes h₁.wf))
    rw [SecretShare.marshalBinary, List.length_append, Scalar.bytes_length]; rfl

/-- C104: the same for a header and a message, if they can be written at all; otherwise the error, with nothing written that was there before. -/
theorem C104_message (m : Message G) (μ : Mem UInt8) :
    (∀ b, m.marshalBinary = .ok b → ∃ s' μ', m.marshalBinaryMem grow μ = (.ok s', μ') ∧ Exact μ b μ' s') ∧
    (∀ e, m.marshalBinary = .err e → ∃ μ', m.marshalBinaryMem grow μ = (.err e, μ') ∧ Keeps μ μ' fun _ _ => False) := by
  have w := make_wf μ (Nat.zero_le m.size)
  obtain ⟨ho, he, -⟩ := C103_message grow m w
  refine ⟨fun b hb => ?_, fun e hb => ?_⟩
  · obtain ⟨s', μ', hr, ha, -⟩ := ho b hb
    exact ⟨s', μ', hr, exact_of_make (message_size m b hb).symm ha⟩
  · obtain ⟨μ', hr, hk, -⟩ := he e hb
    refine ⟨μ', hr, Keeps.trans (keeps_allocate μ _ _) hk (fun _ _ h => h) fun a i ha hi => ?_⟩
    have := hi.1
    simp only [make] at this
    omega

theorem C104_header (hd : Header) (μ : Mem UInt8) :
    (∀ b, hd.marshalBinary = .ok b → ∃ s' μ', hd.marshalBinaryMem grow μ = (.ok s', μ') ∧ Exact μ b μ' s') ∧
    (∀ e, hd.marshalBinary = .err e → ∃ μ', hd.marshalBinaryMem grow μ = (.err e, μ') ∧ Keeps μ μ' fun _ _ => False) := by
  have w := make_wf μ (Nat.zero_le headerSize)
  obtain ⟨ho, he, -⟩ := C103_header grow hd w
  refine ⟨fun b hb => ?_, fun e hb => ?_⟩
  · obtain ⟨s', μ', hr, ha, -⟩ := ho b hb
    refine ⟨s', μ', hr, exact_of_make ?_ ha⟩
    unfold Header.marshalBinary Header.bytesAppend at hb
    cases hc : Header.check hd.type hd.fromID hd.toID with
    | ok _ => rw [hc] at hb; cases hb; rfl
    | err e => rw [hc] at hb; cases hb
    | panic => rw [hc] at hb; cases hb
  · exact ⟨_, (he e hb).1, keeps_allocate μ _ _⟩

/-- C104: the challenge is that of the bytes of the message when it is called, and nothing allocated before is written to. -/
theorem C104_challenge (sha : Sha512) (R A : G) (msg : Slice) (μ : Mem UInt8) (h : μ.Wf msg) :
    (computeChallengeMem sha grow R A msg μ).1 = computeChallenge sha R A (μ.read msg) ∧
    Keeps μ (computeChallengeMem sha grow R A msg μ).2 fun _ _ => False := by
  have w := make_wf μ (Nat.zero_le (64 + msg.len))
  have hrun : ∀ x y z, append grow (make 0 (64 + msg.len) μ).1 (RGroup.bytesEd25519 R) (make 0 (64 + msg.len) μ).2 = x →
      append grow x.1 (PublicKey.toEd25519 A) x.2 = y → append grow y.1 (y.2.read msg) y.2 = z →
      computeChallengeMem sha grow R A msg μ =
        ((match Scalar.setUniformBytes 0 (sha.sum (z.2.read z.1)) with
          | (_, true) => .panic
          | (s, false) => .ok s), z.2) := by
    rintro x y z hx hy hz
    unfold computeChallengeMem
    simp only [run_bind, run_get, hx, hy, hz]
    rcases Scalar.setUniformBytes 0 (sha.sum (z.2.read z.1)) with ⟨a, _ | _⟩ <;> rfl
  have h₁ := appended grow (RGroup.bytesEd25519 R) w
  have h₂ := h₁.append (appended grow (PublicKey.toEd25519 A) h₁.wf)
  have hm := (fresh_of_make h₂).keeps.read h fun _ _ _ h => h
  have h₃ := h₂.append (appended grow (μ.read msg) h₂.wf)
  have f₃ := fresh_of_make h₃
  rw [hrun _ _ _ rfl rfl rfl, hm]
  refine ⟨?_, f₃.keeps⟩
  rw [f₃.read]
  rfl

/-! ### Lists of IDs -/

theorem copy_all {α : Type} [Inhabited α] (ν : Mem α) (vs : List α) :
    (((make vs.length vs.length ν).2.write (make vs.length vs.length ν).1 0 vs).read (make vs.length vs.length ν).1) = vs := by
  rw [read_write 0 vs (make_wf ν (le_refl _)) (by simp [make])]
  have hl := read_length (make_wf ν (le_refl vs.length))
  rw [List.drop_eq_nil_of_le (by rw [hl]; simp [make])]
  simp

theorem copy_run (ν : Mem ID) (ids : Slice) (h : ν.Wf ids) : IDSlice.copyMem ids ν =
    ((make ids.len ids.len ν).1, (make ids.len ids.len ν).2.write (make ids.len ids.len ν).1 0 (ν.read ids)) := by
  unfold IDSlice.copyMem
  have hk := keeps_allocate ν (List.replicate ids.len (default : ID)) fun _ _ => False
  have hr : (make ids.len ids.len ν).2.read ids = ν.read ids := hk.read h fun _ _ _ h => h
  simp only [run_bind, run_get, Mem.copy, hr, run_pure]
  rw [List.take_of_length_le]
  rw [read_length h]; simp [make]

/-- C105: `Copy` allocates a new array, with the same elements, and writes nowhere else. -/
theorem C105_copy (ν : Mem ID) (ids : Slice) (h : ν.Wf ids) :
    Exact ν (ν.read ids) (IDSlice.copyMem ids ν).2 (IDSlice.copyMem ids ν).1 := by
  have hl := read_length h
  rw [copy_run ν ids h]
  have w := make_wf ν (le_refl ids.len)
  have hk := keeps_write 0 (ν.read ids) w (by simp [make, hl])
  refine ⟨⟨hk.wf w, ?_, le_refl _, Keeps.trans (keeps_allocate ν _ _) hk (fun _ _ h => h) fun a i ha hi => ?_⟩, rfl, by simp [make, hl]⟩
  · have := copy_all ν (ν.read ids)
    rw [hl] at this
    exact this
  · have := hi.1
    simp only [make] at this
    omega

/-- C105: `NewIDSlice` gives the IDs in ascending order in a new array; the list of the caller stays as it was. -/
theorem C105_new (ν : Mem ID) (ids : Slice) (h : ν.Wf ids) :
    Exact ν (IDSlice.new (ν.read ids)) (IDSlice.newMem ids ν).2 (IDSlice.newMem ids ν).1 ∧
    (IDSlice.newMem ids ν).2.read ids = ν.read ids := by
  have hc := C105_copy ν ids h
  have hl := read_length h
  have hcl : (IDSlice.copyMem ids ν).1.len = ids.len := by rw [copy_run ν ids h]; rfl
  have hcc : (IDSlice.copyMem ids ν).1.cap = ids.len := hc.full.trans hl
  have hrun : IDSlice.newMem ids ν = ((IDSlice.copyMem ids ν).1, (IDSlice.copyMem ids ν).2.write (IDSlice.copyMem ids ν).1 0
      (IDSlice.new (ν.read ids))) := by
    unfold IDSlice.newMem IDSlice.sortMem
    simp only [run_bind, run_get, Mem.copy, run_pure, hc.read]
    rw [List.take_of_length_le]
    · rfl
    · rw [List.length_insertionSort, hl, hcl]; omega
  have hnl : (IDSlice.new (ν.read ids)).length = ids.len := by
    unfold IDSlice.new IDSlice.copy; rw [List.length_insertionSort, hl]
  have hk := keeps_write 0 (IDSlice.new (ν.read ids)) hc.wf (by rw [hnl, hcc]; omega)
  rw [hrun]
  have hkeep : Keeps ν ((IDSlice.copyMem ids ν).2.write (IDSlice.copyMem ids ν).1 0 (IDSlice.new (ν.read ids))) fun _ _ => False :=
    Keeps.trans hc.keeps hk (fun _ _ h => h) fun a i ha hi => by
      have := hi.1
      have := hc.new
      omega
  refine ⟨⟨⟨hk.wf hc.wf, ?_, hc.new, hkeep⟩, hc.once, hcc.trans hnl.symm⟩, hkeep.read h fun _ _ _ h => h⟩
  rw [read_write 0 _ hc.wf (by rw [hnl, hcl]; omega), List.drop_eq_nil_of_le]
  · simp
  · rw [read_length hc.wf, hcl, hnl]; omega

/-! ### The buffer of the binding factors -/

theorem rhoBuffer_appended (parties : GoMap (Sign.Signer G)) (ids : List ID) : ∀ {μ : Mem UInt8} {s : Slice} (_ : μ.Wf s),
    (∀ b, Sign.rhoBufferLoop parties ids (μ.read s) = .ok b → ∃ s' μ' vs, Sign.rhoBufferLoopMem grow parties ids s μ = (.ok s', μ') ∧
      Appended μ s vs μ' s' ∧ b = μ.read s ++ vs) ∧
    (∀ e, Sign.rhoBufferLoop parties ids (μ.read s) ≠ .err e) ∧
    (Sign.rhoBufferLoop parties ids (μ.read s) = .panic → (Sign.rhoBufferLoopMem grow parties ids s μ).1 = .panic) := by
  induction ids with
  | nil =>
    intro μ s h
    refine ⟨fun b hb => ?_, fun e he => (nomatch he), fun he => (nomatch he)⟩
    cases hb
    exact ⟨s, μ, [], rfl, Appended.nil h, by simp⟩
  | cons id ids ih =>
    intro μ s h
    unfold Sign.rhoBufferLoop Sign.rhoBufferLoopMem
    cases parties.get? id with
    | none => exact ⟨fun b hb => (nomatch hb), fun e he => (nomatch he), fun _ => rfl⟩
    | some q =>
      have h₁ := appended grow id.bytes h
      rcases hD : q.Di with _ | D
      · refine ⟨fun b hb => ?_, fun e he => ?_, fun _ => ?_⟩
        · simp [Outcome.deref, hD, bind, Outcome.bind] at hb
        · simp [Outcome.deref, hD, bind, Outcome.bind] at he
        · simp only [run_bind, hD]; rfl
      · have h₂ := h₁.append (appended grow (RGroup.bytes D) h₁.wf)
        rcases hE : q.Ei with _ | E
        · refine ⟨fun b hb => ?_, fun e he => ?_, fun _ => ?_⟩
          · simp [Outcome.deref, hD, hE, bind, Outcome.bind] at hb
          · simp [Outcome.deref, hD, hE, bind, Outcome.bind] at he
          · simp only [run_bind, hD, hE]; rfl
        · have h₃ := h₂.append (appended grow (RGroup.bytes E) h₂.wf)
          obtain ⟨i₁, i₂, i₃⟩ := ih h₃.wf
          have ev : (Outcome.deref (some q) >>= fun otherParty => Outcome.deref otherParty.Di >>= fun D =>
              Outcome.deref otherParty.Ei >>= fun E =>
                Sign.rhoBufferLoop parties ids (μ.read s ++ id.bytes ++ RGroup.bytes D ++ RGroup.bytes E) : GoRes Bytes) =
              Sign.rhoBufferLoop parties ids (μ.read s ++ (id.bytes ++ RGroup.bytes D ++ RGroup.bytes E)) := by
            simp [Outcome.deref, hD, hE, bind, Outcome.bind]
          rw [ev, ← h₃.read]
          simp only [run_bind, hD, hE]
          refine ⟨fun b hb => ?_, i₂, i₃⟩
          obtain ⟨s', μ', vs, hr, ha, hv⟩ := i₁ b hb
          refine ⟨s', μ', _, hr, h₃.append ha, ?_⟩
          rw [hv, h₃.read, List.append_assoc]

/-- The loop that hashes, run in memory. -/
theorem rhoLoop_run (sha : Sha512) (buffer : Slice) (ids : List ID) : ∀ (parties : GoMap (Sign.Signer G)) {μ : Mem UInt8}, μ.Wf buffer →
    14 ≤ buffer.len →
    (Sign.rhoLoopMem sha buffer ids parties μ).1 = Sign.rhoLoop sha ids (μ.read buffer) parties ∧
    Keeps μ (Sign.rhoLoopMem sha buffer ids parties μ).2 fun a i => a = buffer.arr ∧ buffer.off + 12 ≤ i ∧ i < buffer.off + 14 := by
  induction ids with
  | nil => exact fun parties μ _ _ => ⟨rfl, Keeps.refl _ _⟩
  | cons id ids ih =>
    intro parties μ h hl
    have hc := h.len
    have e : (id.bytes.take (buffer.len - Sign.hashDomainSeparation.length)) = id.bytes :=
      List.take_of_length_le (show 2 ≤ buffer.len - 12 by omega)
    have hk := keeps_write 12 id.bytes h (show 12 + 2 ≤ buffer.cap by omega)
    have hr : (μ.write buffer 12 id.bytes).read buffer = Sign.overwriteID (μ.read buffer) id :=
      read_write 12 id.bytes h (show 12 + 2 ≤ buffer.len by omega)
    unfold Sign.rhoLoopMem Sign.rhoLoop
    simp only [run_bind, run_get, Mem.copy, e]
    rw [show Sign.hashDomainSeparation.length = 12 from rfl, hr]
    cases parties.get? id with
    | none => exact ⟨rfl, hk⟩
    | some q =>
      obtain ⟨i₁, i₂⟩ := ih (parties.set id { q with Pi := (Scalar.setUniformBytes q.Pi (sha.sum (Sign.overwriteID (μ.read buffer) id))).1 })
        (hk.wf h) hl
      rw [hr] at i₁
      exact ⟨i₁, Keeps.trans hk i₂ (fun _ _ h => h) fun _ _ _ h => h⟩

/-- C106: the binding factors computed in the buffer are those of the model without memory, whatever capacity the buffer starts with and however it
grows, and nothing allocated before is written to. -/
theorem C106_rhos (sha : Sha512) (r : Sign.Round G) (μ : Mem UInt8) :
    (Sign.computeRhosMem sha grow r μ).1 = Sign.computeRhos sha r ∧
    (Sign.computeRhos sha r ≠ .panic → Keeps μ (Sign.computeRhosMem sha grow r μ).2 fun _ _ => False) := by
  have w := make_wf μ (Nat.zero_le (Sign.sizeBuffer r.partyIDs.length))
  have h₁ := appended grow Sign.hashDomainSeparation w
  have h₂ := h₁.append (appended grow r.selfID.bytes h₁.wf)
  have h₃ := h₂.append (appended grow (sha.sum r.message) h₂.wf)
  obtain ⟨i₁, i₂, i₃⟩ := rhoBuffer_appended grow r.parties r.partyIDs h₃.wf
  have f := fresh_of_make h₃
  rw [f.read] at i₁ i₂ i₃
  unfold Sign.computeRhosMem Sign.computeRhos
  simp only [run_bind]
  cases hb : Sign.rhoBufferLoop r.parties r.partyIDs (Sign.hashDomainSeparation ++ r.selfID.bytes ++ sha.sum r.message) with
  | err e => exact absurd hb (i₂ e)
  | panic =>
    have := i₃ hb
    rw [this]
    exact ⟨rfl, fun h => absurd rfl h⟩
  | ok b =>
    obtain ⟨s', μ', vs, hr, ha, hv⟩ := i₁ b hb
    rw [hr]
    have ha' := h₃.append ha
    have f' := fresh_of_make ha'
    have hlen : 14 ≤ s'.len := by
      rw [ha'.len]
      simp only [List.length_append, sha.length_sum]
      show 14 ≤ 0 + (12 + 2 + 64 + vs.length)
      omega
    obtain ⟨j₁, j₂⟩ := rhoLoop_run sha s' r.partyIDs r.parties f'.wf hlen
    rw [f'.read, ← hv] at j₁
    refine ⟨j₁, fun _ => Keeps.trans f'.keeps j₂ (fun _ _ h => h) fun a i ha hi => ?_⟩
    have := f'.new
    have := hi.1
    omega

theorem rhoLoop_next (sha : Sha512) (buffer : Slice) (ids : List ID) : ∀ (parties : GoMap (Sign.Signer G)) (μ : Mem UInt8),
    (Sign.rhoLoopMem sha buffer ids parties μ).2.next = μ.next := by
  induction ids with
  | nil => exact fun _ _ => rfl
  | cons id ids ih =>
    intro parties μ
    unfold Sign.rhoLoopMem
    simp only [run_bind, run_get, Mem.copy]
    cases parties.get? id with
    | none => rfl
    | some q => exact ih _ _

theorem rhoBuffer_length (parties : GoMap (Sign.Signer G)) (ids : List ID) : ∀ (b b' : Bytes),
    Sign.rhoBufferLoop parties ids b = .ok b' → b'.length = b.length + ids.length * 66 := by
  induction ids with
  | nil => intro b b' h; cases h; simp
  | cons id ids ih =>
    intro b b' h
    unfold Sign.rhoBufferLoop at h
    cases hq : parties.get? id with
    | none => rw [hq] at h; cases h
    | some q =>
      cases hD : q.Di with
      | none => simp [Outcome.deref, hq, hD, bind, Outcome.bind] at h
      | some D =>
        cases hE : q.Ei with
        | none => simp [Outcome.deref, hq, hD, hE, bind, Outcome.bind] at h
        | some E =>
          simp only [Outcome.deref, hq, hD, hE, bind, Outcome.bind] at h
          have := ih _ _ h
          rw [this]
          simp only [List.length_append, RGroup.bytes_length, List.length_cons]
          show b.length + 2 + 32 + 32 + ids.length * 66 = b.length + (ids.length + 1) * 66
          omega

/-- C106: with up to 992 signers the buffer never has to grow: its first capacity is exactly what is written. -/
theorem C106_capacity (n : Nat) (h : n ≤ 992) : Sign.sizeBuffer n = 12 + 2 + 64 + n * 66 := by
  unfold Sign.sizeBuffer
  rw [UInt16.toNat_mul, UInt16.toNat_ofNat']
  show 12 + 2 + 64 + n % 65536 * 66 % 65536 = _
  omega

/-- C106: so the buffer is the only array allocated. -/
theorem C106_once (sha : Sha512) (r : Sign.Round G) (μ : Mem UInt8) (hn : r.partyIDs.length ≤ 992) (hp : Sign.computeRhos sha r ≠ .panic) :
    (Sign.computeRhosMem sha grow r μ).2.next = μ.next + 1 := by
  have w := make_wf μ (Nat.zero_le (Sign.sizeBuffer r.partyIDs.length))
  have h₁ := appended grow Sign.hashDomainSeparation w
  have h₂ := h₁.append (appended grow r.selfID.bytes h₁.wf)
  have h₃ := h₂.append (appended grow (sha.sum r.message) h₂.wf)
  obtain ⟨i₁, i₂, i₃⟩ := rhoBuffer_appended grow r.parties r.partyIDs h₃.wf
  rw [(fresh_of_make h₃).read] at i₁ i₂ i₃
  unfold Sign.computeRhos at hp
  unfold Sign.computeRhosMem
  simp only [run_bind]
  cases hb : Sign.rhoBufferLoop r.parties r.partyIDs (Sign.hashDomainSeparation ++ r.selfID.bytes ++ sha.sum r.message) with
  | err e => exact absurd hb (i₂ e)
  | panic => simp only [hb] at hp; exact absurd rfl hp
  | ok b =>
    obtain ⟨s', μ', vs, hr, ha, hv⟩ := i₁ b hb
    rw [hr]
    have hl := rhoBuffer_length _ _ _ _ hb
    rw [hv, List.length_append] at hl
    have hroom := (h₃.append ha).room (by
      rw [List.length_append]
      simp only [List.length_append, sha.length_sum] at hl ⊢
      simp only [make, C106_capacity _ hn]
      simp only [show Sign.hashDomainSeparation.length = 12 from rfl, show (ID.bytes r.selfID).length = 2 from rfl] at hl ⊢
      omega)
    show (Sign.rhoLoopMem sha s' r.partyIDs r.parties μ').2.next = _
    rw [rhoLoop_next, hroom.2.2.2]
    rfl

/-- C106: with 993 to 65535 signers it is computed in 16 bits and too small. -/
theorem C106_capacity_wraps (n : Nat) (h : 993 ≤ n) : Sign.sizeBuffer n < 12 + 2 + 64 + n * 66 := by
  unfold Sign.sizeBuffer
  rw [UInt16.toNat_mul, UInt16.toNat_ofNat']
  show 12 + 2 + 64 + n % 65536 * 66 % 65536 < _
  omega

/-! ### The queue -/

variable {κ : Mem (Option (Message G))}

theorem dequeue_loop (current : MsgType) (queue : Slice) (κ₀ : Mem (Option (Message G))) (hq : κ₀.Wf queue) (q : List (Message G))
    (hr : κ₀.read queue = q.map some) :
    ∀ (k i : Nat) (received : GoMap (Option (Message G))) (n : Nat) (kept : List (Message G)) (κ : Mem (Option (Message G))), i + k = queue.len → n ≤ i →
      Keeps κ₀ κ (fun a j => a = queue.arr ∧ queue.off ≤ j ∧ j < queue.off + n) → κ.next = κ₀.next →
      κ.read (upTo queue n) = kept.map some → kept.length = n →
      ∃ κ', State.dequeueLoopMem grow current queue k i received (upTo queue n) κ =
          (.ok ((State.dequeueLoop current (q.drop i) received kept).1,
            upTo queue (State.dequeueLoop current (q.drop i) received kept).2.length), κ') ∧
        κ'.read (upTo queue (State.dequeueLoop current (q.drop i) received kept).2.length) =
          (State.dequeueLoop current (q.drop i) received kept).2.map some ∧
        κ'.next = κ₀.next ∧
        Keeps κ₀ κ' (fun a j => a = queue.arr ∧ queue.off ≤ j ∧
          j < queue.off + (State.dequeueLoop current (q.drop i) received kept).2.length) := by
  have hql : q.length = queue.len := by
    have := congrArg List.length hr
    rw [read_length hq, List.length_map] at this
    exact this.symm
  intro k
  induction k with
  | zero =>
    intro i received n kept κ hi hn hk hnext hread hlen
    rw [List.drop_eq_nil_of_le (by omega)]
    unfold State.dequeueLoop State.dequeueLoopMem
    simp only
    rw [hlen]
    exact ⟨κ, rfl, hread, hnext, hk⟩
  | succ k ih =>
    intro i received n kept κ hi hn hk hnext hread hlen
    have hiq : i < q.length := by omega
    have hcell : κ.cell queue i = some (some q[i]) := by
      unfold Mem.cell
      rw [if_pos (by omega), hk.cells _ hq.arr _ (by rintro ⟨-, -, h⟩; omega)]
      have := read_getElem? κ₀ queue i
      rw [if_pos (by omega), hr] at this
      rw [← this, List.getElem?_map, List.getElem?_eq_getElem hiq]
      rfl
    rw [List.drop_eq_getElem_cons hiq]
    unfold State.dequeueLoop State.dequeueLoopMem
    simp only [run_bind, run_get, hcell]
    by_cases ht : q[i].header.type = current
    · simp only [ht, if_true]
      exact ih (i + 1) _ n kept κ (by omega) (by omega) hk hnext hread hlen
    · simp only [ht, if_false, run_bind]
      have hc := hq.cap
      have hl := hq.len
      have wf : κ.Wf (upTo queue n) := by
        have := hk.wf hq
        exact ⟨this.arr, by simp only [upTo]; omega, this.cap⟩
      have ha := appended grow [some q[i]] wf
      have hroom : (upTo queue n).len + [some q[i]].length ≤ (upTo queue n).cap := by
        simp only [upTo, List.length_singleton]; omega
      obtain ⟨r₁, r₂, r₃, r₄⟩ := ha.room hroom
      have hs : (append grow (upTo queue n) [some q[i]] κ).1 = upTo queue (n + 1) := by
        have e := ha.len
        generalize (append grow (upTo queue n) [some q[i]] κ).1 = s at *
        cases s
        simp only [upTo, List.length_singleton] at *
        simp [r₁, r₂, r₃, e]
      have hread' := ha.read
      rw [hs, hread] at hread'
      rw [hs]
      refine ih (i + 1) received (n + 1) (kept ++ [q[i]]) _ (by omega) (by omega) ?_ (r₄.trans hnext) ?_ ?_
      · refine Keeps.trans hk ha.keeps (fun a j h => ⟨h.1, h.2.1, by omega⟩) fun a j _ h => ?_
        obtain ⟨e₁, e₂, e₃, _⟩ := h
        simp only [upTo, List.length_singleton] at e₁ e₂ e₃
        exact ⟨e₁, by omega, by omega⟩
      · rw [hread', List.map_append]; rfl
      · rw [List.length_append, hlen]; rfl

theorem dequeueLoop_eq (current : MsgType) (q : List (Message G)) : ∀ (received : GoMap (Option (Message G))) (kept : List (Message G)),
    (State.dequeueLoop current q received kept).2 = kept ++ q.filter fun m => m.header.type ≠ current := by
  induction q with
  | nil => intro _ kept; simp [State.dequeueLoop]
  | cons m q ih =>
    intro received kept
    unfold State.dequeueLoop
    by_cases h : m.header.type = current <;> simp [h, ih]

/-- C107: filtering the queue in its own array gives what the model without memory says: no message is read after it was overwritten, the array never
has to grow, and the messages that stay do so in their order. -/
theorem C107_dequeue (current : MsgType) (queue : Slice) (received : GoMap (Option (Message G))) (q : List (Message G)) (h : κ.Wf queue)
    (hr : κ.read queue = q.map some) :
    ∃ κ', State.dequeueMem grow current received queue κ =
        (.ok ((State.dequeueLoop current q received []).1, upTo queue (q.filter fun m => m.header.type ≠ current).length), κ') ∧
      κ'.read (upTo queue (q.filter fun m => m.header.type ≠ current).length) = (q.filter fun m => m.header.type ≠ current).map some ∧
      (State.dequeueLoop current q received []).2 = q.filter (fun m => m.header.type ≠ current) ∧
      κ'.next = κ.next ∧
      Keeps κ κ' fun a j => a = queue.arr ∧ queue.off ≤ j ∧ j < queue.off + (q.filter fun m => m.header.type ≠ current).length := by
  have hd := dequeueLoop_eq current q received []
  rw [List.nil_append] at hd
  obtain ⟨κ', h₁, h₂, h₃, h₄⟩ := dequeue_loop grow current queue κ h q hr queue.len 0 received 0 [] κ (by omega) (le_refl _)
    (Keeps.refl _ _) rfl (by simp [upTo, Mem.read]) rfl
  rw [List.drop_zero, hd] at h₁ h₂ h₄
  exact ⟨κ', h₁, h₂, hd, h₃, h₄⟩

/-- C107: a message that left the queue is still found in the array behind its end, if it was among the last. -/
theorem C107_stays (current : MsgType) (queue : Slice) (received : GoMap (Option (Message G))) (q : List (Message G)) (h : κ.Wf queue)
    (hr : κ.read queue = q.map some) (i : Nat) (m : Message G) (hi : q[i]? = some m)
    (hb : (q.filter fun m => m.header.type ≠ current).length ≤ i) :
    ((State.dequeueMem grow current received queue κ).2.array queue.arr)[queue.off + i]? = some (some m) := by
  obtain ⟨κ', h₁, -, -, -, h₄⟩ := C107_dequeue grow current queue received q h hr
  rw [h₁]
  simp only
  rw [h₄.cells _ h.arr _ (by rintro ⟨-, -, h⟩; omega)]
  have := read_getElem? κ queue i
  rw [hr, List.getElem?_map, hi] at this
  split at this
  · exact this.symm
  · cases this

/-- C107: putting a message into the queue. -/
theorem C107_enqueue (queue : Slice) (q : List (Message G)) (m : Message G) (h : κ.Wf queue) (hr : κ.read queue = q.map some) :
    Appended κ queue [some m] (State.enqueueMem grow queue m κ).2 (State.enqueueMem grow queue m κ).1 ∧
    (State.enqueueMem grow queue m κ).2.read (State.enqueueMem grow queue m κ).1 = (q ++ [m]).map some := by
  have ha := appended grow [some m] h
  refine ⟨ha, ?_⟩
  rw [List.map_append, ← hr]
  exact ha.read

end Verif.Props
