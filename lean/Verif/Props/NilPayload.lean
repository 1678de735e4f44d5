import Verif.Model.NilPayload
import Verif.Props.Messages

/-!
C129: a `KeyGen1` whose pointers are not set, against a message without payload.  Concrete cases are in `Verif/Cases/NilPayload.lean`.
-/

namespace Verif.Props

open Verif Outcome

variable {G : Type} [RGroup G] {sha : Sha512}

/-- The payload is there, but one of its pointers is nil. -/
def Spec.HalfEmpty (m : Raw.Message G) : Prop := ∃ k, m.keyGen1 = some k ∧ (k.proof = none ∨ k.commitments = none)

/-- A session makes no difference between such a message and one without payload. -/
theorem C129_session (sha : Sha512) (r : Keygen.Round G) (m : Raw.Message G) :
    Raw.process1 sha r (some m) = Keygen.process1 sha r (some m.value) ∧ (Spec.HalfEmpty m → Raw.process1 sha r (some m) = .panic) := by
  have hconst : ∀ c : Exponent G, Exponent.constant c = .panic ∨ ∃ X, Exponent.constant c = .ok X := by
    intro c; cases c <;> simp [Exponent.constant, goIndex]
  obtain ⟨hd, k1, k2, s1, s2⟩ := m
  cases k1 with
  | none => exact ⟨rfl, fun ⟨k, h, _⟩ => by cases h⟩
  | some k =>
    obtain ⟨p, c⟩ := k
    cases c with
    | none => cases p <;> exact ⟨rfl, fun _ => rfl⟩
    | some c =>
      cases p with
      | none =>
        have : Raw.process1 sha r (some ⟨hd, some ⟨none, some c⟩, k2, s1, s2⟩) = .panic := by
          rcases hconst c with h | ⟨X, h⟩
          · simp only [Raw.process1, Outcome.deref, Outcome.ok_bind, h, Keygen.lift]; rfl
          · simp only [Raw.process1, Outcome.deref, Outcome.ok_bind, h, Keygen.lift]; rfl
        exact ⟨this, fun _ => this⟩
      | some p => exact ⟨rfl, fun ⟨k, h, h'⟩ => by cases h; simp at h'⟩

/-- For all other messages the methods do what `Verif/Model/Messages.lean` says. -/
theorem C129_complete (m other : Raw.Message G) (hm : ¬ Spec.HalfEmpty m) (ho : ¬ Spec.HalfEmpty other) (existing : Bytes) :
    m.bytesAppend existing = m.value.bytesAppend existing ∧ m.size = .ok m.value.size ∧ m.marshalBinary = m.value.marshalBinary ∧
      m.equal other = .ok (m.value.equal other.value) := by
  have full : ∀ m : Raw.Message G, ¬ Spec.HalfEmpty m → m.keyGen1 = none ∨ ∃ p c, m.keyGen1 = some ⟨some p, some c⟩ := by
    rintro ⟨_, k, _, _, _⟩ h
    rcases k with _ | ⟨_ | p, _ | c⟩
    · exact Or.inl rfl
    · exact absurd ⟨_, rfl, Or.inl rfl⟩ h
    · exact absurd ⟨_, rfl, Or.inl rfl⟩ h
    · exact absurd ⟨_, rfl, Or.inr rfl⟩ h
    · exact Or.inr ⟨p, c, rfl⟩
  have hb : ∀ existing, m.bytesAppend existing = m.value.bytesAppend existing := by
    intro existing
    unfold Raw.Message.bytesAppend
    split
    · rename_i ht
      unfold Message.bytesAppend
      simp only [if_pos (show m.value.header.type = _ from ht)]
      rcases full m hm with h | ⟨p, c, h⟩ <;> simp only [Raw.Message.value, h] <;> rfl
    · rfl
  have hs : m.size = .ok m.value.size := by
    unfold Raw.Message.size
    split
    · rename_i ht
      unfold Message.size
      rw [if_pos (show m.value.header.type = _ from ht)]
      rcases full m hm with h | ⟨p, c, h⟩ <;> simp only [Raw.Message.value, h] <;> rfl
    · rfl
  refine ⟨hb existing, hs, ?_, ?_⟩
  · unfold Raw.Message.marshalBinary
    rw [hs, Outcome.ok_bind, hb]
    rfl
  · unfold Raw.Message.equal
    by_cases h0 : m.header.equal other.header = false
    · rw [if_pos h0, Message.equal, if_pos (show m.value.header.equal other.value.header = false from h0)]
      rfl
    rw [if_neg h0]
    by_cases ht : m.header.type = MsgType.keyGen1
    · rw [if_pos ht, Message.equal, if_neg (show ¬ m.value.header.equal other.value.header = false from h0), if_pos (show m.value.header.type = _ from ht)]
      rcases full m hm with h | ⟨p, c, h⟩ <;> rcases full other ho with h' | ⟨p', c', h'⟩ <;> simp only [Raw.Message.value, h, h'] <;> try rfl
      simp only [Raw.KeyGen1.equal, KeyGen1.equal, Outcome.deref, Outcome.ok_bind, Option.bind_some, Option.map_some]
      split <;> try rfl
      split <;> rfl
    · rw [if_neg ht]
      rfl

/-- The other types do not look at `KeyGen1`. -/
theorem C129_methods_other (m : Raw.Message G) (ht : m.header.type ≠ MsgType.keyGen1) :
    m.size = .ok m.value.size ∧ m.marshalBinary = m.value.marshalBinary := by
  refine ⟨by rw [Raw.Message.size, if_neg ht]; rfl, ?_⟩
  rw [Raw.Message.marshalBinary, Raw.Message.size, if_neg ht, Raw.Message.bytesAppend, if_neg ht]
  rfl

/-- The message `m` with its pointers. -/
def Spec.withPointers (m : Message G) : Raw.Message G :=
  ⟨m.header, m.keyGen1.map fun k => ⟨some k.proof, some k.commitments⟩, m.keyGen2, m.sign1, m.sign2⟩

/-- So the messages of `Verif/Model/Messages.lean` are those whose pointers are set, and the methods on them are as there. -/
theorem C129_main_model (m other : Message G) (existing : Bytes) :
    (Spec.withPointers m).value = m ∧ (Spec.withPointers m).bytesAppend existing = m.bytesAppend existing ∧
      (Spec.withPointers m).size = .ok m.size ∧ (Spec.withPointers m).marshalBinary = m.marshalBinary ∧
      (Spec.withPointers m).equal (Spec.withPointers other) = .ok (m.equal other) := by
  have hv : ∀ m : Message G, (Spec.withPointers m).value = m := by
    rintro ⟨hd, _ | k, k2, s1, s2⟩ <;> rfl
  have hh : ∀ m : Message G, ¬ Spec.HalfEmpty (Spec.withPointers m) := by
    rintro ⟨hd, _ | k, k2, s1, s2⟩ ⟨k', h, h'⟩
    · cases h
    · cases h; simp at h'
  obtain ⟨h1, h2, h3, h4⟩ := C129_complete _ _ (hh m) (hh other) existing
  rw [hv] at h1 h2 h3 h4
  rw [hv] at h4
  exact ⟨hv m, h1, h2, h3, h4⟩

/-- And leaving out a payload with a nil pointer changes nothing else. -/
theorem C129_left_out (m : Raw.Message G) (h : Spec.HalfEmpty m) : m.value = ⟨m.header, none, m.keyGen2, m.sign1, m.sign2⟩ := by
  obtain ⟨hd, k, k2, s1, s2⟩ := m
  obtain ⟨⟨p, c⟩, h1, h2⟩ := h
  cases h1
  rcases h2 with h2 | h2
  · have h2 : p = none := h2
    subst h2; rfl
  · have h2 : c = none := h2
    subst h2; cases p <;> rfl

/-- Exactly when encoding panics: the size needs the commitments, the bytes need both, after the header has been checked. -/
theorem C129_marshal_panics_iff (m : Raw.Message G) :
    m.marshalBinary = .panic ↔ m.header.type = MsgType.keyGen1 ∧ ∃ k, m.keyGen1 = some k ∧
      (k.commitments = none ∨ k.proof = none ∧ m.header.fromID ≠ 0 ∧ m.header.toID = 0) := by
  by_cases ht : m.header.type = MsgType.keyGen1
  swap
  · constructor
    · intro h
      rw [(C129_methods_other m ht).2] at h
      exact absurd h (message_bytesAppend_no_panic _ _)
    · rintro ⟨h, _⟩
      exact absurd h ht
  have hhead : m.header.bytesAppend [] = if m.header.toID ≠ 0 then .err .broadcastWithTo else if m.header.fromID = 0 then .err .zeroFrom else
      .ok ([] ++ [m.header.type] ++ m.header.fromID.bytes ++ m.header.toID.bytes) := by
    unfold Header.bytesAppend Header.check
    rw [if_pos (Or.inl ht)]
    unfold Outcome.failIf
    split <;> split <;> rfl
  unfold Raw.Message.marshalBinary Raw.Message.size Raw.Message.bytesAppend
  rw [if_pos ht, if_pos ht, hhead]
  obtain ⟨hd, k, _, _, _⟩ := m
  simp only [] at ht ⊢
  rcases k with _ | ⟨p, _ | c⟩
  · simp only [Outcome.pure_def, Outcome.ok_bind]
    split <;> try split
    all_goals simp [ht]
  · simp [ht, Raw.KeyGen1.size, Outcome.deref]
  · cases p <;> simp only [Raw.KeyGen1.size, Raw.KeyGen1.bytesAppend, Outcome.deref, Outcome.pure_def, Outcome.ok_bind] <;> split <;> try split
    all_goals simp_all

/-- Exactly when a comparison panics. -/
theorem C129_equal_panics_iff (m other : Raw.Message G) :
    m.equal other = .panic ↔ m.header = other.header ∧ m.header.type = MsgType.keyGen1 ∧ ∃ a b, m.keyGen1 = some a ∧ other.keyGen1 = some b ∧
      (a.proof = none ∨ b.proof = none ∨ a.proof = b.proof ∧ (a.commitments = none ∨ b.commitments = none)) := by
  unfold Raw.Message.equal
  by_cases h0 : m.header.equal other.header = false
  · rw [if_pos h0]
    simp only [Header.equal, decide_eq_false_iff_not] at h0
    simp [h0]
  have h0' : m.header = other.header := by simpa [Header.equal] using h0
  rw [if_neg h0]
  by_cases ht : m.header.type = MsgType.keyGen1
  swap
  · rw [if_neg ht]
    simp [ht]
  rw [if_pos ht]
  have hpe : ∀ p q : Schnorr, q.equal p = false ↔ p ≠ q := by
    rintro ⟨a, b⟩ ⟨c, d⟩
    simp only [Schnorr.equal]
    split <;> try split
    all_goals simp_all
  rcases hm : m.keyGen1 with _ | ⟨p, c⟩
  · simp
  rcases ho : other.keyGen1 with _ | ⟨p', c'⟩
  · simp
  simp only [← h0', ht, true_and, Option.some.injEq, exists_and_left, exists_eq_left', Raw.KeyGen1.equal]
  rcases p with _ | p
  · simp [Outcome.deref]
  rcases p' with _ | p'
  · simp [Outcome.deref]
  simp only [Outcome.deref, Outcome.ok_bind]
  by_cases hp : p = p'
  · rw [if_neg (by rw [hpe]; simp [hp])]
    cases c <;> cases c' <;> simp [hp] <;> split <;> simp
  · rw [if_pos ((hpe _ _).mpr hp)]
    simp [hp]

/-- Refuted for the methods of the message: without payload it has a size, is refused by `MarshalBinary` with an error and is unequal to
itself; with a payload without commitments all three panic. -/
theorem C129_methods_refuted (fromID : ID) (p : Option Schnorr) :
    let m : Raw.Message G := { header := ⟨MsgType.keyGen1, fromID, 0⟩, keyGen1 := some ⟨p, none⟩ }
    m.size = .panic ∧ m.marshalBinary = .panic ∧ m.equal m = .panic ∧
      m.value.size = 5 ∧ (∃ e, m.value.marshalBinary = .err e) ∧ m.value.equal m.value = false := by
  intro m
  refine ⟨rfl, rfl, ?_, by cases p <;> rfl, ?_, ?_⟩
  · rw [C129_equal_panics_iff]
    exact ⟨rfl, rfl, _, _, rfl, rfl, Or.inr (Or.inr ⟨rfl, Or.inl rfl⟩)⟩
  · cases p <;> simp only [m, Raw.Message.value, Message.marshalBinary, Message.bytesAppend, Header.bytesAppend, Header.check] <;> by_cases h : fromID = 0 <;> simp [h, Outcome.failIf]
  · cases p <;> simp [m, Raw.Message.value, Message.equal]

end Verif.Props
