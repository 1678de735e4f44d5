import Verif.Model.ErrorValue

/-!
The decoders that return errors as values against those that return tags.
-/

namespace Verif

open Verif.Cmd (lit)

variable {G R : Type} [RGroup G] {α β : Type}

/-- Same value, both an error, or both a panic. -/
inductive Agree : Outcome ErrVal α → GoRes α → Prop
  | ok (a : α) : Agree (.ok a) (.ok a)
  | err (e : ErrVal) (e' : GoErr) : Agree (.err e) (.err e')
  | panic : Agree .panic .panic

namespace Agree

theorem bind {x : Outcome ErrVal α} {y : GoRes α} (h : Agree x y) {f : α → Outcome ErrVal β} {g : α → GoRes β} (hf : ∀ a, Agree (f a) (g a)) :
    Agree (x >>= f) (y >>= g) := by
  cases h
  · exact hf _
  · exact .err _ _
  · exact .panic

theorem failIf (c : Prop) [Decidable c] (e : ErrVal) (e' : GoErr) : Agree (Outcome.failIf c e) (Outcome.failIf c e') := by
  unfold Outcome.failIf; split; exacts [.err _ _, .ok _]

theorem noErr (x : GoRes α) : Agree (Outcome.noErr x) x := by
  cases x; exacts [.ok _, .err _ _, .panic]

theorem wrapErr (pre : String) {x : Outcome ErrVal α} {y : GoRes α} (h : Agree x y) : Agree (Outcome.wrapErr pre x) y := by
  cases h; exacts [.ok _, .err _ _, .panic]

theorem orErr (x : Option α) (e : ErrVal) (e' : GoErr) : Agree (Outcome.orErr x e) (Outcome.orErr x e') := by
  cases x; exacts [.err _ _, .ok _]

theorem fromBytes (b : Bytes) : Agree (ID.fromBytesE b) (ID.fromBytes b) := (failIf _ _ _).bind fun _ => noErr _

theorem check (method : String) (t : MsgType) (a b : ID) : Agree (Header.checkE method t a b) (Header.check t a b) := by
  unfold Header.checkE Header.check
  dsimp only
  split
  · exact (failIf _ _ _).bind fun _ => failIf _ _ _
  · split
    · exact (failIf _ _ _).bind fun _ => failIf _ _ _
    · exact .err _ _

theorem header (data : Bytes) : Agree (Header.unmarshalBinaryE data) (Header.unmarshalBinary data) :=
  (failIf _ _ _).bind fun _ => (noErr _).bind fun _ => (noErr _).bind fun _ => ((fromBytes _).wrapErr _).bind fun _ =>
    (noErr _).bind fun _ => ((fromBytes _).wrapErr _).bind fun _ => (check _ _ _ _).bind fun _ => .ok _

theorem scalar (b : Bytes) : Agree (Scalar.setCanonicalBytesE b) (Outcome.orErr (Scalar.setCanonicalBytes b) .nonCanonical) := orErr _ _ _

theorem element (b : Bytes) : Agree (elementSetCanonicalBytesE b : Outcome ErrVal G) (Outcome.orErr (RGroup.setCanonicalBytes b) .nonCanonical) :=
  orErr _ _ _

theorem schnorr (data : Bytes) : Agree (Schnorr.unmarshalBinaryE data) (Schnorr.unmarshalBinary data) :=
  (failIf _ _ _).bind fun _ => (noErr _).bind fun _ => (scalar _).bind fun _ => (noErr _).bind fun _ => (scalar _).bind fun _ => .ok _

theorem decodeLoop (k : Nat) (b : Bytes) : Agree (Exponent.decodeLoopE k b : Outcome ErrVal (Exponent G)) (Exponent.decodeLoop k b) := by
  induction k generalizing b with
  | zero => exact .ok _
  | succ k ih => exact (noErr _).bind fun _ => (element _).bind fun _ => (noErr _).bind fun _ => (ih _).bind fun _ => .ok _

theorem exponent (data : Bytes) : Agree (Exponent.unmarshalBinaryE data : Outcome ErrVal (Exponent G)) (Exponent.unmarshalBinary data) :=
  (fromBytes _).bind fun _ => (noErr _).bind fun _ => (failIf _ _ _).bind fun _ => (failIf _ _ _).bind fun _ => decodeLoop _ _

theorem keyGen1 (data : Bytes) : Agree (KeyGen1.unmarshalBinaryE data : Outcome ErrVal (KeyGen1 G)) (KeyGen1.unmarshalBinary data) :=
  (failIf _ _ _).bind fun _ => (noErr _).bind fun _ => (schnorr _).bind fun _ => (noErr _).bind fun _ => (exponent _).bind fun _ => .ok _

theorem keyGen2 (data : Bytes) : Agree (KeyGen2.unmarshalBinaryE data) (KeyGen2.unmarshalBinary data) :=
  (failIf _ _ _).bind fun _ => (scalar _).bind fun _ => .ok _

theorem sign1 (data : Bytes) : Agree (Sign1.unmarshalBinaryE data : Outcome ErrVal (Sign1 G)) (Sign1.unmarshalBinary data) :=
  (failIf _ _ _).bind fun _ => (noErr _).bind fun _ => ((element _).wrapErr _).bind fun _ => (noErr _).bind fun _ =>
    ((element _).wrapErr _).bind fun _ => .ok _

theorem sign2 (data : Bytes) : Agree (Sign2.unmarshalBinaryE data) (Sign2.unmarshalBinary data) :=
  (failIf _ _ _).bind fun _ => ((scalar _).wrapErr _).bind fun _ => .ok _

theorem signature (data : Bytes) : Agree (Signature.unmarshalBinaryE data : Outcome ErrVal (Signature G)) (Signature.unmarshalBinary data) :=
  (failIf _ _ _).bind fun _ => (noErr _).bind fun _ => ((element _).wrapErr _).bind fun _ => (noErr _).bind fun _ =>
    ((scalar _).wrapErr _).bind fun _ => .ok _

theorem secretShare (data : Bytes) : Agree (SecretShare.unmarshalBinaryE data : Outcome ErrVal (SecretShare G)) (SecretShare.unmarshalBinary data) :=
  (failIf _ _ _).bind fun _ => (fromBytes _).bind fun _ => (noErr _).bind fun _ => (scalar _).bind fun _ => .ok _

theorem payload (old : Option α) {x : Outcome ErrVal α} {y : GoRes α} (h : Agree x y) : Agree (Message.payloadE old x) (Message.payload old y) := by
  cases h; exacts [.ok _, .ok _, .panic]

theorem message (m : Message G) (data : Bytes) : Agree (Message.unmarshalBinaryE m data) (Message.unmarshalBinary m data) := by
  refine (header _).bind fun _ => (noErr _).bind fun _ => ?_
  split
  · exact ((keyGen1 _).payload _).bind fun _ => .ok _
  split
  · exact ((keyGen2 _).payload _).bind fun _ => .ok _
  split
  · exact ((sign1 _).payload _).bind fun _ => .ok _
  split
  · exact ((sign2 _).payload _).bind fun _ => .ok _
  · exact .err _ _

theorem bytesAppend (m : Message G) (existing : Bytes) : Agree (Message.bytesAppendE m existing) (Message.bytesAppend m existing) := by
  refine ((bind (check _ _ _ _) fun _ => .ok _).wrapErr _).bind fun _ => ?_
  split
  · cases m.keyGen1; exacts [.err _ _, .ok _]
  split
  · cases m.keyGen2; exacts [.err _ _, .ok _]
  split
  · cases m.sign1; exacts [.err _ _, .ok _]
  split
  · cases m.sign2; exacts [.err _ _, .ok _]
  · exact .err _ _

theorem outputs (l : List (Message G)) (out : List Bytes) : Agree (routineOutputsE l out) (routineOutputs l out) := by
  induction l generalizing out with
  | nil => exact .ok _
  | cons m l ih =>
    unfold routineOutputsE routineOutputs Message.marshalBinary
    have h := bytesAppend m []
    generalize Message.bytesAppendE m [] = x at h ⊢
    generalize Message.bytesAppend m [] = y at h ⊢
    cases h
    · exact ih _
    · exact .err _ _
    · exact .panic

theorem iff_ok {x : Outcome ErrVal α} {y : GoRes α} (h : Agree x y) : (∀ a, x = .ok a ↔ y = .ok a) ∧ (x = .panic ↔ y = .panic) := by
  cases h <;> simp

end Agree

/-- All errors that `x` may return satisfy `P`. -/
def AllErr (P : ErrVal → Prop) (x : Outcome ErrVal α) : Prop := ∀ e, x = .err e → P e

namespace AllErr

variable {P : ErrVal → Prop}

theorem bind {x : Outcome ErrVal α} (h : AllErr P x) {f : α → Outcome ErrVal β} (hf : ∀ a, AllErr P (f a)) : AllErr P (x >>= f) := by
  intro e he
  cases x with
  | ok a => exact hf a e he
  | err e' => cases he; exact h _ rfl
  | panic => cases he

theorem failIf (c : Prop) [Decidable c] {e : ErrVal} (h : P e) : AllErr P (Outcome.failIf c e) := by
  intro e' he
  unfold Outcome.failIf at he
  split at he
  · cases he; exact h
  · cases he

theorem ok (a : α) : AllErr P (.ok a : Outcome ErrVal α) := fun _ h => nomatch h

theorem noErr (h : P .library) (x : GoRes α) : AllErr P (Outcome.noErr x) := by
  intro e he; cases x <;> cases he; exact h

theorem wrapErr {pre : String} {x : Outcome ErrVal α} (h : AllErr (fun e => P (.wrap (lit pre) e)) x) : AllErr P (Outcome.wrapErr pre x) := by
  intro e he
  cases x with
  | ok => cases he
  | err e' => cases he; exact h _ rfl
  | panic => cases he

theorem orErr (x : Option α) {e : ErrVal} (h : P e) : AllErr P (Outcome.orErr x e) := by
  intro e' he; cases x <;> cases he; exact h

end AllErr

/-- `e` is not `target`, as far as `errors.Is` can tell. -/
abbrev NotIs (t : Sentinel) (e : ErrVal) : Prop := e.is t = false

theorem notIs_failIf (t : Sentinel) (c : Prop) [Decidable c] (text : Bytes) : AllErr (NotIs t) (Outcome.failIf c (.new text)) :=
  AllErr.failIf c (P := NotIs t) rfl

theorem notIs_noErr (t : Sentinel) (x : GoRes α) : AllErr (NotIs t) (Outcome.noErr x) := AllErr.noErr (P := NotIs t) rfl x

theorem notIs_wrapErr (t : Sentinel) {pre : String} {x : Outcome ErrVal α} (h : AllErr (NotIs t) x) : AllErr (NotIs t) (Outcome.wrapErr pre x) :=
  AllErr.wrapErr (P := NotIs t) h

theorem allErr_fromBytes (t : Sentinel) (b : Bytes) : AllErr (NotIs t) (ID.fromBytesE b) :=
  (notIs_failIf t _ _).bind fun _ => notIs_noErr t _

theorem allErr_check (t : Sentinel) (method : String) (ty : MsgType) (a b : ID) : AllErr (NotIs t) (Header.checkE method ty a b) := by
  unfold Header.checkE
  dsimp only
  split
  · exact (notIs_failIf t _ _).bind fun _ => notIs_failIf t _ _
  · split
    · exact (notIs_failIf t _ _).bind fun _ => notIs_failIf t _ _
    · intro e he; cases he; rfl

theorem allErr_header (t : Sentinel) (data : Bytes) : AllErr (NotIs t) (Header.unmarshalBinaryE data) :=
  (notIs_failIf t _ _).bind fun _ => (notIs_noErr t _).bind fun _ => (notIs_noErr t _).bind fun _ =>
    (notIs_wrapErr t (allErr_fromBytes t _)).bind fun _ => (notIs_noErr t _).bind fun _ => (notIs_wrapErr t (allErr_fromBytes t _)).bind fun _ =>
    (allErr_check t _ _ _ _).bind fun _ => AllErr.ok _

theorem allErr_scalar (t : Sentinel) (b : Bytes) : AllErr (NotIs t) (Scalar.setCanonicalBytesE b) := AllErr.orErr (P := NotIs t) _ rfl

theorem allErr_element {t : Sentinel} (ht : t ≠ .encoding) (b : Bytes) : AllErr (NotIs t) (elementSetCanonicalBytesE b : Outcome ErrVal G) :=
  AllErr.orErr (P := NotIs t) _ (show decide (Sentinel.encoding = t) = false from decide_eq_false ht.symm)

theorem allErr_schnorr (t : Sentinel) (data : Bytes) : AllErr (NotIs t) (Schnorr.unmarshalBinaryE data) :=
  (notIs_failIf t _ _).bind fun _ => (notIs_noErr t _).bind fun _ => (allErr_scalar t _).bind fun _ => (notIs_noErr t _).bind fun _ =>
    (allErr_scalar t _).bind fun _ => AllErr.ok _

theorem allErr_decodeLoop {t : Sentinel} (ht : t ≠ .encoding) (k : Nat) (b : Bytes) :
    AllErr (NotIs t) (Exponent.decodeLoopE k b : Outcome ErrVal (Exponent G)) := by
  induction k generalizing b with
  | zero => exact AllErr.ok _
  | succ k ih =>
    exact (notIs_noErr t _).bind fun _ => (allErr_element ht _).bind fun _ => (notIs_noErr t _).bind fun _ => (ih _).bind fun _ => AllErr.ok _

theorem allErr_exponent {t : Sentinel} (ht : t ≠ .encoding) (data : Bytes) :
    AllErr (NotIs t) (Exponent.unmarshalBinaryE data : Outcome ErrVal (Exponent G)) :=
  (allErr_fromBytes t _).bind fun _ => (notIs_noErr t _).bind fun _ => (notIs_failIf t _ _).bind fun _ => (notIs_failIf t _ _).bind fun _ =>
    allErr_decodeLoop ht _ _

/-- An error of a function that first checks something: of the check, or of the rest. -/
theorem err_of_check {c : Prop} [Decidable c] {e₀ e : ErrVal} {f : Unit → Outcome ErrVal α} (h : (Outcome.failIf c e₀ >>= f) = .err e) :
    (c ∧ e = e₀) ∨ (¬ c ∧ f () = .err e) := by
  by_cases hc : c
  · rw [Outcome.failIf_pos hc] at h; cases h; exact Or.inl ⟨hc, rfl⟩
  · rw [Outcome.failIf_neg hc] at h; exact Or.inr ⟨hc, h⟩

end Verif
