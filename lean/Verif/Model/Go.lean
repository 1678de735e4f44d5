/-!
Results of Go functions.

A Go function either returns a value with a nil error, returns an error, or panics (nil dereference, index or slice
bound out of range, explicit `panic`).  All three are explicit here.
-/

namespace Verif

/-- The errors the modelled functions return, named after their message text or place. -/
inductive GoErr
  | tooShort            -- "data should be at least ..." / "b is not long enough" / ErrInvalidMessage on length
  | wrongLength         -- a length check with `!=` failed
  | nonCanonical        -- a `SetCanonicalBytes` failed
  | broadcastWithTo     -- ".To field must be 0 to indicate broadcast"
  | keygen2WithoutTo    -- "MessageTypeKeyGen2 requires a sender (.To field)"
  | invalidType         -- "invalid message type"
  | zeroFrom            -- "message must include a non 0 From value"
  | noData              -- "message does not contain any data"
  | textSyntax          -- strconv.ErrSyntax
  | textRange           -- strconv.ErrRange or "party ID overflows"
  | idZero              -- Lagrange: "id was 0 (invalid)" / sign: "id 0 is not valid"
  | idNotInSet          -- Lagrange: "partyIDs does not containd id"
  | denominatorZero     -- Lagrange: "denominator was 0"
  | lengthMismatch      -- Exponent.Add: "q is not the same length as p"
  | thresholdZero       -- keygen.NewRound: "threshold must be at least 1"
  | thresholdTooLarge   -- keygen.NewRound: "threshold must be at most N-1" / NewPublic
  | selfNotInParties    -- NewBaseRound: "PartyIDs should contain selfID" / sign.NewRound
  | notSubset           -- sign.NewRound: "not all parties of partyIDs are contained in shares"
  | inconsistentKey     -- Public.UnmarshalJSON: "inconsistent group key"
  | base64              -- base64.CorruptInputError
  | json                -- json.SyntaxError, json.UnmarshalTypeError
  | finished            -- HandleMessage: "protocol already finished"
  | noMoreMessages      -- HandleMessage: "no more messages being accepted"
  | notAParty           -- HandleMessage: "sender is not a party"
  | alreadyReceived     -- HandleMessage: "message from this party was already received"
  | typeNotAccepted     -- HandleMessage: "message type is not accepted for this type of round"
  | timeout             -- "message timeout"
  | zkFailed            -- "ZK Schnorr failed"
  | vssFailed           -- "VSS failed to validate"
  | identityCommitment  -- "commitment Ei or Di was the identity"
  | badSigShare         -- ErrValidateSigShare
  | badSignature        -- ErrValidateSignature
  deriving DecidableEq, Repr

/-- Result of a Go call: value and nil error, an error, or a run-time panic. -/
inductive Outcome (ε α : Type) : Type
  | ok (a : α)
  | err (e : ε)
  | panic
  deriving DecidableEq, Repr

namespace Outcome

variable {ε α β : Type}

/-- `x, err := f(); if err != nil { return err }; g(x)` -/
def bind (x : Outcome ε α) (f : α → Outcome ε β) : Outcome ε β :=
  match x with
  | ok a => f a
  | err e => err e
  | panic => panic

instance : Monad (Outcome ε) where
  pure := ok
  bind := bind

@[simp] theorem pure_def (a : α) : (pure a : Outcome ε α) = ok a := rfl
@[simp] theorem ok_bind (a : α) (f : α → Outcome ε β) : (ok a >>= f) = f a := rfl
@[simp] theorem err_bind (e : ε) (f : α → Outcome ε β) : ((err e : Outcome ε α) >>= f) = err e := rfl
@[simp] theorem panic_bind (f : α → Outcome ε β) : ((panic : Outcome ε α) >>= f) = panic := rfl

/-- `if cond { return err }` -/
def failIf (c : Prop) [Decidable c] (e : ε) : Outcome ε Unit := if c then err e else ok ()

/-- `*p` for a pointer that may be nil. -/
def deref (x : Option α) : Outcome ε α := match x with
  | some a => ok a
  | none => panic

/-- The value of a setter that may fail with error `e`. -/
def orErr (x : Option α) (e : ε) : Outcome ε α := match x with
  | some a => ok a
  | none => err e

@[simp] theorem deref_some (a : α) : (deref (some a) : Outcome ε α) = ok a := rfl
@[simp] theorem deref_none : (deref (none : Option α) : Outcome ε α) = panic := rfl
@[simp] theorem orErr_some (a : α) (e : ε) : orErr (some a) e = ok a := rfl
@[simp] theorem orErr_none (e : ε) : orErr (none : Option α) e = err e := rfl
@[simp] theorem failIf_True [Decidable True] (e : ε) : failIf True e = err e := if_pos trivial
@[simp] theorem failIf_False [Decidable False] (e : ε) : failIf False e = ok () := if_neg not_false
theorem failIf_pos {c : Prop} [Decidable c] (h : c) (e : ε) : failIf c e = err e := if_pos h
theorem failIf_neg {c : Prop} [Decidable c] (h : ¬ c) (e : ε) : failIf c e = ok () := if_neg h

end Outcome

abbrev GoRes (α : Type) := Outcome GoErr α

end Verif
