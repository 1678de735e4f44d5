import Verif.Model.State

/-!
Small vocabulary for stating what a session does, from the history of events alone.
-/

namespace Verif.Spec

variable {G R : Type}

/-- The time after the events of a history started at `t₀`. -/
def clock (t₀ : Nat) : List (State.Op G × State.Ret G) → Nat
  | [] => t₀
  | (.advance dt, _) :: h => clock (t₀ + dt) h
  | _ :: h => clock t₀ h

/-- `m` comes from another participant and is for everybody or for `self`. -/
def ForUs (self : UInt16) (ids : List UInt16) (m : Message G) : Prop :=
  m.header.fromID ≠ self ∧ m.header.fromID ∈ ids ∧ (m.header.toID = 0 ∨ m.header.toID = self)

instance (self : UInt16) (ids : List UInt16) (m : Message G) : Decidable (ForUs self ids m) := by
  unfold ForUs; infer_instance

/-- The time of the last message for us that was not refused, or `last` if there is none; `t` is the time now. -/
def lastAccepted (self : UInt16) (ids : List UInt16) (t last : Nat) : List (State.Op G × State.Ret G) → Nat
  | [] => last
  | (.advance dt, _) :: h => lastAccepted self ids (t + dt) last h
  | (.handle m, .handled none) :: h => lastAccepted self ids t (if ForUs self ids m then t else last) h
  | _ :: h => lastAccepted self ids t last h

/-- Feeding messages one after the other to a round, all accepted. -/
inductive Fed (process : R → Option (Message G) → Outcome (StateErr × R) R) : R → List (Option (Message G)) → R → Prop
  | nil (r : R) : Fed process r [] r
  | cons {r r₁ r₂ : R} {m : Option (Message G)} {l : List (Option (Message G))} :
      process r m = .ok r₁ → Fed process r₁ l r₂ → Fed process r (m :: l) r₂

end Verif.Spec
