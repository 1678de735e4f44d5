import Verif.Spec.State

/-!
What a session has accepted, and how long it has been running, for `Props/Flood`.
-/

namespace Verif.Spec

variable {G : Type}

/-- The messages for us that were not refused, oldest first. -/
def acceptedOf (self : UInt16) (ids : List UInt16) (h : List (State.Op G × State.Ret G)) : List (Message G) := h.filterMap fun
  | (.handle m, .handled none) => if ForUs self ids m then some m else none
  | _ => none

/-- Nobody had two messages of the same type accepted. -/
def OncePerType (self : UInt16) (ids : List UInt16) (h : List (State.Op G × State.Ret G)) : Prop :=
  ((acceptedOf self ids h).map fun m => (m.header.fromID, m.header.type)).Nodup

/-- The timer is served in time: the clock does not go past the moment when the time-out has passed since the last accepted message. -/
def Prompt (self : UInt16) (ids : List UInt16) (timeout now : Nat) (h : List (State.Op G × State.Ret G)) : Prop :=
  ∀ h₁ dt ret h₂, h = h₁ ++ (.advance dt, ret) :: h₂ → clock now h₁ + dt ≤ lastAccepted self ids now now h₁ + timeout

/-- The others. -/
def others (self : UInt16) (ids : List UInt16) : List UInt16 := ids.filter (· ≠ self)

end Verif.Spec
