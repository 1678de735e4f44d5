import Mathlib.Data.List.Basic

/-!
The Go memory model (https://go.dev/ref/mem), as far as one mutex, one channel that is closed but never sent on, and ordinary variables go.
-/

namespace Verif.Spec.GoMem

/-- What a goroutine does: operations on the mutex and the channel, and reads and writes of variables with their values. -/
inductive Act (Loc : Type) (Val : Loc → Type)
  | lock
  | unlock
  | close
  | recv
  | read (x : Loc) (v : Val x)
  | write (x : Loc) (v : Val x)

/-- An action of a goroutine. -/
structure Event (Loc : Type) (Val : Loc → Type) where
  thread : Nat
  act : Act Loc Val

/-- The events of an execution, listed so that each goroutine's own events are in the order of its program and the operations on the mutex
and the channel in the order in which they took place.  The place of reads and writes of different goroutines says nothing about what is read. -/
abbrev Trace (Loc : Type) (Val : Loc → Type) := List (Event Loc Val)

variable {Loc : Type} {Val : Loc → Type}

/-- "Happens before": the order within a goroutine; a call of `Unlock` comes before every later `Lock` returns; closing a channel comes
before a receive that returns because it is closed. -/
inductive HB (tr : Trace Loc Val) : Nat → Nat → Prop
  | program {i j : Nat} {a b : Event Loc Val} : i < j → tr[i]? = some a → tr[j]? = some b → a.thread = b.thread → HB tr i j
  | mutex {i j t u : Nat} : i < j → tr[i]? = some ⟨t, .unlock⟩ → tr[j]? = some ⟨u, .lock⟩ → HB tr i j
  | channel {i j t u : Nat} : i < j → tr[i]? = some ⟨t, .close⟩ → tr[j]? = some ⟨u, .recv⟩ → HB tr i j
  | trans {i j k : Nat} : HB tr i j → HB tr j k → HB tr i k

/-- The values that the read at `j` of the variable `x` may return: that of a write which does not come after it and is not
overwritten before it, or the initial value if no write comes before it. -/
def MaySee (init : ∀ x, Val x) (tr : Trace Loc Val) (j : Nat) (x : Loc) (v : Val x) : Prop :=
  (∃ i t : Nat, tr[i]? = some ⟨t, .write x v⟩ ∧ ¬ HB tr j i ∧ ¬ ∃ (k u : Nat) (v' : Val x), tr[k]? = some ⟨u, .write x v'⟩ ∧ HB tr i k ∧ HB tr k j) ∨
  (v = init x ∧ ¬ ∃ (k u : Nat) (v' : Val x), tr[k]? = some ⟨u, .write x v'⟩ ∧ HB tr k j)

/-- All reads return what the memory model allows, and a receive returns only when the channel was closed. -/
def Allowed (init : ∀ x, Val x) (tr : Trace Loc Val) : Prop :=
  (∀ (j t : Nat) (x : Loc) (v : Val x), tr[j]? = some ⟨t, .read x v⟩ → MaySee init tr j x v) ∧
  (∀ j t : Nat, tr[j]? = some ⟨t, .recv⟩ → ∃ i u : Nat, i < j ∧ tr[i]? = some ⟨u, .close⟩)

/-- The value of a variable after the first `n` events of the list, if all reads and writes took place in the order of the list. -/
def After (init : ∀ x, Val x) (tr : Trace Loc Val) (n : Nat) (x : Loc) (v : Val x) : Prop :=
  (∃ i t : Nat, i < n ∧ tr[i]? = some ⟨t, .write x v⟩ ∧ ∀ (k u : Nat) (v' : Val x), i < k → k < n → tr[k]? ≠ some ⟨u, .write x v'⟩) ∨
  (v = init x ∧ ∀ (k u : Nat) (v' : Val x), k < n → tr[k]? ≠ some ⟨u, .write x v'⟩)

/-- The value of a variable when all is done. -/
def Final (init : ∀ x, Val x) (tr : Trace Loc Val) (x : Loc) (v : Val x) : Prop := After init tr tr.length x v

end Verif.Spec.GoMem
