import Verif.Spec.GoMem
import Verif.Model.State

/-!
What the methods of `State` do to the variables that are also read without the mutex (pkg/state/state.go:28-30, 239-259) and to the output of
the protocol (pkg/frost/frost.go:13-41), as actions of goroutines for the Go memory model.  Everything else in a `State` is only used with the
mutex held.
-/

namespace Verif.Race

open Verif.Spec.GoMem

/-- `done`, `err` (pkg/state/state.go:29-30) and the output of the protocol, for example `Output.Signature` (pkg/frost/sign/output.go:5-7). -/
inductive Var
  | done
  | err
  | out
  deriving DecidableEq

/-- The types of the variables; `Ω` is what the output points to.  Simplified: the error is one variable and not a pointer to three. -/
def Val (Ω : Type) : Var → Type
  | .done => Bool
  | .err => Option StateErr
  | .out => Option Ω

variable {Ω : Type}

/-- The zero values (pkg/state/state.go:37-43). -/
def init : ∀ x : Var, Val Ω x
  | .done => false
  | .err => none
  | .out => none

abbrev Act (Ω : Type) := Spec.GoMem.Act Var (Val Ω)
abbrev Event (Ω : Type) := Spec.GoMem.Event Var (Val Ω)
abbrev Trace (Ω : Type) := Spec.GoMem.Trace Var (Val Ω)

/-- Where the goroutine holding the mutex is in `HandleMessage`, `ProcessAll` or the timer callback. -/
inductive Phase
  | entered
  | working
  | reported
  | closing
  | leaving
  deriving DecidableEq

/-- The mutex is free, or held by a goroutine that is at some place. -/
abbrev Holder := Option (Nat × Phase)

/-- The code between `Lock` and `Unlock` (pkg/state/state.go:83-126, 136-190, 46-48, 205-227), as an automaton over the events in the order of the
mutex.  First `done` is read, and if it is true the function returns.  Then messages are handled and the output may be written.  An error is
stored in `err`, and then `finish` sets `done` and closes the channel; `finish` may also come without an error.  The holder may read at
any time; goroutines without the mutex only read and receive.  Simplified: the test whether `err` is nil in line 223 is left out;
`C85_err_nil` says that it always succeeds. -/
inductive Next : Holder → Event Ω → Holder → Prop
  | lock {t} : Next none ⟨t, .lock⟩ (some (t, .entered))
  | finished {t} : Next (some (t, .entered)) ⟨t, .read .done true⟩ (some (t, .leaving))
  | unfinished {t} : Next (some (t, .entered)) ⟨t, .read .done false⟩ (some (t, .working))
  | output {t} (o : Option Ω) : Next (some (t, .working)) ⟨t, .write .out o⟩ (some (t, .working))
  | report {t} (e : StateErr) : Next (some (t, .working)) ⟨t, .write .err (some e)⟩ (some (t, .reported))
  | abort {t} : Next (some (t, .reported)) ⟨t, .write .done true⟩ (some (t, .closing))
  | finish {t} : Next (some (t, .working)) ⟨t, .write .done true⟩ (some (t, .closing))
  | close {t} : Next (some (t, .closing)) ⟨t, .close⟩ (some (t, .leaving))
  | quiet {t} : Next (some (t, .working)) ⟨t, .unlock⟩ none
  | leave {t} : Next (some (t, .leaving)) ⟨t, .unlock⟩ none
  | look {t p x v} : p ≠ .entered → Next (some (t, p)) ⟨t, .read x v⟩ (some (t, p))
  | peek {h t x v} : (∀ p, h ≠ some (t, p)) → Next h ⟨t, .read x v⟩ h
  | wait {h t} : (∀ p, h ≠ some (t, p)) → Next h ⟨t, .recv⟩ h

/-- An execution of goroutines that use a `State` only through its methods, each at a place where it may also not have returned yet;
`hs i` is who holds the mutex before the event `i`. -/
def Executes (tr : Trace Ω) (hs : Nat → Holder) : Prop := hs 0 = none ∧ ∀ i e, tr[i]? = some e → Next (hs i) e (hs (i + 1))

/-- A call of `WaitForError()` (pkg/state/state.go:249-254) by goroutine `t` that returned `e`: it read `done`, if this was false it
received from the channel, and then it read `err`; `k` is the place of the last read. -/
def WaitForError (tr : Trace Ω) (t : Nat) (e : Option StateErr) (k : Nat) : Prop :=
  ∃ i b, i < k ∧ tr[i]? = some ⟨t, .read .done b⟩ ∧ tr[k]? = some ⟨t, .read .err e⟩ ∧
    (b = false → ∃ j, i < j ∧ j < k ∧ tr[j]? = some ⟨t, .recv⟩)

end Verif.Race
