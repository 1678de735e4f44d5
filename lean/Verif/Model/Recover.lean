import Verif.Model.Pointers

/-!
Sessions whose caller recovers from a panic of `ProcessAll`, as the server of net/http does for its handlers.  The deferred `Unlock` in line 137 of pkg/state/state.go
runs while the panic unwinds, so the session can be used further.  It is as the loop in lines 148-153 left it.
-/

namespace Verif.Recover

open State (Ret)

variable {G R : Type}

/-- The loop over `receivedMessages` (pkg/state/state.go:148-153) when a call of `ProcessMessage` panics: the round as the calls before left it, and the keys of the messages
that those calls were for.  `none` if no call panics.  The call that panics has changed nothing: the rounds read the message before they write
(pkg/frost/keygen/round1.go:15-16, round2.go:15-18, pkg/frost/sign/round1.go:20, round2.go:22-25).  Simplified: panics elsewhere in `ProcessAll` are not covered, because
they do not happen in these protocols (`C119_keygen_complete`, `C119_sign_complete`). -/
def panicLoop (impl : RoundImpl G R) : List (ID × Option (Message G)) → R → Option (R × List ID)
  | [], _ => none
  | (k, msg) :: rest, r =>
    match impl.processMessage r msg with
    | .ok r' => (panicLoop impl rest r').map fun x => (x.1, k :: x.2)
    | .err _ => none
    | .panic => some (r, [])

/-- What is left of `receivedMessages` (pkg/state/state.go:148-153): the pointers are the same, but the messages with the given keys have been processed, and the last round of
the key generation erases the share then (pkg/frost/keygen/round2.go:26).  Simplified: as in `Verif/Model/State.lean` the session has values; the
pointers it has are to different messages, see `Verif/Model/Pointers.lean`. -/
def leave (after : Pointers.After G R) (r : R) (ids : List ID) (received : GoMap (Option (Message G))) : GoMap (Option (Message G)) :=
  received.map fun e => (e.1, if e.1 ∈ ids then e.2.map (after r) else e.2)

/-- A call of `ProcessAll()` (pkg/state/state.go:135-153) that panics in `ProcessMessage`, and the session afterwards. -/
def recovered (impl : RoundImpl G R) (after : Pointers.After G R) (ord : MapOrder) (s : State G R) : Option (State G R) :=
  if s.done then none
  else if s.received.length ≠ (IDSlice.N (impl.partyIDs s.round) - 1).toNat then none
  else (panicLoop impl (ord.order _ s.received) s.round).map fun x => { s with round := x.1, received := leave after s.round x.2 s.received }

/-- What happened to a session: a call that returned, or a call of `ProcessAll` (pkg/state/state.go:135) that panicked. -/
inductive Event (G : Type)
  | returned (op : State.Op G) (ret : Ret G)
  | panicked (ord : MapOrder)

/-- A history of a session whose caller recovers (pkg/state/state.go:80-191), latest event last.  A panic of the timer callback (pkg/state/state.go:45-49) ends it: the callback has
its own goroutine, in which nobody recovers. -/
inductive Hist (impl : RoundImpl G R) (after : Pointers.After G R) (s₀ : State G R) : List (Event G) → State G R → Prop
  | nil : Hist impl after s₀ [] s₀
  | returned {h s op ret s'} : Hist impl after s₀ h s → State.step impl s op = some (s', ret) → Hist impl after s₀ (h ++ [.returned op ret]) s'
  | panicked {h s ord s'} : Hist impl after s₀ h s → recovered impl after ord s = some s' → Hist impl after s₀ (h ++ [.panicked ord]) s'

end Verif.Recover
