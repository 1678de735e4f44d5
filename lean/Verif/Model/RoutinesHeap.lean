import Verif.Model.Helpers
import Verif.Model.Heap

/-!
The second half of a call of `PartyRoutine` (`pkg/helpers/parties.go`) in a key generation, while the timer and other goroutines work with the
same session, with the memory that the first message shares with the session.
-/

namespace Verif.KeygenHeap

open State

variable {G : Type} [RGroup G]

/-- Where a call of `PartyRoutine` that has handed over its inputs stands (pkg/helpers/parties.go:35-50): before `ProcessAll` (line 35), in the
loop over the outputs (line 37) with the messages that are left, the elements of the first of them that `MarshalBinary` has already read
and the encodings so far, before `IsFinished` (line 44), before `WaitForError` (line 45), or it has returned. -/
inductive TailPC (G : Type)
  | processing
  | encoding (msgs : List (Message Addr)) (elements : List G) (out : List Bytes)
  | checking (out : List Bytes)
  | waiting (out : List Bytes)
  | returned (r : Except RoutineErr (List Bytes))

/-- What goroutines see that do not hold the mutex: the session, and while another one is in the call of `Reset` that ends the session
(pkg/state/state.go:209-210), the state it will leave.  It has set `done` and `err` by then (lines 225, 209). -/
structure Shared (G : Type) where
  session : State Addr (Round G)
  ending : Option (State Addr (Round G)) := none

/-- An element that may be read at an address (pkg/internal/polynomial/exponent.go:218):
while `Reset` is running (pkg/frost/keygen/base.go:70-78) the one before or the one after.
Simplified: an element is read at one moment. -/
def Shared.Sees (w : Shared G) (a : Addr) (v : G) : Prop := v = w.session.round.heap.cell a ∨ ∃ s, w.ending = some s ∧ v = s.round.heap.cell a

/-- The message that is encoded when the elements read are `elements` (pkg/messages/messages.go:29-55, keygen1.go:29-40, pkg/internal/polynomial/exponent.go:215-221).  Key generation sends
no `Sign1`. -/
def fill (m : Message Addr) (elements : List G) : Message G where
  header := m.header
  keyGen1 := m.keyGen1.map fun k => ⟨k.proof, elements⟩
  keyGen2 := m.keyGen2
  sign2 := m.sign2

/-- What another goroutine does: a call that does not end the session, the beginning of one that does up to `Reset` (pkg/state/state.go:205-211,
217-227), or the end of it.  Simplified: a call that does not end the session is one step, see `Shared.Sees` for one that does. -/
inductive OtherStep (sha : Sha512) : Shared G → Option (Op Addr × Ret Addr) → Shared G → Prop
  | call {s s' op ret} : step (impl sha) s op = some (s', ret) → s'.done = s.done → OtherStep sha ⟨s, none⟩ (some (op, ret)) ⟨s', none⟩
  | begins {s s' op ret} : step (impl sha) s op = some (s', ret) → s.done = false → s'.done = true →
      OtherStep sha ⟨s, none⟩ (some (op, ret)) ⟨{ s with done := true, err := s'.err }, some s'⟩
  | ends {s s'} : OtherStep sha ⟨s, some s'⟩ none ⟨s', none⟩

/-- One step of a call of `PartyRoutine` from line 35 on (pkg/helpers/parties.go:35-50).  `MarshalBinary` reads the elements of a `KeyGen1` one
after the other and without the mutex; `ProcessAll` waits until nobody holds the mutex.  Simplified: `IsFinished` and `WaitForError` are
taken to see the writes of the others in order, as in `RoutineStep`. -/
inductive TailStep (sha : Sha512) : Shared G → TailPC G → Option (Op Addr × Ret Addr) → Shared G → TailPC G → Prop
  | processed {s s' ord coins msgs} : step (impl sha) s (.processAll ord coins) = some (s', .messages msgs) →
      TailStep sha ⟨s, none⟩ .processing (some (.processAll ord coins, .messages msgs)) ⟨s', none⟩ (.encoding msgs [] [])
  | read {w m rest k elements out a v} : m.keyGen1 = some k → k.commitments[elements.length]? = some a → w.Sees a v →
      TailStep sha w (.encoding (m :: rest) elements out) none w (.encoding (m :: rest) (elements ++ [v]) out)
  | encoded {w m rest elements out b} : (∀ k, m.keyGen1 = some k → elements.length = k.commitments.length) →
      (fill m elements).marshalBinary = .ok b → TailStep sha w (.encoding (m :: rest) elements out) none w (.encoding rest [] (out ++ [b]))
  | unencodable {w m rest elements out c} : (∀ k, m.keyGen1 = some k → elements.length = k.commitments.length) →
      (fill m elements).marshalBinary = .err c → TailStep sha w (.encoding (m :: rest) elements out) none w (.returned (.error (.marshal c)))
  | all {w elements out} : TailStep sha w (.encoding [] elements out) none w (.checking out)
  | running {w out} : w.session.isFinished = false → TailStep sha w (.checking out) none w (.returned (.ok out))
  | finished {w out} : w.session.isFinished = true → TailStep sha w (.checking out) none w (.waiting out)
  | failed {w out c} : w.session.waitForError = some (some c) → TailStep sha w (.waiting out) none w (.returned (.error (.aborted c)))
  | succeeded {w out} : w.session.waitForError = some none → TailStep sha w (.waiting out) none w (.returned (.ok out))

/-- What can have happened since a call of `PartyRoutine` on a session in the state `s₀` came to line 35 (pkg/helpers/parties.go:35-50), in any
interleaving with the others: the calls, those of this one marked, what is seen, and where the call stands. -/
inductive Tail (sha : Sha512) (s₀ : State Addr (Round G)) : List (Bool × Op Addr × Ret Addr) → Shared G → TailPC G → Prop
  | start : Tail sha s₀ [] ⟨s₀, none⟩ .processing
  | own {l w pc ev w' p} : Tail sha s₀ l w pc → TailStep sha w pc ev w' p → Tail sha s₀ (l ++ ev.toList.map (Prod.mk true)) w' p
  | other {l w pc ev w'} : Tail sha s₀ l w pc → OtherStep sha w ev w' → Tail sha s₀ (l ++ ev.toList.map (Prod.mk false)) w' pc

end Verif.KeygenHeap
