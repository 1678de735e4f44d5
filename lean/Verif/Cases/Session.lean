import Verif.Props.Demo

/-!
The key generation sessions of `Props/Demo.lean` as closed terms, so that the theorems can be applied to them.
-/

namespace Verif.Cases

open State Props.Demo

/-- Key generation over the small group. -/
abbrev KI : RoundImpl Toy (Keygen.Round Toy) := Keygen.impl toySha

/-- What happens in a session of party 1 of three: the history and the state after it. -/
def after (ops : List (Op Toy)) : List (Op Toy × Ret Toy) × State Toy (Keygen.Round Toy) := (run KI (session ids 1 1) ops).getD ([], session ids 1 1)

/-- The state after it. -/
def st (ops : List (Op Toy)) : State Toy (Keygen.Round Toy) := (after ops).2

theorem hist (ops : List (Op Toy)) (h : (run KI (session ids 1 1) ops).isSome = true) :
    Hist KI (newBaseState KI (round0 ids 1 1) 10 0) (after ops).1 (st ops) := by
  obtain ⟨x, hx⟩ := Option.isSome_iff_exists.mp h
  refine run_hist (ops := ops) (hx.trans ?_)
  simp [st, after, hx]

/-- What happens after a state. -/
def more (s : State Toy (Keygen.Round Toy)) (ops : List (Op Toy)) : List (Op Toy × Ret Toy) × State Toy (Keygen.Round Toy) := (run KI s ops).getD ([], s)

theorem hist_more {s : State Toy (Keygen.Round Toy)} (ops : List (Op Toy)) (h : (run KI s ops).isSome = true) : Hist KI s (more s ops).1 (more s ops).2 := by
  obtain ⟨x, hx⟩ := Option.isSome_iff_exists.mp h
  refine run_hist (ops := ops) (hx.trans ?_)
  simp [more, hx]

/-- The start of the session. -/
def ops0 : List (Op Toy) := [.processAll .insertion (coins [5, 6, 7])]

/-- The commitments of the other two. -/
def com2 : Message Toy := Message.newKeyGen1 2 ⟨0, 1⟩ [Toy.of 7, Toy.of 8]
def com3 : Message Toy := Message.newKeyGen1 3 ⟨0, 1⟩ [Toy.of 9, Toy.of 10]

/-- The shares of the other two. -/
def share2 : Message Toy := Message.newKeyGen2 2 1 15
def share3 : Message Toy := Message.newKeyGen2 3 1 19

/-- Round 1: one message stored, one queued. -/
def ops1 : List (Op Toy) := ops0 ++ [.handle com2, .advance 3, .handle share3]

/-- Round 2: the share that came early is stored. -/
def ops2 : List (Op Toy) := ops1 ++ [.handle com3, .processAll .reversed (coins [])]

/-- The end. -/
def ops3 : List (Op Toy) := ops2 ++ [.handle share2, .processAll .reversed (coins [])]

theorem hist0 : Hist KI (newBaseState KI (round0 ids 1 1) 10 0) (after ops0).1 (st ops0) := hist ops0 (by decide +kernel)
theorem hist1 : Hist KI (newBaseState KI (round0 ids 1 1) 10 0) (after ops1).1 (st ops1) := hist ops1 (by decide +kernel)
theorem hist2 : Hist KI (newBaseState KI (round0 ids 1 1) 10 0) (after ops2).1 (st ops2) := hist ops2 (by decide +kernel)
theorem hist3 : Hist KI (newBaseState KI (round0 ids 1 1) 10 0) (after ops3).1 (st ops3) := hist ops3 (by decide +kernel)

/-- A key generation that is unaffected by what the rounds do meets the requirement on round objects. -/
theorem stable : KI.Stable := Keygen.impl_stable toySha

/-- What `ProcessAll` makes of a state; the state itself if it crashes. -/
def proc (ord : MapOrder) (c : Coins) (s : State Toy (Keygen.Round Toy)) : State Toy (Keygen.Round Toy) × List (Message Toy) := (processAll KI ord c s).getD (s, [])

theorem proc_eq {ord : MapOrder} {c : Coins} {s : State Toy (Keygen.Round Toy)} (h : (processAll KI ord c s).isSome = true) :
    processAll KI ord c s = some ((proc ord c s).1, (proc ord c s).2) := by
  obtain ⟨x, hx⟩ := Option.isSome_iff_exists.mp h
  simp [proc, hx]

/-- What an event makes of a state. -/
def after1 (s : State Toy (Keygen.Round Toy)) (op : Op Toy) : State Toy (Keygen.Round Toy) × Ret Toy := (step KI s op).getD (s, .nothing)

theorem step_eq {s : State Toy (Keygen.Round Toy)} {op : Op Toy} (h : (step KI s op).isSome = true) :
    step KI s op = some ((after1 s op).1, (after1 s op).2) := by
  obtain ⟨x, hx⟩ := Option.isSome_iff_exists.mp h
  simp [after1, hx]

end Verif.Cases
