import Verif.Model.Keygen
import Verif.Model.Sign

/-!
The slices that the caller of `NewKeygenState` and `NewSignState` hands over: the rounds keep them and do not copy what they point to, so that they see
what the caller writes there later.

`round0.Message` is the slice of the caller (pkg/frost/sign/base.go:61), and `BaseRound.partyIDs` is as well (pkg/state/base_round.go:19-22).  The
other arguments are copied: the group key and the secret share are values (pkg/frost/sign/base.go:63, 87), and the public shares are multiplied into new
elements (pkg/frost/sign/base.go:78).
-/

namespace Verif

namespace State

variable {G R W : Type}

/-- What can happen to a session while the caller still uses the memory it handed over: an event as before, or the caller writes. -/
inductive Act (G W : Type)
  | op (o : Op G)
  | write (w : W)

/-- One of these; `see w` is how the round looks to its methods after the caller has written `w`. -/
def act (impl : RoundImpl G R) (see : W → R → R) (s : State G R) : Act G W → Option (State G R × Ret G)
  | .op o => step impl s o
  | .write w => some ({ s with round := see w s.round }, .nothing)

/-- A history from `s` to `s'`, latest last. -/
inductive Acts (impl : RoundImpl G R) (see : W → R → R) (s : State G R) : List (Act G W × Ret G) → State G R → Prop
  | nil : Acts impl see s [] s
  | snoc {h s₁ s₂ a ret} : Acts impl see s h s₁ → act impl see s₁ a = some (s₂, ret) → Acts impl see s (h ++ [(a, ret)]) s₂

end State

variable {G : Type}

/-- The caller writes `m` into the memory of the message: `round.Message` is a slice of it (pkg/frost/sign/base.go:61) until `Reset` makes it nil, together
with `round.Output` (pkg/frost/sign/base.go:96, 108).  Simplified: what is written may have any length. -/
def Sign.seeMessage (m : Bytes) (r : Sign.Round G) : Sign.Round G := if r.hasOutput = true then { r with message := m } else r

/-- The caller writes `ids` into the memory of the list of signers: `BaseRound.partyIDs` is a slice of it (pkg/state/base_round.go:19-22,
pkg/frost/sign/base.go:54).  Simplified: what is written may have any length. -/
def Sign.seeIDs (ids : List ID) (r : Sign.Round G) : Sign.Round G := { r with partyIDs := ids }

/-- The same for the list of parties of a key generation (pkg/state/base_round.go:19-22, pkg/frost/keygen/base.go:55); the output has a copy
(pkg/frost/keygen/round2.go:37). -/
def Keygen.seeIDs (ids : List ID) (r : Keygen.Round G) : Keygen.Round G := { r with partyIDs := ids }

end Verif
