import Verif.Model.State
import Verif.Spec.Random
import Verif.Spec.View

/-!
What a coalition sees of a key generation whose scalars are read from a source of random bytes, for `Props/RandomView`.
-/

namespace Verif.Spec

variable {G : Type} [RGroup G]

/-- An event without the scalars that are drawn in it. -/
def blindOp : State.Op G → State.Op G
  | .processAll ord _ => .processAll ord fun _ => 0
  | op => op

/-- A history as the parties in `T` see it: the events, and the messages they get. -/
def viewOf (T : List ID) (h : List (State.Op G × State.Ret G)) : List (State.Op G × State.Ret G) := h.map fun p => (blindOp p.1, match p.2 with
  | .messages out => .messages (out.filter (sees T))
  | r => r)

/-- All the scalars drawn in the history are from `c`. -/
def Draws (c : Coins) (h : List (State.Op G × State.Ret G)) : Prop := ∀ ord c' r, (State.Op.processAll ord c', r) ∈ h → c' = c

/-- The coins of a key generation with the secret `x`, the other `t` coefficients and the nonce of the proof. -/
def secretCoins {t : Nat} (x : Scalar) (v : Fin (t + 1) → Scalar) : Coins
  | 0 => x
  | i + 1 => if h : i < t + 1 then v ⟨i, h⟩ else 0

/-- What the stand-in of `Spec/View` is given: a public key, and `t + 1` scalars: the shares of the members of `T` and the nonce. -/
noncomputable def givenFrom {t : Nat} (T : Fin t → ID) (A : G) (v : Fin (t + 1) → Scalar) : Given G :=
  ⟨A, v (Fin.last t), fun j => open Classical in if h : ∃ i, T i = j then v h.choose.castSucc else 0⟩

end Verif.Spec
