import Verif.Props.Unfair
import Verif.Cases.Network

/-!
The theorem of `Props/Unfair` applied to three signers, of whom 3 speaks last and keeps the signature from 1, but not from 2.
-/

namespace Verif.Cases

open Verif State Props Props.Demo

example (kcoins : ID → Coins) : ∃ (init : ID → State Toy (Sign.Round Toy)) (h₁ h₂ : List (Op Toy × Ret Toy)) (s₁ s₂ : State Toy (Sign.Round Toy)) (sig : Signature Toy),
    Hist (Sign.impl toySha) (init 1) h₁ s₁ ∧ Hist (Sign.impl toySha) (init 2) h₂ s₂ ∧ s₁.err = some ⟨3, 2, .badSigShare⟩ ∧
    s₁.round.output.signature = none ∧ s₂.err = none ∧ s₂.round.output.signature = some sig := by
  obtain ⟨secret, pub, init, hset⟩ := setup_sign3 kcoins [1, 2, 3]
  obtain ⟨z, sig, _, _, _, h⟩ := C128_alike_refuted hset nonces nonces123 (a := 3) (by decide)
  have h := h (fun j => j = 1) (fun j => z 3 + if j = 1 then 1 else 0) (fun j hj => by simp [hj]) (fun j hj => by simp [hj])
  obtain ⟨s₁, a1, _, a2, _⟩ := h 1 (by decide) (by decide)
  obtain ⟨s₂, b1, _, _, b2⟩ := h 2 (by decide) (by decide)
  exact ⟨init, _, _, s₁, s₂, sig, a1, b1, (a2 rfl).1, (a2 rfl).2, (b2 (by decide)).1, (b2 (by decide)).2⟩

end Verif.Cases
