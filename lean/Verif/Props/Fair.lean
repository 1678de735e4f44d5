import Verif.Lemmas.Fair
import Verif.Props.SignNet

/-!
Fair executions of key generation and signing among honest parties (C112).
-/

namespace Verif.Props

open Verif.Keygen Verif.State Polynomial

variable {G : Type} [RGroup G] {sha : Sha512}

section keygen

variable {ids : IDSlice} {t : UInt16} {timeout now : ID → Nat} {init : ID → State G (Keygen.Round G)}

/-- C112: in every fair execution of a key generation by honest parties there is a moment from which on everybody has finished, with
no error and with the shares of one joint polynomial. -/
theorem C112_fair_keygen (hs : Spec.KeygenSetup sha ids t timeout now init) (coins : ID → Coins) (event : Nat → Option (Spec.Event G))
    (net : Nat → Spec.Net G (Keygen.Round G)) (hE : Spec.Execution (Keygen.impl sha) ids coins init event net) (hF : Spec.Fair ids event net) :
    ∃ n, ∀ k, n ≤ k → ∀ i ∈ ids, ((net k).state i).done = true ∧ ((net k).state i).err = none ∧
      Spec.KeygenResult ids t (Spec.jointPoly ids t.toNat coins) i ((net k).state i).round := by
  obtain ⟨r₀, _, H, hN⟩ := netInv hs coins
  obtain ⟨n, hn⟩ := fair_finishes H hE (fun k => hN _ (execution_path hE k)) hF
  refine ⟨n, fun k hk i hi => ?_⟩
  obtain ⟨h1, _, _, _, h2⟩ := C35_honest_keygen hs coins _ (execution_path hE k)
  exact ⟨hn k hk i hi, h1 i hi, h2 i hi (hn k hk i hi)⟩

/-- C112: there are fair executions of every key generation by honest parties. -/
theorem C112_fair_keygen_exists (hs : Spec.KeygenSetup sha ids t timeout now init) (coins : ID → Coins) :
    ∃ event net, Spec.Execution (Keygen.impl sha) ids coins init event net ∧ Spec.Fair ids event net := by
  obtain ⟨r₀, _, H, hN⟩ := netInv hs coins
  have hE := robin_execution (Keygen.impl sha) ids coins init
  exact ⟨_, _, hE, robin_fair H fun n => hN _ (execution_path hE n)⟩

/-- C112: that refused messages are handed over again is needed.  In every key generation there is an execution in which everybody calls
`ProcessAll` again and again and every message is handed over to everybody it is for, and yet one party never finishes. -/
theorem C112_keygen_once_hangs (hs : Spec.KeygenSetup sha ids t timeout now init) (coins : ID → Coins) (a b : ID) (ha : a ∈ ids) (hb : b ∈ ids) (hab : a ≠ b) :
    ∃ event net, Spec.Execution (Keygen.impl sha) ids coins init event net ∧
      (∀ i ∈ ids, ∀ n, ∃ k, n ≤ k ∧ ∃ ord c o, event k = some (i, .processAll ord c, .messages o)) ∧
      (∀ i ∈ ids, ∀ n, ∀ m ∈ (net n).sent, m.header.fromID ≠ i → m.header.toID = 0 ∨ m.header.toID = i →
        ∃ k e, event k = some (i, .handle m, .handled e)) ∧
      ∀ n, ((net n).state b).done = false := by
  obtain ⟨r₀, _, H, hN⟩ := netInv hs coins
  exact tooEarly_hangs H hN ha hb hab

end keygen

section sign

variable {ids : IDSlice} {t : UInt16} {F : Scalar[X]} {message : Bytes} {secret : ID → SecretShare G} {pub : ID → Public G}
  {timeout now : ID → Nat} {init : ID → State G (Sign.Round G)}

/-- C112: in every fair execution of a signing session of honest parties there is a moment from which on everybody has finished, with
no error and with the same valid signature, which depends on the coins alone. -/
theorem C112_fair_sign (hs : Spec.SignSetup sha ids t F message secret pub timeout now init) (coins : ID → Coins)
    (hcoins : ∀ i ∈ ids, coins i 0 ≠ 0 ∧ coins i 1 ≠ 0) :
    ∃ sig : Signature G, PublicKey.verify sha (F.eval 0 • (base : G)) message sig = .ok true ∧
      ∀ event net, Spec.Execution (Sign.impl sha) ids coins init event net → Spec.Fair ids event net →
        ∃ n, ∀ k, n ≤ k → ∀ i ∈ ids, ((net k).state i).done = true ∧ ((net k).state i).err = none ∧
          ((net k).state i).round.output.signature = some sig := by
  obtain ⟨sig, hsig, hall⟩ := C43_honest_sign hs coins hcoins
  refine ⟨sig, hsig, fun event net hE hF => ?_⟩
  obtain ⟨r₀, _, H, hN⟩ := signNetInv hs coins hcoins
  obtain ⟨n, hn⟩ := fair_finishes H hE (fun k => hN _ (execution_path hE k)) hF
  refine ⟨n, fun k hk i hi => ?_⟩
  obtain ⟨h1, _, h2, _⟩ := hall _ (execution_path hE k)
  exact ⟨hn k hk i hi, h1 i hi, h2 i hi (hn k hk i hi)⟩

/-- C112: there are fair executions of every signing session of honest parties. -/
theorem C112_fair_sign_exists (hs : Spec.SignSetup sha ids t F message secret pub timeout now init) (coins : ID → Coins)
    (hcoins : ∀ i ∈ ids, coins i 0 ≠ 0 ∧ coins i 1 ≠ 0) :
    ∃ event net, Spec.Execution (Sign.impl sha) ids coins init event net ∧ Spec.Fair ids event net := by
  obtain ⟨r₀, _, H, hN⟩ := signNetInv hs coins hcoins
  have hE := robin_execution (Sign.impl sha) ids coins init
  exact ⟨_, _, hE, robin_fair H fun n => hN _ (execution_path hE n)⟩

/-- C112: in signing, too, handing over every message once is not enough. -/
theorem C112_sign_once_hangs (hs : Spec.SignSetup sha ids t F message secret pub timeout now init) (coins : ID → Coins)
    (hcoins : ∀ i ∈ ids, coins i 0 ≠ 0 ∧ coins i 1 ≠ 0) (a b : ID) (ha : a ∈ ids) (hb : b ∈ ids) (hab : a ≠ b) :
    ∃ event net, Spec.Execution (Sign.impl sha) ids coins init event net ∧
      (∀ i ∈ ids, ∀ n, ∃ k, n ≤ k ∧ ∃ ord c o, event k = some (i, .processAll ord c, .messages o)) ∧
      (∀ i ∈ ids, ∀ n, ∀ m ∈ (net n).sent, m.header.fromID ≠ i → m.header.toID = 0 ∨ m.header.toID = i →
        ∃ k e, event k = some (i, .handle m, .handled e)) ∧
      ∀ n, ((net n).state b).done = false := by
  obtain ⟨r₀, _, H, hN⟩ := signNetInv hs coins hcoins
  exact tooEarly_hangs H hN ha hb hab

end sign

end Verif.Props
