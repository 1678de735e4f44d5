import Verif.Lemmas.PromptSharp
import Verif.Props.Fair
import Verif.Props.NetTime

/-!
C113: honest parties whose callers and network are prompt never time out, and how long they take.
-/

namespace Verif.Props

open Verif.Keygen Verif.State Polynomial

variable {G : Type} [RGroup G] {sha : Sha512}

section keygen

variable {ids : IDSlice} {t : UInt16} {timeout now : ID → Nat} {init : ID → State G (Keygen.Round G)}

/-- C113: when callers and network take at most `δ`, the last session is created at the time `σ`, and every timeout (if there is one) is longer than
`3 δ` and does not end before `σ + 2 δ` when it starts with the session, then no party of a key generation ever times out or fails otherwise,
and after `σ + 5 δ` everybody has finished with the shares of one joint polynomial. -/
theorem C113_staggered_keygen (hs : Spec.KeygenSetup sha ids t timeout now init) (coins : ID → Coins) (event : Nat → Option (Spec.Event G))
    (net : Nat → Spec.Net G (Keygen.Round G)) (time : Nat → Nat) (δ σ : Nat) (start : ID → Nat)
    (hE : Spec.TimedExecution (Keygen.impl sha) ids coins init event net time) (hP : Spec.SwiftFrom ids δ start event net time)
    (hσ : ∀ i ∈ ids, start i ≤ σ) (ht : ∀ i ∈ ids, timeout i = 0 ∨ 3 * δ < timeout i ∧ σ + 2 * δ < start i + timeout i)
    (n : Nat) (i : ID) (hi : i ∈ ids) :
    ((net n).state i).err = none ∧ (σ + 5 * δ < time n → ((net n).state i).done = true ∧
      Spec.KeygenResult ids t (Spec.jointPoly ids t.toNat coins) i ((net n).state i).round) := by
  obtain ⟨r₀, _, H, hN⟩ := netInv hs coins
  have E := prompt_execution H hN (start_init (hN _ (.refl _))) hE hP hσ ht
  obtain ⟨h1, _, _, _, h2⟩ := C35_honest_keygen hs coins _ (execution_path E n)
  refine ⟨h1 i hi, fun hn => ?_⟩
  have hd := prompt_finishes H E (fun k => hN _ (execution_path E k)) hE.zero (SwiftFrom.until hE.mono hP (σ + 5 * δ + 1)) hσ (by omega) hn i hi
  exact ⟨hd, h2 i hi hd⟩

/-- C113: there are such executions for sessions created within `δ` of each other. -/
theorem C113_staggered_keygen_exists (hs : Spec.KeygenSetup sha ids t timeout now init) (coins : ID → Coins) (δ σ : Nat) (start : ID → Nat)
    (hσ : ∀ i ∈ ids, start i ≤ σ ∧ σ ≤ start i + δ) :
    ∃ event net time, Spec.TimedExecution (Keygen.impl sha) ids coins init event net time ∧ Spec.SwiftFrom ids δ start event net time ∧
      ∀ T, ∃ n, T < time n := by
  obtain ⟨r₀, _, H, hN⟩ := netInv hs coins
  exact robin_staggered H hN hσ

/-- C113: for sessions created at the same time: when callers and network take at most `δ` and every timeout is longer than `3 δ` (or there is none), then no party of a key
generation ever times out or fails otherwise, and after `5 δ` everybody has finished with the shares of one joint polynomial. -/
theorem C113_prompt_keygen (hs : Spec.KeygenSetup sha ids t timeout now init) (coins : ID → Coins) (event : Nat → Option (Spec.Event G))
    (net : Nat → Spec.Net G (Keygen.Round G)) (time : Nat → Nat) (δ : Nat)
    (hE : Spec.TimedExecution (Keygen.impl sha) ids coins init event net time) (hP : Spec.Swift ids δ event net time)
    (ht : ∀ i ∈ ids, timeout i = 0 ∨ 3 * δ < timeout i) (n : Nat) (i : ID) (hi : i ∈ ids) :
    ((net n).state i).err = none ∧ (5 * δ < time n → ((net n).state i).done = true ∧
      Spec.KeygenResult ids t (Spec.jointPoly ids t.toNat coins) i ((net n).state i).round) := by
  have h := C113_staggered_keygen hs coins event net time δ 0 (fun _ => 0) hE (Swift.from hP) (fun _ _ => le_refl _)
    (fun i hi => (ht i hi).imp_right fun h => ⟨h, by omega⟩) n i hi
  rwa [Nat.zero_add] at h

/-- C113: there are such executions of every key generation by honest parties, for every `δ`, in which time goes on for ever. -/
theorem C113_prompt_keygen_exists (hs : Spec.KeygenSetup sha ids t timeout now init) (coins : ID → Coins) :
    ∃ event net time, Spec.TimedExecution (Keygen.impl sha) ids coins init event net time ∧ (∀ δ, Spec.Swift ids δ event net time) ∧
      ∀ T, ∃ n, T < time n := by
  obtain ⟨r₀, _, H, hN⟩ := netInv hs coins
  exact robin_prompt H hN

/-- C113: the bound on the timeout is sharp.  A party whose timeout is at most `3 δ` times out in some execution in which callers and
network take at most `δ`. -/
theorem C113_slow_keygen (hs : Spec.KeygenSetup sha ids t timeout now init) (coins : ID → Coins) (δ : Nat) (i : ID) (hi : i ∈ ids)
    (h0 : timeout i ≠ 0) (hle : timeout i ≤ 3 * δ) :
    ∃ event net time, Spec.TimedExecution (Keygen.impl sha) ids coins init event net time ∧ Spec.Swift ids δ event net time ∧
      ∃ n, ∀ k, n ≤ k → Spec.TimedOut ((net k).state i) := by
  obtain ⟨r₀, _, H, hN⟩ := netInv hs coins
  exact sharp_times_out H hN (fun N hp j hj => (C76_keygen hs coins N hp j hj).2.2) hi h0 hle

end keygen

section sign

variable {ids : IDSlice} {t : UInt16} {F : Scalar[X]} {message : Bytes} {secret : ID → SecretShare G} {pub : ID → Public G}
  {timeout now : ID → Nat} {init : ID → State G (Sign.Round G)}

/-- C113: the same for signing; after `σ + 5 δ` everybody has the same valid signature, which depends on the coins alone. -/
theorem C113_staggered_sign (hs : Spec.SignSetup sha ids t F message secret pub timeout now init) (coins : ID → Coins)
    (hcoins : ∀ i ∈ ids, coins i 0 ≠ 0 ∧ coins i 1 ≠ 0) :
    ∃ sig : Signature G, PublicKey.verify sha (F.eval 0 • (base : G)) message sig = .ok true ∧
      ∀ event net time δ σ start, Spec.TimedExecution (Sign.impl sha) ids coins init event net time → Spec.SwiftFrom ids δ start event net time →
        (∀ i ∈ ids, start i ≤ σ) → (∀ i ∈ ids, timeout i = 0 ∨ 3 * δ < timeout i ∧ σ + 2 * δ < start i + timeout i) →
        ∀ n, ∀ i ∈ ids, ((net n).state i).err = none ∧
          (σ + 5 * δ < time n → ((net n).state i).done = true ∧ ((net n).state i).round.output.signature = some sig) := by
  obtain ⟨sig, hsig, hall⟩ := C43_honest_sign hs coins hcoins
  refine ⟨sig, hsig, fun event net time δ σ start hE hP hσ ht n i hi => ?_⟩
  obtain ⟨r₀, _, H, hN⟩ := signNetInv hs coins hcoins
  have E := prompt_execution H hN (start_init (hN _ (.refl _))) hE hP hσ ht
  obtain ⟨h1, _, h2, _⟩ := hall _ (execution_path E n)
  refine ⟨h1 i hi, fun hn => ?_⟩
  have hd := prompt_finishes H E (fun k => hN _ (execution_path E k)) hE.zero (SwiftFrom.until hE.mono hP (σ + 5 * δ + 1)) hσ (by omega) hn i hi
  exact ⟨hd, h2 i hi hd⟩

/-- C113: there are such executions of signing sessions created within `δ` of each other. -/
theorem C113_staggered_sign_exists (hs : Spec.SignSetup sha ids t F message secret pub timeout now init) (coins : ID → Coins)
    (hcoins : ∀ i ∈ ids, coins i 0 ≠ 0 ∧ coins i 1 ≠ 0) (δ σ : Nat) (start : ID → Nat) (hσ : ∀ i ∈ ids, start i ≤ σ ∧ σ ≤ start i + δ) :
    ∃ event net time, Spec.TimedExecution (Sign.impl sha) ids coins init event net time ∧ Spec.SwiftFrom ids δ start event net time ∧
      ∀ T, ∃ n, T < time n := by
  obtain ⟨r₀, _, H, hN⟩ := signNetInv hs coins hcoins
  exact robin_staggered H hN hσ

/-- C113: for signing sessions created at the same time; after `5 δ` everybody has the same valid signature, which depends on the coins alone. -/
theorem C113_prompt_sign (hs : Spec.SignSetup sha ids t F message secret pub timeout now init) (coins : ID → Coins)
    (hcoins : ∀ i ∈ ids, coins i 0 ≠ 0 ∧ coins i 1 ≠ 0) :
    ∃ sig : Signature G, PublicKey.verify sha (F.eval 0 • (base : G)) message sig = .ok true ∧
      ∀ event net time δ, Spec.TimedExecution (Sign.impl sha) ids coins init event net time → Spec.Swift ids δ event net time →
        (∀ i ∈ ids, timeout i = 0 ∨ 3 * δ < timeout i) → ∀ n, ∀ i ∈ ids, ((net n).state i).err = none ∧
          (5 * δ < time n → ((net n).state i).done = true ∧ ((net n).state i).round.output.signature = some sig) := by
  obtain ⟨sig, hsig, hall⟩ := C113_staggered_sign hs coins hcoins
  refine ⟨sig, hsig, fun event net time δ hE hP ht n i hi => ?_⟩
  have h := hall event net time δ 0 (fun _ => 0) hE (Swift.from hP) (fun _ _ => le_refl _) (fun i hi => (ht i hi).imp_right fun h => ⟨h, by omega⟩) n i hi
  rwa [Nat.zero_add] at h

/-- C113: there are such executions of every signing session of honest parties, for every `δ`, in which time goes on for ever. -/
theorem C113_prompt_sign_exists (hs : Spec.SignSetup sha ids t F message secret pub timeout now init) (coins : ID → Coins)
    (hcoins : ∀ i ∈ ids, coins i 0 ≠ 0 ∧ coins i 1 ≠ 0) :
    ∃ event net time, Spec.TimedExecution (Sign.impl sha) ids coins init event net time ∧ (∀ δ, Spec.Swift ids δ event net time) ∧
      ∀ T, ∃ n, T < time n := by
  obtain ⟨r₀, _, H, hN⟩ := signNetInv hs coins hcoins
  exact robin_prompt H hN

/-- C113: in signing, too, the bound on the timeout is sharp. -/
theorem C113_slow_sign (hs : Spec.SignSetup sha ids t F message secret pub timeout now init) (coins : ID → Coins)
    (hcoins : ∀ i ∈ ids, coins i 0 ≠ 0 ∧ coins i 1 ≠ 0) (δ : Nat) (i : ID) (hi : i ∈ ids) (h0 : timeout i ≠ 0) (hle : timeout i ≤ 3 * δ) :
    ∃ event net time, Spec.TimedExecution (Sign.impl sha) ids coins init event net time ∧ Spec.Swift ids δ event net time ∧
      ∃ n, ∀ k, n ≤ k → Spec.TimedOut ((net k).state i) := by
  obtain ⟨r₀, _, H, hN⟩ := signNetInv hs coins hcoins
  obtain ⟨_, _, hno⟩ := C76_sign hs coins hcoins
  exact sharp_times_out H hN (fun N hp j hj op ha _ => (hno N hp j hj).2.2 op ha) hi h0 hle

end sign

end Verif.Props
