import Verif.Props.Channel
import Verif.Props.NetTime
import Verif.Props.EndToEnd
import Verif.Props.Cmd
import Verif.Props.Crash
import Verif.Props.Example
import Verif.Props.ExampleMain
import Verif.Props.Heap
import Verif.Props.Fair
import Verif.Props.Prompt

/-!
The theorems about whole networks and programs that have hypotheses, applied to concrete parties (`Props/Channel`, `Props/NetTime`, `Props/EndToEnd`,
`Props/Cmd`, `Props/Crash`, `Props/Example`, `Props/ExampleMain`, `Props/Heap`, `Props/Fair`, `Props/Prompt`).
-/

namespace Verif.Cases

open Verif Verif.Props Verif.Props.Demo State Polynomial

/-! ### Channels -/

/-- Where executions are bounded there is one after which nothing can happen. -/
theorem exists_final {G R : Type} [RGroup G] {impl : RoundImpl G R} {ids : List ID} {coins : ID → Coins} {S₀ : Chan.Sys G R} {bound : Nat}
    (hb : ∀ (f : Nat → Chan.Sys G R), f 0 = S₀ → ∀ k, (∀ l < k, Chan.Step impl ids coins (f l) (f (l + 1))) → k ≤ bound) :
    ∃ S, Chan.Steps impl ids coins S₀ S ∧ ∀ S', ¬ Chan.Step impl ids coins S S' := by
  by_contra hno
  have hnext : ∀ S : {S // Chan.Steps impl ids coins S₀ S}, ∃ S' : {S // Chan.Steps impl ids coins S₀ S}, Chan.Step impl ids coins S.1 S'.1 := by
    rintro ⟨S, hS⟩
    by_contra h
    exact hno ⟨S, hS, fun S' hS' => h ⟨⟨S', hS.tail hS'⟩, hS'⟩⟩
  choose next hn using hnext
  have := hb (fun n => (next^[n] ⟨S₀, .refl _⟩).1) rfl (bound + 1) fun l _ => by
    have := hn (next^[l] ⟨S₀, .refl _⟩)
    rwa [← Function.iterate_succ_apply' next] at this
  omega

theorem final3 (coins : ID → Coins) : ∃ S, Chan.Steps (Keygen.impl toySha) ids coins (Chan.start (session ids 1)) S ∧
    ∀ S', ¬ Chan.Step (Keygen.impl toySha) ids coins S S' :=
  exists_final fun f h0 k h => C72_keygen_ends keygen_setup coins (by decide) f h0 k h

example (coins : ID → Coins) := fun f h0 k h => C72_keygen_ends keygen_setup coins (by decide) f h0 k h

/-- `C72_keygen_safe` and `C72_keygen_final` on an execution of three parties that has come to its end. -/
example (coins : ID → Coins) : ∃ S : Chan.Sys Toy (Keygen.Round Toy), (S 2).started = true ∧ (S 2).outbox = [] ∧ (S 2).state.err = none :=
  let ⟨S, h1, h2⟩ := final3 coins
  ⟨S, (C72_keygen_final keygen_setup coins S h1 h2 2 (by decide)).1, (C72_keygen_final keygen_setup coins S h1 h2 2 (by decide)).2.1,
    (C72_keygen_safe keygen_setup coins S h1 2 (by decide)).1⟩

/-- Two parties. -/
theorem setup2 : Spec.KeygenSetup toySha [1, 2] 1 (fun _ => 10) (fun _ => 0) (session [1, 2] 1) where
  sorted := by decide
  nodup := by decide
  zero := by decide
  start := by
    intro i hi
    have hi : i ∈ [(1 : ID), 2] := hi
    fin_cases hi <;> exact session_ok (by decide) (by decide) (by decide +kernel)

example (coins : ID → Coins) : ∃ S : Chan.Sys Toy (Keygen.Round Toy), ∀ i ∈ ([1, 2] : IDSlice), (S i).state.done = true ∧ (S i).exited = true :=
  let ⟨S, h1, h2⟩ := exists_final fun f h0 k h => C72_keygen_ends setup2 coins (by decide) f h0 k h
  ⟨S, fun i hi => C72_keygen_two setup2 coins rfl S h1 h2 i hi⟩

/-- The nonces of the signers. -/
def nonces : ID → Coins := fun i n => i.toNat + n + 1

theorem nonces13 : ∀ i ∈ [(1 : ID), 3], nonces i 0 ≠ 0 ∧ nonces i 1 ≠ 0 := by decide +kernel

/-- Two signers: all theorems of C72 about signing that hold for any number. -/
example (kcoins : ID → Coins) : ∃ S : Chan.Sys Toy (Sign.Round Toy), ∀ i ∈ [(1 : ID), 3],
    (S i).state.done = true ∧ (S i).exited = true ∧ (S i).started = true ∧ (S i).state.err = none := by
  obtain ⟨_, _, _, secret, pub, init, hset, _⟩ := network kcoins nonces nonces13 [1, 2, 3]
  obtain ⟨S, h1, h2⟩ := exists_final fun f h0 k h => C72_sign_ends hset nonces nonces13 f h0 k h
  obtain ⟨sig, -, hsafe⟩ := C72_sign_safe hset nonces nonces13
  exact ⟨S, fun i hi => ⟨(C72_sign_two hset nonces nonces13 rfl S h1 h2 i hi).1, (C72_sign_two hset nonces nonces13 rfl S h1 h2 i hi).2,
    (C72_sign_final hset nonces nonces13 S h1 h2 i hi).1, (hsafe S h1 i hi).1⟩⟩

theorem nonces123 : ∀ i ∈ ids, nonces i 0 ≠ 0 ∧ nonces i 1 ≠ 0 := by decide +kernel

/-- Three signers. -/
theorem setup_sign3 (kcoins : ID → Coins) (message : Bytes) : ∃ (secret : ID → SecretShare Toy) (pub : ID → Public Toy) (init : ID → State Toy (Sign.Round Toy)),
    Spec.SignSetup toySha ids 1 (Spec.jointPoly ids 1 kcoins) message secret pub (fun _ => 10) (fun _ => 0) init := by
  obtain ⟨K, hK, hd⟩ := C36_honest_keygen_completes keygen_setup kcoins _ (.refl _)
  let secret : ID → SecretShare Toy := fun i => (K.state i).round.output.secretKey.getD ⟨0, 0, Toy.of 0⟩
  let pub : ID → Public Toy := fun i => (K.state i).round.output.pub.getD key
  obtain ⟨⟨init, hinit⟩, h2⟩ := C43_keygen_then_sign (ids := ids) (secret := secret) (pub := pub) keygen_setup kcoins K hK (by decide) (by decide) (fun _ h => h) (by decide)
    (fun i hi => (hd i hi).1) (fun i hi => by rw [(hd i hi).2.2.1]; simp [secret, (hd i hi).2.2.1])
    (fun i hi => by obtain ⟨p, hp, _⟩ := (hd i hi).2.2.2; rw [hp]; simp [pub, hp]) message (fun _ => 10) (fun _ => 0)
  exact ⟨secret, pub, init, h2 init hinit⟩

example (kcoins : ID → Coins) : ∃ (init : ID → State Toy (Sign.Round Toy)) (S : Chan.Sys Toy (Sign.Round Toy)),
    Chan.Steps (Sign.impl toySha) ids nonces (Chan.start init) S ∧
    ∀ S', Chan.Steps (Sign.impl toySha) ids nonces S S' → (S' 2).state.done = false ∧ (S' 2).exited = false := by
  obtain ⟨secret, pub, init, hset⟩ := setup_sign3 kcoins [1, 2, 3]
  exact ⟨init, C72_sign_can_hang hset nonces nonces123 (by decide) 2 (by decide)⟩

/-! ### Fair executions -/

/-- `C112_fair_keygen`, `C112_fair_keygen_exists`: three parties, every choice of coins. -/
example (coins : ID → Coins) : ∃ (net : Nat → Spec.Net Toy (Keygen.Round Toy)) (n : Nat), net 0 = Spec.Net.start (session ids 1) ∧
    ∀ k, n ≤ k → ((net k).state 2).done = true ∧ ((net k).state 2).err = none := by
  obtain ⟨event, net, hE, hF⟩ := C112_fair_keygen_exists keygen_setup coins
  obtain ⟨n, hn⟩ := C112_fair_keygen keygen_setup coins event net hE hF
  exact ⟨net, n, hE.start, fun k hk => ⟨(hn k hk 2 (by decide)).1, (hn k hk 2 (by decide)).2.1⟩⟩

/-- `C112_fair_sign`, `C112_fair_sign_exists`: three signers. -/
example (kcoins : ID → Coins) : ∃ (net : Nat → Spec.Net Toy (Sign.Round Toy)) (n : Nat) (sig : Signature Toy),
    ∀ k, n ≤ k → ∀ i ∈ ids, ((net k).state i).round.output.signature = some sig := by
  obtain ⟨secret, pub, init, hset⟩ := setup_sign3 kcoins [1, 2, 3]
  obtain ⟨event, net, hE, hF⟩ := C112_fair_sign_exists hset nonces nonces123
  obtain ⟨sig, _, h⟩ := C112_fair_sign hset nonces nonces123
  obtain ⟨n, hn⟩ := h event net hE hF
  exact ⟨net, n, sig, fun k hk i hi => (hn k hk i hi).2.2⟩

example (coins : ID → Coins) := C112_keygen_once_hangs keygen_setup coins 1 3 (by decide) (by decide) (by decide)

example (kcoins : ID → Coins) : ∃ net : Nat → Spec.Net Toy (Sign.Round Toy), ∀ n, ((net n).state 2).done = false := by
  obtain ⟨secret, pub, init, hset⟩ := setup_sign3 kcoins [1, 2, 3]
  obtain ⟨_, net, _, _, _, h⟩ := C112_sign_once_hangs hset nonces nonces123 1 2 (by decide) (by decide) (by decide)
  exact ⟨net, h⟩

/-! ### Prompt executions -/

/-- `C113_prompt_keygen`, `C113_prompt_keygen_exists`: three parties with timeout 10 and `δ = 3`. -/
example (coins : ID → Coins) : ∃ (event : Nat → Option (Spec.Event Toy)) (net : Nat → Spec.Net Toy (Keygen.Round Toy)) (time : Nat → Nat),
    Spec.TimedExecution (Keygen.impl toySha) ids coins (session ids 1) event net time ∧ Spec.Swift ids 3 event net time ∧
    (∀ n, ((net n).state 2).err = none) ∧ ∃ n, ((net n).state 2).done = true := by
  obtain ⟨event, net, time, hE, hP, hT⟩ := C113_prompt_keygen_exists keygen_setup coins
  have h := fun n => C113_prompt_keygen keygen_setup coins event net time 3 hE (hP 3) (fun _ _ => Or.inr (by decide)) n 2 (by decide)
  obtain ⟨n, hn⟩ := hT 15
  exact ⟨event, net, time, hE, hP 3, fun n => (h n).1, n, ((h n).2 hn).1⟩

/-- `C113_prompt_sign`, `C113_prompt_sign_exists`: three signers with timeout 10 and `δ = 3`. -/
example (kcoins : ID → Coins) : ∃ (net : Nat → Spec.Net Toy (Sign.Round Toy)) (n : Nat) (sig : Signature Toy),
    ∀ i ∈ ids, ((net n).state i).err = none ∧ ((net n).state i).round.output.signature = some sig := by
  obtain ⟨secret, pub, init, hset⟩ := setup_sign3 kcoins [1, 2, 3]
  obtain ⟨event, net, time, hE, hP, hT⟩ := C113_prompt_sign_exists hset nonces nonces123
  obtain ⟨sig, _, h⟩ := C113_prompt_sign hset nonces nonces123
  obtain ⟨n, hn⟩ := hT 15
  have h := h event net time 3 hE (hP 3) (fun _ _ => Or.inr (by decide)) n
  exact ⟨net, n, sig, fun i hi => ⟨(h i hi).1, ((h i hi).2 hn).2⟩⟩

/-- When the sessions of the parties 1, 2, 3 are created. -/
def starts (i : ID) : Nat := if i = 1 then 0 else if i = 2 then 2 else 1

/-- `C113_staggered_keygen`, `C113_staggered_keygen_exists`: the same parties, created at the times 0, 2 and 1. -/
example (coins : ID → Coins) : ∃ (event : Nat → Option (Spec.Event Toy)) (net : Nat → Spec.Net Toy (Keygen.Round Toy)) (time : Nat → Nat),
    Spec.TimedExecution (Keygen.impl toySha) ids coins (session ids 1) event net time ∧ Spec.SwiftFrom ids 3 starts event net time ∧
    (∀ n, ((net n).state 2).err = none) ∧ ∃ n, ((net n).state 2).done = true := by
  obtain ⟨event, net, time, hE, hP, hT⟩ := C113_staggered_keygen_exists keygen_setup coins 3 2 starts (by decide)
  have h := fun n => C113_staggered_keygen keygen_setup coins event net time 3 2 starts hE hP (by decide)
    (fun i hi => Or.inr ⟨by decide, by revert i; decide⟩) n 2 (by decide)
  obtain ⟨n, hn⟩ := hT 17
  exact ⟨event, net, time, hE, hP, fun n => (h n).1, n, ((h n).2 hn).1⟩

/-- `C113_staggered_sign`, `C113_staggered_sign_exists`: signers created at the times 0, 2 and 1. -/
example (kcoins : ID → Coins) : ∃ (net : Nat → Spec.Net Toy (Sign.Round Toy)) (n : Nat) (sig : Signature Toy),
    ∀ i ∈ ids, ((net n).state i).err = none ∧ ((net n).state i).round.output.signature = some sig := by
  obtain ⟨secret, pub, init, hset⟩ := setup_sign3 kcoins [1, 2, 3]
  obtain ⟨event, net, time, hE, hP, hT⟩ := C113_staggered_sign_exists hset nonces nonces123 3 2 starts (by decide)
  obtain ⟨sig, _, h⟩ := C113_staggered_sign hset nonces nonces123
  obtain ⟨n, hn⟩ := hT 17
  have h := h event net time 3 2 starts hE hP (by decide) (fun i hi => Or.inr ⟨by decide, by revert i; decide⟩) n
  exact ⟨net, n, sig, fun i hi => ⟨(h i hi).1, ((h i hi).2 hn).2⟩⟩

/-- `C113_slow_keygen`, `C113_slow_sign`: the same parties with `δ = 4`. -/
example (coins : ID → Coins) := C113_slow_keygen keygen_setup coins 4 2 (by decide) (by decide) (by decide)

example (kcoins : ID → Coins) : ∃ (net : Nat → Spec.Net Toy (Sign.Round Toy)) (n : Nat), Spec.TimedOut ((net n).state 3) := by
  obtain ⟨secret, pub, init, hset⟩ := setup_sign3 kcoins [1, 2, 3]
  obtain ⟨_, net, _, _, _, n, h⟩ := C113_slow_sign hset nonces nonces123 4 3 (by decide) (by decide) (by decide)
  exact ⟨net, n, h n (le_refl n)⟩

/-! ### Networks with time-outs -/

example (coins : ID → Coins) := C76_keygen keygen_setup coins _ (.refl _) 2 (by decide)

/-- `C76_keygen` on an execution in which one party timed out. -/
example : ∃ N : Spec.Net Toy (Keygen.Round Toy), Spec.TimedOut (N.state 2) ∧ (Spec.TimedOut (N.state 1) ∨ (N.state 1).err = none) :=
  let ⟨coins, N, hs, hp, ht, _⟩ := C76_not_atomic
  ⟨N, ht, (C76_keygen hs coins N hp 1 (by decide)).1⟩

example (kcoins : ID → Coins) : ∃ sig : Signature Toy, PublicKey.verify toySha ((Spec.jointPoly ids 1 kcoins).eval 0 • (base : Toy)) [1, 2, 3] sig = .ok true := by
  obtain ⟨secret, pub, init, hset⟩ := setup_sign3 kcoins [1, 2, 3]
  obtain ⟨sig, h, _⟩ := C76_sign hset nonces nonces123
  exact ⟨sig, h⟩

/-! ### Key generation and signing in one -/

open Curve in
/-- `C69_runs_exist` gives what `C69_end_to_end` asks for. -/
example (sha : Sha512) (kcoins : ID → Coins) : ∃ (K : Spec.Net RG (Keygen.Round RG)) (sig : Signature RG),
    ∀ k ∈ ([1, 4, 9] : IDSlice), (K.state k).done = true → ∀ key, (K.state k).round.output.pub = some key →
        Ed25519.verify sha (PublicKey.toEd25519 key.groupKey) [1, 2, 3] (Signature.toEd25519 sig) = .ok true := by
  obtain ⟨kinit, K, secret, pub, init, h1, h2, h3, h4, h5, h6⟩ := C69_runs_exist (sha := sha) (parties := [1, 4, 9]) (t := 1) (ids := [1, 9]) (by decide) (by decide)
    (by decide) (by decide) (by decide) (by decide) (by decide) (by decide) kcoins [1, 2, 3] (fun _ => 10) (fun _ => 0) (fun _ => 10) (fun _ => 0)
  obtain ⟨sig, h, -⟩ := C69_end_to_end h1 kcoins K h2 (by decide) (by decide) (by decide) (by decide) (fun i hi => h3 i (by revert i; decide)) h4 h5 [1, 2, 3]
    (fun _ => 10) (fun _ => 0) nonces (by decide +kernel) init h6
  exact ⟨K, sig, fun k hk hd key hkey => (h k hk hd key hkey).1⟩

/-! ### The programs -/

open Cmd

/-- `keygen 2 3`, `keygen 3 3`. -/
example (env : Env) : keygen (G := Toy) toySha env [[51], [51]] = .usage := C70_outcome env _ _ 3 3 (by decide) (by decide)

example (env : Env) : keygen (G := Toy) toySha env [[50], [51]] = .done (Spec.keyFile (Spec.firstIDs 3) 2 (Spec.jointPoly (Spec.firstIDs 3) 2 (env.coins 0))) :=
  C70_outcome env _ _ 2 3 (by decide) (by decide)

example : atoi (Spec.decimal 123456) = some 123456 := (C70_atoi 123456 (by decide)).1

open Curve in
example (sha : Sha512) (kenv env : Env) (hc : env.coins 0 = nonces) : ∃ (file : File RG) (key : RG) (sig : Signature RG), keygen sha kenv [[50], [51]] = .done file ∧
    (file.shares.bind Public.Json.groupKey) = some key ∧
    key = ((Spec.firstIDs 3).map fun i => kenv.coins 0 i 0).sum • base ∧
    signer sha env MapOrder.insertion (fun _ => match (keygen sha kenv [[50], [51]] : End (File RG)) with | .done f => some f | _ => none) [[1], [7, 8]] = .done sig ∧
    Spec.Ed25519.Accepts 8 sha.sum (PublicKey.toEd25519 key) [7, 8] (Signature.toEd25519 sig) :=
  C71_after_keygen kenv env MapOrder.insertion [50] [51] 2 3 (by decide) (by decide) (by decide) (by decide) (by decide) [1] [7, 8] _
    (fun file h => by rw [h]) (by rw [hc]; decide +kernel)

theorem degree_one : (C 5 + C 7 * X : Scalar[X]).natDegree ≤ (1 : UInt16).toNat := by
  refine (natDegree_add_le _ _).trans (max_le ?_ ?_)
  · simp
  · exact (natDegree_C_mul_le _ _).trans (by simp)

open Curve in
example (sha : Sha512) (env : Env) (hc : env.coins 0 = nonces) : ∃ (key : RG) (sig : Signature RG), PublicKey.verify sha key [7, 8] sig = .ok true := by
  obtain ⟨sig, h, -⟩ := C71_signs (sha := sha) env MapOrder.insertion 3 (by decide) 1 (by decide) _ degree_one [7, 8] (by rw [hc]; decide +kernel)
  obtain ⟨key, -, -, h3⟩ := C71_printed_is_valid env MapOrder.insertion _ [7, 8] sig h
  exact ⟨key, sig, h3⟩

example (env : Env) : signerRun (G := Toy) toySha env MapOrder.insertion (Spec.keyFile [1, 2, 4] 1 (C 5 + C 7 * X)) [7, 8] = .crash :=
  C71_other_ids_crash env MapOrder.insertion [1, 2, 4] (by decide) (by decide) 1 (by decide) _ degree_one (by decide) [7, 8]

/-! ### Five bytes that crash a session -/

example : ∃ (data : Bytes) (m : Message Toy), data.length = 5 ∧ Message.unmarshalBinary Message.fresh data = .ok m := by
  obtain ⟨h, s, h1, h2, h3, _, h4, _⟩ := keygen_midway
  obtain ⟨data, m, h5, h6, -⟩ := C22_keygen_five_bytes 1 ids 1 10 0 _ session1 (by decide) (by decide) h1 h2 (by rw [h3]; decide) 3 (by decide) (by decide)
    (by decide) (by rw [h4]; decide) (by rw [h4]; rfl)
  exact ⟨data, m, h5, h6⟩

example : ∃ (data : Bytes) (m : Message Toy), data.length = 5 ∧ Message.unmarshalBinary Message.fresh data = .ok m := by
  obtain ⟨s₀, h, s, h1, h2, h3⟩ := Demo.sign_of_run [.processAll .insertion (Demo.coins [13, 14]), .handle (Message.newSign1 3 (Toy.of 11) (Toy.of 12)),
    .processAll .reversed (Demo.coins [])] (fun _ s => decide (s.done = false ∧ s.roundNumber = 2 ∧ s.received = [])) (by decide +kernel)
  have h3 : s.done = false ∧ s.roundNumber = 2 ∧ s.received = [] := by simpa using h3
  obtain ⟨data, m, h5, h6, -⟩ := C22_sign_five_bytes [1, 3] ⟨1, 45, Toy.of 45⟩ key [1, 2, 3] 10 0 s₀ h1 (by decide) (by decide) h2 h3.1 (by rw [h3.2.1]; decide) 3
    (by decide) (by decide) (by rw [h3.2.2]; decide) (by rw [h3.2.2]; rfl)
  exact ⟨data, m, h5, h6⟩

/-! ### The example program -/

open Example

/-- What the others send to party 1. -/
abbrev exampleEvents : List (Event Toy) :=
  [.message .insertion (fun _ => 1) (Message.newKeyGen1 2 ⟨0, 0⟩ []), .advance 5, .message .insertion (fun _ => 1) (Message.newKeyGen1 2 ⟨0, 0⟩ [])]

theorem exampleEvents_ok : ∀ ord coins msg, Event.message ord coins msg ∈ exampleEvents → msg.header.fromID ≠ 1 ∧ (msg.header.toID = 0 ∨ msg.header.toID = 1) := by
  intro ord coins msg h
  simp only [exampleEvents, List.mem_cons, Event.message.injEq, reduceCtorEq, List.not_mem_nil, or_false, false_or] at h
  rcases h with ⟨-, -, rfl⟩ | ⟨-, -, rfl⟩ <;> decide

example : ∃ r : Routine Toy (Keygen.Round Toy), r.out = [] ∧ r.state.done = false := by
  have h : (events (Keygen.impl toySha) ⟨session ids 1 1, []⟩ exampleEvents).isSome = true := by decide +kernel
  obtain ⟨r, hr⟩ := Option.isSome_iff_exists.mp h
  have := C73_keygen_never_starts 1 ids 1 10 0 _ session1 exampleEvents exampleEvents_ok r hr
  exact ⟨r, this.1, this.2.1⟩

example : ∃ r : Routine Toy (Sign.Round Toy), r.out = [] ∧ (r.state.done = true → r.state.err = some ⟨0, 0, .timeout⟩) := by
  obtain ⟨s₀, h, s, h1, -⟩ := Demo.sign_of_run [] (fun _ _ => true) (by decide +kernel)
  exact ⟨_, C73_sign_never_starts [1, 3] ⟨1, 45, Toy.of 45⟩ key [1, 2, 3] 10 0 s₀ h1 [] (by intro _ _ _ h; cases h) ⟨s₀, []⟩ rfl⟩

/-- Nobody has done anything yet, or party 2 has waited for three seconds. -/
example : ∃ N : ID → Routine Toy (Keygen.Round Toy), (N 2).state.timer.now = 3 ∧ (N 2).out = [] ∧ (N 2).state.done = false := by
  have h := Example.Net.step (impl := Keygen.impl toySha) (ids := ids) (init := session ids 1) .start (i := 2) (e := .advance 3) (by decide)
    (by intro _ _ _ h; cases h) rfl
  have h2 := C73_keygen_network (fun i hi => keygen_setup.start i hi) _ h 2 (by decide)
  exact ⟨_, by rw [Function.update_self]; rfl, h2⟩

example := C73_keygen_crashes 1 ids 1 10 0 (by decide) _ session1

example (sha : Sha512) (verify : Bytes → Bytes → Bytes → GoRes Bool) : ∃ r : Routine Toy (Keygen.Round Toy), Main.steps sha verify (.keygen r) [] = some (.keygen r) ∧
    r.out = [] ∧ r.state.done = false := by
  obtain ⟨r, h⟩ := C73_main_starts (G := Toy) (sha := sha) 0
  obtain ⟨r', h1, h2⟩ := C73_main_waits (verify := verify) 0 _ _ h [] (by intro _ _ _ h; cases h) rfl
  cases h1
  exact ⟨r, rfl, h2⟩

example (sha : Sha512) (verify : Bytes → Bytes → Bytes → GoRes Bool) : ∃ m : Main Toy,
    Main.steps sha verify m [.event (.advance 2000000000), .event .fire, .event .callback] = none :=
  let ⟨_, h⟩ := C73_main_starts (G := Toy) (sha := sha) 0
  ⟨_, C73_main_crashes 0 _ h⟩

/-! ### Messages that share memory with a session -/

open HeapDemo

/-- Six elements; two exponents of two coefficients. -/
def cells6 : Heap Toy := ⟨fun a => Toy.of (a + 1), 6⟩
example : (cells6.add [0, 3] [1, 4]).read [0, 3] = [Toy.of 3, Toy.of 9] :=
  (C12_memory cells6 [0, 3] [1, 4] (by decide) (by decide)).1 _ (by decide +kernel)
example : cells6.add [0, 3] [1] = cells6 := (C12_memory cells6 [0, 3] [1] (by decide) (by decide)).2.1 .lengthMismatch (by decide +kernel)
example : (cells6.add [0, 3] [0, 3]).read [0, 3] = [Toy.of 2, Toy.of 8] :=
  (C12_memory_self cells6 [0, 3] (by decide)).trans (by decide +kernel)

/-- The session of `C63_keygen1_refuted`. -/
example : ∃ t : State Addr (KeygenHeap.Round Toy), (t.round.heap.deref mine).keyGen1 = (KeygenHeap.view t.round).commitmentsSum.map fun c => ⟨⟨0, 7⟩, c⟩ := by
  obtain ⟨s, t, h, -, h2, h3, -⟩ := C63_keygen1_refuted
  exact ⟨t, C63_keygen1_shows_sum toySha h2 (List.mem_singleton.mpr rfl) rfl h3⟩

/-- `C63_until_next_call_partial`, before the next call. -/
example : ∃ s : State Addr (KeygenHeap.Round Toy), ∃ h t, Hist (KeygenHeap.impl toySha) s h t ∧ h.length = 1 ∧ t.round.heap.deref mine = s.round.heap.deref mine := by
  have h : Hist (KeygenHeap.impl toySha) HeapDemo.start _ _ := Hist.one (op := .advance 3) rfl
  refine ⟨_, _, _, h, rfl, C63_until_next_call_partial toySha h ?_ mine⟩
  intro x hx
  rw [List.mem_singleton.mp hx]
  exact ⟨(fun _ _ h => nomatch h), (fun h => nomatch h)⟩

/-- `C63_keygen_by_value`. -/
example := C63_keygen_by_value toySha HeapDemo.heap start_ok (Hist.nil) (by intro _ _ h; cases h)

/-- A session that ends with a time-out: what `C63_keygen1_zeroed` says of its first message. -/
example : ∃ t : State Addr (KeygenHeap.Round Toy), (t.round.heap.deref mine).keyGen1 = some ⟨⟨0, 7⟩, [0, 0]⟩ := by
  obtain ⟨s, -, -, -, h2, -⟩ := C63_keygen1_refuted
  have key : ((step (KeygenHeap.impl toySha) HeapDemo.start (.processAll .insertion (coins [5, 6, 7]))).bind fun x =>
      (run (KeygenHeap.impl toySha) x.1 [.advance 10, .fire, .callback]).map fun y => y.2.done) = some true := by decide +kernel
  rw [h2, Option.bind_some, Option.map_eq_some_iff] at key
  obtain ⟨⟨h, t⟩, h3, h4⟩ := key
  exact ⟨t, C63_keygen1_zeroed toySha h2 (List.mem_singleton.mpr rfl) rfl (run_hist h3) h4⟩

/-- The second call hands out two messages that are not of the first kind: `C63_keygen2_keeps`. -/
example (heap' : Heap Toy) : ∃ (s' : State Addr (KeygenHeap.Round Toy)) (m : Message Addr), m.header.type = 2 ∧ heap'.deref m = s'.round.heap.deref m := by
  have key : ((run (KeygenHeap.impl toySha) HeapDemo.start (.processAll .insertion (coins [5, 6, 7]) :: HeapDemo.ops.take 2)).bind fun x =>
      (step (KeygenHeap.impl toySha) x.2 (.processAll .insertion (coins []))).map fun y => match y.2 with
        | .messages (m :: _) => m.keyGen1.isNone && decide (m.header.type = 2)
        | _ => false) = some true := by decide +kernel
  rw [Option.bind_eq_some_iff] at key
  obtain ⟨⟨h, s⟩, -, h2⟩ := key
  rw [Option.map_eq_some_iff] at h2
  obtain ⟨⟨s', r⟩, h3, h4⟩ := h2
  split at h4
  · rename_i m l hr
    rw [Bool.and_eq_true, decide_eq_true_eq, Option.isNone_iff_eq_none] at h4
    have hr : r = .messages (m :: l) := hr
    rw [hr] at h3
    exact ⟨s', m, h4.2, C63_keygen2_keeps toySha h3 (List.mem_cons_self) h4.1 heap'⟩
  · cases h4

end Verif.Cases
