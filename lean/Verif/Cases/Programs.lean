import Verif.Cases.Network
import Verif.Props.Frosted
import Verif.Props.Integration
import Verif.Props.Teardown
import Verif.Props.UnitTest
import Verif.Props.View
import Verif.Props.Marshalling

/-!
The theorems about the packages `communication`, `frosted` and `test`, and about the unit tests, that have hypotheses, applied to concrete parties
(`Props/Udp`, `Props/Teardown`, `Props/Frosted`, `Props/Integration`, `Props/UnitTest`, `Props/View`, `Props/Marshalling`).
-/

namespace Verif.Cases

open Verif Verif.Props Verif.Props.Demo State Polynomial

/-! ### UDP -/

/-- `C77_keygen_safe` and `C77_keygen_needs_all` on an execution of three parties in which all have finished. -/
example (coins : ID → Coins) : ∃ S : Udp.Sys Toy (Keygen.Round Toy), (∀ i ∈ ids, (S.node i).state.done = true) ∧
    Spec.KeygenResult ids 1 (Spec.jointPoly ids 1 coins) 2 (S.node 2).state.round ∧
    ∃ b ∈ S.wire 2, ∃ m : Message Toy, Message.unmarshalBinary Message.fresh b = .ok m ∧ m.header.fromID = 3 ∧ m.header.type = 2 := by
  obtain ⟨S, hp, h⟩ := C77_keygen_can_finish keygen_setup coins (by decide)
  have h2 := h 2 (by decide)
  exact ⟨S, fun i hi => (h i hi).1, (C77_keygen_safe keygen_setup coins S hp 2 (by decide)).2.1 h2.1 h2.2.1,
    (C77_keygen_needs_all keygen_setup coins S hp 2 (by decide) h2.1 h2.2.1 3 (by decide) (by decide)).2⟩

/-- `C77_sign_safe` and `C77_sign_needs_all` on an execution of three signers. -/
example (kcoins : ID → Coins) : ∃ (S : Udp.Sys Toy (Sign.Round Toy)) (sig : Signature Toy), (S.node 2).state.round.output.signature = some sig ∧
    PublicKey.verify toySha ((Spec.jointPoly ids 1 kcoins).eval 0 • (base : Toy)) [1, 2, 3] sig = .ok true ∧
    ∃ b ∈ S.wire 2, ∃ m : Message Toy, Message.unmarshalBinary Message.fresh b = .ok m ∧ m.header.fromID = 3 ∧ m.header.type = 4 := by
  obtain ⟨secret, pub, init, hset⟩ := setup_sign3 kcoins [1, 2, 3]
  obtain ⟨S, hp, h⟩ := C77_sign_can_finish hset nonces nonces123 (by decide)
  obtain ⟨sig, hv, hsafe⟩ := C77_sign_safe hset nonces nonces123
  have h2 := h 2 (by decide)
  exact ⟨S, sig, (hsafe S hp 2 (by decide)).2.1 h2.1 h2.2.1, hv,
    (C77_sign_needs_all hset nonces nonces123 S hp 2 (by decide) h2.1 h2.2.1 3 (by decide) (by decide)).2⟩

/-! ### Taking the communicators down -/

example (coins : ID → Coins) (s : ID → State Toy (Keygen.Round Toy)) := C88_channel_idle (impl := Keygen.impl toySha) (coins := coins)
  (ids := [1, 2, 3]) (order := [3, 1, 2]) (by decide) (by decide) s

/-- `C88_channel_early` at a system in which a message is being moved to party 2. -/
example (coins : ID → Coins) : ∃ S D : _, ((S : Chan.Sys Toy (Keygen.Round Toy)) 2).held = some com2 ∧
    Chan.DownSteps (Keygen.impl toySha) ids coins (Chan.down S ids [2]) D ∧ Chan.DownStep (Keygen.impl toySha) ids coins D none := by
  let S : Chan.Sys Toy (Keygen.Round Toy) := fun i => { Chan.start (session ids 1) i with held := some com2 }
  obtain ⟨D, h⟩ := C88_channel_early (impl := Keygen.impl toySha) (ids := ids) (coins := coins) (rest := []) (S := S) (i := 2) (m := com2) (by decide) rfl
  exact ⟨S, D, rfl, h⟩

/-- `C88_udp_keygen_only` at the state of `C88_udp_keygen_can_crash`. -/
example (coins : ID → Coins) : ∃ (D : Udp.Down Toy (Keygen.Round Toy)), (∃ i ∈ ids, ∃ m, (D.sys.node i).held = some m ∧ D.inClosed i = true) ∨
    ∃ i ∈ ids, (D.sys.node i).state.roundNumber = 0 ∧ (D.sys.node i).state.timer.fired ≠ 0 := by
  obtain ⟨S, hp, h⟩ := C77_keygen_can_finish keygen_setup coins (by decide)
  obtain ⟨D, h1, h2⟩ := C88_udp_keygen_can_crash keygen_setup coins S hp 2 [1, 3] (by decide) (h 2 (by decide)).1 (h 2 (by decide)).2.1
  exact ⟨D, C88_udp_keygen_only keygen_setup coins S hp (by decide) D h1 h2⟩

/-- `C88_udp_sign_can_crash`, `C88_udp_sign_must_crash` and `C88_udp_sign_only` after an execution of three signers. -/
example (kcoins : ID → Coins) : ∃ (S S' : Udp.Sys Toy (Sign.Round Toy)) (D : Udp.Down Toy (Sign.Round Toy)),
    Udp.DownStep (Sign.impl toySha) ids nonces D none ∧ (∃ i ∈ ids, ∃ m, (D.sys.node i).held = some m ∧ D.inClosed i = true) ∧
    Udp.Steps (Sign.impl toySha) ids nonces S S' ∧ ∀ D', Udp.DownSteps (Sign.impl toySha) ids nonces (Udp.down S' [2, 1, 3]) D' → ¬ D'.Ended ids := by
  obtain ⟨secret, pub, init, hset⟩ := setup_sign3 kcoins [1, 2, 3]
  obtain ⟨S, hp, h⟩ := C77_sign_can_finish hset nonces nonces123 (by decide)
  have h2 := h 2 (by decide)
  obtain ⟨D, hD, hc⟩ := C88_udp_sign_can_crash hset nonces nonces123 S hp 2 3 [1, 3] (by decide) (by decide) (by decide) h2.1 h2.2.1
  obtain ⟨S', hS', _, hm⟩ := C88_udp_sign_must_crash (order := [2, 1, 3]) hset nonces nonces123 S hp 2 3 (by decide) (by decide) (by decide) h2.1 h2.2.1 h2.2.2 (by decide)
  exact ⟨S, S', D, hc, C88_udp_sign_only hset nonces nonces123 S hp (by decide) D hD hc, hS', fun D' h => (hm D' h).1⟩

/-- `C88_udp_idle` and `C88_udp_idle_packet`: without timers, and with a packet of three bytes. -/
example (coins : ID → Coins) := C88_udp_idle (impl := Keygen.impl toySha) (coins := coins) (ids := [1, 2, 3]) (order := [3, 1, 2]) (by decide) (by decide)
  (fun i => newBaseState (Keygen.impl toySha) (round0 ids 1 i) 0 0) (by decide +kernel) _ (.refl _)

example (coins : ID → Coins) := C88_udp_idle_packet (impl := Keygen.impl toySha) (coins := coins) (ids := [1, 2, 3]) (rest := []) (i := 2) (by decide)
  (fun i => newBaseState (Keygen.impl toySha) (round0 ids 1 i) 0 0) (fun _ => [[1, 2, 3]]) (by decide)

/-! ### The package `frosted` -/

/-- The signers of `FROSTest(3, 1)` draw no 0. -/
theorem nonces_setup : ∀ i ∈ (Frosted.setup 3 1).2.2, nonces i 0 ≠ 0 ∧ nonces i 1 ≠ 0 := by decide +kernel

/-- `C79_channel` and `C79_udp` at the runs of `C79_runs`. -/
example (sha : Sha512) (kcoins : ID → Coins) := C79_channel (by decide) (by decide) (by decide) nonces_setup
  (C79_runs (sha := sha) (N := 3) (T := 1) (kcoins := kcoins) .channel (by decide) (by decide) (by decide) nonces_setup)

/-- `C79_udp` at the panic of `C79_udp_can_crash`. -/
example (sha : Sha512) (kcoins : ID → Coins) := C79_udp (by decide) (by decide) (by decide) nonces_setup
  (C79_udp_can_crash (sha := sha) (G := Curve.RG) (N := 3) (T := 1) (kcoins := kcoins) (by decide) (by decide) (by decide))

/-- `C79_udp_crash_only_early`: the timer of party 2 fires before its handler has done anything. -/
example (coins : ID → Coins) : ∃ (S : Udp.Sys Toy (Keygen.Round Toy)), Udp.Crash (Keygen.impl toySha) ids coins S ∧
    ∃ i ∈ ids, (S.node i).state.roundNumber = 0 ∧ (S.node i).state.timer.fired ≠ 0 := by
  let U : Udp.Sys Toy (Keygen.Round Toy) := Udp.start (session ids 1) fun _ => []
  let s₁ : State Toy (Keygen.Round Toy) := { session ids 1 2 with timer := ⟨10, 10, some 10, 0⟩ }
  let s₂ : State Toy (Keygen.Round Toy) := { session ids 1 2 with timer := ⟨10, 10, none, 1⟩ }
  let U' := U.set 2 { U.node 2 with state := s₁ }
  let U'' := U'.set 2 { U'.node 2 with state := s₂ }
  have h1 : Udp.Step (Keygen.impl toySha) ids coins U U' := .time (op := .advance 10) (i := 2) (by decide) (.inl ⟨_, rfl⟩) rfl
  have h2 : Udp.Step (Keygen.impl toySha) ids coins U' U'' := .time (op := .fire) (i := 2) (by decide) (.inr (.inl rfl)) rfl
  have hc : Udp.Crash (Keygen.impl toySha) ids coins U'' := .time (i := 2) (op := .callback) (by decide) (.inr (.inr rfl)) rfl
  exact ⟨U'', hc, C79_udp_crash_only_early keygen_setup U'' (.tail (.tail (.refl _) h1) h2) hc⟩

example (coins : ID → Coins) := C79_channel_can_hang (kcoins := coins) keygen_setup (by decide) 2 (by decide)

/-- The numbers of parties of `main`; with other coins than 0 `C79_main` says something. -/
example : ∀ i ∈ (Frosted.setup 10 5).2.2, nonces i 0 ≠ 0 ∧ nonces i 1 ≠ 0 := by decide +kernel
example (sha : Sha512) (kcoins : ID → Coins) := C79_main (sha := sha) (kcoins := kcoins) (coins := nonces) 10 (by decide)

/-- `C79_main_output` at the two runs of `C79_main_runs`. -/
example (sha : Sha512) := C79_main_output _ _ (C79_main_runs (sha := sha)).1
example (sha : Sha512) := C79_main_output _ _ (C79_main_runs (sha := sha)).2

/-! ### The package `test` -/

/-- `C86_validate_blind`: weighted sums that agree with different secrets. -/
example (ord : MapOrder) (groupKey : Toy) : ∃ sec sec' : ID → Scalar, sec 1 ≠ sec' 1 ∧
    (Integration.validateSecrets ord ([1, 2].map fun i => (i, some ⟨i, sec i, Toy.of 1⟩)) groupKey ⟨[1, 2], 1, [(1, Toy.of 1), (2, Toy.of 1)], groupKey⟩ = .ok true ↔
      Integration.validateSecrets ord ([1, 2].map fun i => (i, some ⟨i, sec' i, Toy.of 1⟩)) groupKey ⟨[1, 2], 1, [(1, Toy.of 1), (2, Toy.of 1)], groupKey⟩ = .ok true) :=
  ⟨fun i => if i = 1 then 1 else 2, fun i => if i = 1 then 0 else 0, by decide +kernel,
    C86_validate_blind ord [1, 2] (fun _ => Toy.of 1) _ _ groupKey _ (by
      show (List.map (fun i => Spec.weight i [1, 2] * (if i = 1 then 1 else 2)) [1, 2]).sum = (List.map (fun i => Spec.weight i [1, 2] * (if i = 1 then 0 else 0)) [1, 2]).sum
      decide +kernel)⟩

/-- `C86_validate_wrong` at the key of secret 21 and threshold 1 for three parties. -/
example := C86_validate_wrong (G := Toy) MapOrder.insertion [1, 2, 3] (by decide) (by decide) (fun i => 21 + 24 * (i.toNat : Scalar))
  ⟨[1, 2, 3], 1, [(1, Toy.of 45), (2, Toy.of 69), (3, Toy.of 93)], Toy.of 21⟩ rfl 1 2 (by decide) (by decide) (by decide) (by decide +kernel)

/-- `C86_sign_verdict` at the test of the code itself, with two signers of three. -/
example (sha : Sha512) (env : Cmd.Env) (hc : env.coins 0 = nonces) (ord ord' : MapOrder) (coins : Coins) : ∃ (signSet : IDSlice) (shares : GoMap (SecretShare Curve.RG))
    (pub : Public Curve.RG), Integration.setupParties ord coins 1 3 = .done (signSet, shares, pub) ∧
    ∀ i ∈ signSet, ∃ s, (Integration.signImpl sha env signSet shares pub [1, 2, 3]).new i = .ok s := by
  have h := C86_sign_passes (sha := sha) env ord ord' coins 1 3 [1, 2, 3] (by decide) (by decide) (by rw [hc]; decide +kernel)
  obtain ⟨⟨signSet, shares, pub⟩, h1, h2⟩ := Cmd.bind_eq_done.mp h
  exact ⟨signSet, shares, pub, h1, (C86_sign_verdict _ env ord' signSet pub.groupKey _ h2).1⟩

/-! ### Unit tests -/

example (G : Type) [RGroup G] := C89_exponent (G := G) [(3, coins [1, 2], 0), (0, coins [], 65535)] (by decide)
example := C89_polynomial_blind [0, 1, 65535] (by decide)
example (s : Scalar) := C89_sign2 (G := Toy) 300 (by decide) s
example (sha : Sha512) (r : Scalar) := C89_signature sha (List.replicate 32 7) rfl r
example (sha : Sha512) (r : Scalar) := C89_signatureEncode (G := Toy) sha (List.replicate 32 7) rfl r

/-- `C89_groupKey` and `C89_publicJSON` with threshold 2: with three different IDs, and with two. -/
example (ord ord' : MapOrder) (secret : Scalar) (c : Coins) : UnitTest.groupKey Toy ord 2 [7, 9, 7, 400] secret c = .ok true ∧
    UnitTest.groupKey Toy ord 2 [7, 0, 7, 1, 0] secret c = .panic ∧ UnitTest.publicJSON Toy ord ord' 2 [7, 9, 7, 400] secret c = .ok true :=
  ⟨(C89_groupKey ord 2 (by decide) _ (by decide) secret c).trans (if_pos (by decide)), (C89_groupKey ord 2 (by decide) _ (by decide) secret c).trans (if_neg (by decide)),
    (C89_publicJSON ord ord' 2 (by decide) _ (by decide) secret c).trans (if_pos (by decide))⟩

/-! ### What others see of a key generation -/

example (c : Coins) := C80_commitments (G := Toy) (t := 2) (T := [2, 5]) (by decide) (by decide) rfl c

/-- `C80_standIn_local`: two lots of values that differ at party 3. -/
example (sha : Sha512) := C80_standIn_local sha [2] (⟨Toy.of 4, 9, fun _ => 1⟩ : Spec.Given Toy) ⟨Toy.of 4, 9, fun j => if j = 3 then 2 else 1⟩ rfl rfl (by decide)

/-- `C80_view_converse` at what is seen of party 1 in a complete key generation of three parties, and so of its stand-in. -/
example (κ : ID → Coins) : ∃ h s, Hist (Keygen.impl toySha) (session ids 1 1) h s ∧ s.done = true := by
  have hs := keygen_setup.start 1 (by decide)
  obtain ⟨h, s, hh, hc, hd, _⟩ := C80_complete_run (T := [2]) κ (by decide) (by decide) (by decide) hs
  obtain ⟨s', hh', he, hd', _⟩ := C80_view (T := [2]) (κ 1) (by decide) (by decide) (by decide) (by decide) rfl hs hh hc
  obtain ⟨h₂, s₂, hh₂, -, -, hd₂, -⟩ := C80_view_converse (T := [2]) (κ 1) (by decide) (by decide) (by decide) (by decide) rfl hs hh' (by
    intro ord c' r hm
    obtain ⟨⟨op, r₀⟩, h1, h2⟩ := List.mem_map.mp hm
    cases (Prod.ext_iff.mp h2).1
    exact hc ord c' r₀ h1)
  exact ⟨h₂, s₂, hh₂, by rw [← hd₂, hd', hd]⟩

/-! ### The check of marshallers -/

/-- `C78_message_sound` at a message and a receiver that holds another payload. -/
example : ∃ r' : Message Toy, Message.equal (Message.newKeyGen2 3 4 9) r' = true ∧ r'.header = ⟨2, 3, 4⟩ := by
  obtain ⟨r', h⟩ := (C78_message_iff (Message.newKeyGen2 3 4 9 : Message Toy) (Message.newKeyGen1 3 ⟨5, 6⟩ [Toy.of 7])).mpr ⟨by decide, by decide, by decide⟩
  exact ⟨r', (C78_message_sound _ _ _ h).1, (C78_message_sound _ _ _ h).2.1⟩

/-- `C86_compare_loop`, `C86_compare_output`: a key against one with another share of party 3. -/
example := C86_compare_loop Props.Demo.key { Props.Demo.key with shares := [(1, Toy.of 45), (2, Toy.of 69), (3, Toy.of 94)] } [1, 2, 3] [1, 2, 3] rfl (by decide) (by decide)
example := C86_compare_output (Toy.of 21) (Toy.of 21) Props.Demo.key { Props.Demo.key with shares := [(1, Toy.of 45), (2, Toy.of 69), (3, Toy.of 94)] }
  (by unfold GoMap.WF; decide) (by unfold GoMap.WF; decide) (by decide +kernel) (by decide +kernel)

end Verif.Cases
