import Verif.Lemmas.ChannelDone
import Verif.Lemmas.Cmd
import Verif.Props.Demo

/-!
C72: key generation and signing between parties in one process that talk through Go channels, as in `test/`.  Unlike the network of
C35, C36 and C43, which may deliver a message again, these channels deliver every message once.
-/

namespace Verif.Props

open State Polynomial

variable {G : Type} [RGroup G] {sha : Sha512}

section keygen

variable {ids : IDSlice} {t : UInt16} {timeout now : ID → Nat} {init : ID → State G (Keygen.Round G)}

theorem Spec.KeygenSetup.two_le (hs : Spec.KeygenSetup sha ids t timeout now init) {i : ID} (hi : i ∈ ids) : 2 ≤ ids.length := by
  obtain ⟨r₀, h1, _⟩ := start_of_new (hs.start i hi) hs.nodup
  obtain ⟨_, ht0, htn, _⟩ := h1.eq
  rw [UInt16.le_iff_toNat_le, N_pred_eq (List.ne_nil_of_mem hi) (nodup_ids_length hs.nodup)] at htn
  have : t.toNat ≠ 0 := fun h => ht0 (UInt16.toNat_inj.mp h)
  omega

theorem keygen_addressed (h0 : (0 : ID) ∉ ids) (t : UInt16) (coins : ID → Coins) :
    Chan.Addressed (G := G) ids (Keygen.honestOut ids t coins) where
  zero := h0
  first i _ := ⟨_, rfl, rfl⟩
  dest := by
    intro i hi n hn m hm
    match n, hn with
    | 0, _ =>
      rw [Keygen.honestOut, List.mem_singleton] at hm
      subst hm
      exact Or.inl rfl
    | 1, _ =>
      obtain ⟨k, hk, rfl⟩ := List.mem_map.mp hm
      exact Or.inr hk

theorem keygen_protocol (hs : Spec.KeygenSetup sha ids t timeout now init) (coins : ID → Coins) {i : ID} (hi : i ∈ ids) :
    ∃ r₀ : ID → Keygen.Round G, Chan.Protocol (Keygen.impl sha) ids r₀ coins (Keygen.honestMsg t coins) (Keygen.honestOut ids t coins)
      (Keygen.HonestGood ids t coins r₀) [0, 1, 2] timeout now init := by
  have hex : ∀ i, ∃ r₀ : Keygen.Round G, i ∈ ids → Keygen.Start r₀ i ids t ∧ init i = newBaseState (Keygen.impl sha) r₀ (timeout i) (now i) := by
    intro i
    by_cases hi : i ∈ ids
    · obtain ⟨r₀, h1, h2⟩ := start_of_new (hs.start i hi) hs.nodup
      exact ⟨r₀, fun _ => ⟨h1, h2⟩⟩
    · exact ⟨(init i).round, fun h => absurd h hi⟩
  choose r₀ hr₀ using hex
  exact ⟨r₀, Keygen.honest hs.sorted hs.nodup hs.zero r₀ (fun i hi => (hr₀ i hi).1) coins,
    Keygen.lockstep hs.nodup hs.zero (Keygen.threshold_ne (hr₀ i hi).1 hs.zero) coins, keygen_addressed hs.zero t coins, fun i hi => (hr₀ i hi).2⟩

/-- C72: in every execution, no session ends with an error, what a session that has ended holds is right, everything in a channel can
be decoded, and when a session has ended there is nothing left under way to its party, so that closing its channel is safe. -/
theorem C72_keygen_safe (hs : Spec.KeygenSetup sha ids t timeout now init) (coins : ID → Coins) (S : Chan.Sys G (Keygen.Round G))
    (hp : Chan.Steps (Keygen.impl sha) ids coins (Chan.start init) S) (i : ID) (hi : i ∈ ids) :
    (S i).state.err = none ∧
    (∀ b ∈ (S i).bytes, ∃ m : Message G, Message.unmarshalBinary Message.fresh b = .ok m) ∧
    ((S i).state.done = true → Spec.KeygenResult ids t (Spec.jointPoly ids t.toNat coins) i (S i).state.round ∧
      (S i).incoming = [] ∧ (S i).held = none ∧ (S i).bytes = [] ∧ ∀ k ∈ ids, ∀ p ∈ (S k).outbox, p.1 ≠ i) := by
  obtain ⟨r₀, P⟩ := keygen_protocol hs coins hi
  obtain ⟨N, r, _⟩ := (Chan.run_start P).steps P hp
  obtain ⟨h1, _, _, _, h2⟩ := C35_honest_keygen hs coins N r.path
  rw [r.state i hi]
  refine ⟨h1 i hi, fun b hb => ?_, fun hd => ⟨h2 i hi hd, r.done_nothing P hi hd⟩⟩
  exact r.decodes hi hb

/-- C72: the channels never make anybody wait for ever: every execution is finite, with a bound that depends on the number of
parties only. -/
theorem C72_keygen_ends (hs : Spec.KeygenSetup sha ids t timeout now init) (coins : ID → Coins) (hne : ids ≠ []) (f : Nat → Chan.Sys G (Keygen.Round G))
    (h0 : f 0 = Chan.start init) (k : Nat) (h : ∀ l < k, Chan.Step (Keygen.impl sha) ids coins (f l) (f (l + 1))) :
    k ≤ ids.length * (12 * ids.length + 2) := by
  obtain ⟨i, hi⟩ := List.exists_mem_of_ne_nil _ hne
  obtain ⟨r₀, P⟩ := keygen_protocol hs coins hi
  exact Chan.ends P f h0 k h

/-- C72: when nothing can happen any more then every message has been delivered, and exactly the handlers whose sessions have ended
have returned. -/
theorem C72_keygen_final (hs : Spec.KeygenSetup sha ids t timeout now init) (coins : ID → Coins) (S : Chan.Sys G (Keygen.Round G))
    (hp : Chan.Steps (Keygen.impl sha) ids coins (Chan.start init) S) (h : ∀ S', ¬ Chan.Step (Keygen.impl sha) ids coins S S') (i : ID) (hi : i ∈ ids) :
    (S i).started = true ∧ (S i).outbox = [] ∧ (S i).bytes = [] ∧ (S i).held = none ∧ (S i).incoming = [] ∧ (S i).exited = (S i).state.done := by
  obtain ⟨r₀, P⟩ := keygen_protocol hs coins hi
  exact Chan.final P hp h hi

/-- C72: there is an execution in which everybody finishes. -/
theorem C72_keygen_can_finish (hs : Spec.KeygenSetup sha ids t timeout now init) (coins : ID → Coins) (hne : ids ≠ []) :
    ∃ S, Chan.Steps (Keygen.impl sha) ids coins (Chan.start init) S ∧ ∀ i ∈ ids, (S i).state.done = true ∧ (S i).exited = true := by
  obtain ⟨i, hi⟩ := List.exists_mem_of_ne_nil _ hne
  obtain ⟨r₀, P⟩ := keygen_protocol hs coins hi
  exact Chan.can_finish P (hs.two_le hi)

/-- C72: with two parties every execution ends with both finished. -/
theorem C72_keygen_two (hs : Spec.KeygenSetup sha ids t timeout now init) (coins : ID → Coins) (h2 : ids.length = 2) (S : Chan.Sys G (Keygen.Round G))
    (hp : Chan.Steps (Keygen.impl sha) ids coins (Chan.start init) S) (h : ∀ S', ¬ Chan.Step (Keygen.impl sha) ids coins S S') (i : ID) (hi : i ∈ ids) :
    (S i).state.done = true ∧ (S i).exited = true := by
  obtain ⟨r₀, P⟩ := keygen_protocol hs coins hi
  exact Chan.two_finish P h2 hp h hi

/-- C72: with three or more parties it can happen that a party never finishes, whatever is done afterwards: a message of the second
round that comes before a party has the last message of the first is refused, and nobody sends it again. -/
theorem C72_keygen_can_hang (hs : Spec.KeygenSetup sha ids t timeout now init) (coins : ID → Coins) (h3 : 3 ≤ ids.length) (a : ID) (ha : a ∈ ids) :
    ∃ S, Chan.Steps (Keygen.impl sha) ids coins (Chan.start init) S ∧
      ∀ S', Chan.Steps (Keygen.impl sha) ids coins S S' → (S' a).state.done = false ∧ (S' a).exited = false := by
  obtain ⟨r₀, P⟩ := keygen_protocol hs coins ha
  obtain ⟨b, hb, hab⟩ := Chan.another P (by omega) ha
  exact Chan.can_hang P h3 ha hb hab

end keygen

section sign

variable {ids : IDSlice} {t : UInt16} {F : Scalar[X]} {message : Bytes} {secret : ID → SecretShare G} {pub : ID → Public G}
  {timeout now : ID → Nat} {init : ID → State G (Sign.Round G)}

theorem Spec.SignSetup.zero (hs : Spec.SignSetup sha ids t F message secret pub timeout now init) : (0 : ID) ∉ ids := by
  intro h
  obtain ⟨r₀, h1, _⟩ := sign_start_of_new (hs.start 0 h) hs.nodup
  obtain ⟨_, _, parties, h2, _⟩ := Sign.newRound_ok.mp h1.new
  exact ((Sign.setupLoop_ok h2).1 0 h).1 rfl

theorem sign_addressed (h0 : (0 : ID) ∉ ids) (message : Bytes) (F : Scalar[X]) (coins : ID → Coins) :
    Chan.Addressed (G := G) ids (Sign.honestOut G sha ids message F coins) where
  zero := h0
  first i _ := ⟨_, rfl, rfl⟩
  dest := by
    intro i hi n hn m hm
    rw [Sign.honestOut, if_pos hn, List.mem_singleton] at hm
    subst hm
    match n, hn with
    | 0, _ => exact Or.inl rfl
    | 1, _ => exact Or.inl rfl

theorem sign_protocol (hs : Spec.SignSetup sha ids t F message secret pub timeout now init) (coins : ID → Coins)
    (hcoins : ∀ i ∈ ids, coins i 0 ≠ 0 ∧ coins i 1 ≠ 0) :
    ∃ r₀ : ID → Sign.Round G, Chan.Protocol (Sign.impl sha) ids r₀ coins (Sign.honestMsg G sha ids message F coins)
      (Sign.honestOut G sha ids message F coins) (Sign.HonestGood sha ids pub coins r₀) [0, 3, 4] timeout now init := by
  have hex : ∀ i, ∃ r₀ : Sign.Round G, i ∈ ids → Sign.Start r₀ (secret i) (pub i) ids message ∧ init i = newBaseState (Sign.impl sha) r₀ (timeout i) (now i) := by
    intro i
    by_cases hi : i ∈ ids
    · obtain ⟨r₀, h1, h2⟩ := sign_start_of_new (hs.start i hi) hs.nodup
      exact ⟨r₀, fun _ => ⟨h1, h2⟩⟩
    · exact ⟨(init i).round, fun h => absurd h hi⟩
  choose r₀ hr₀ using hex
  exact ⟨r₀, Sign.honest (sha := sha) hs.sorted hs.nodup (message := message) (F := F) (lt_of_le_of_lt hs.degree hs.enough) r₀ secret pub
    (fun i hi => ⟨hs.owner i hi, hs.value i hi, hs.group i hi, hs.shares i hi⟩) (fun i hi => (hr₀ i hi).1) coins hcoins,
    Sign.lockstep hs.zero message F coins, sign_addressed hs.zero message F coins, fun i hi => (hr₀ i hi).2⟩

/-- C72: in every execution, no session ends with an error, all that have ended hold the same valid signature, everything in a channel
can be decoded, and when a session has ended there is nothing left under way to its party. -/
theorem C72_sign_safe (hs : Spec.SignSetup sha ids t F message secret pub timeout now init) (coins : ID → Coins)
    (hcoins : ∀ i ∈ ids, coins i 0 ≠ 0 ∧ coins i 1 ≠ 0) :
    ∃ sig : Signature G, PublicKey.verify sha (F.eval 0 • (base : G)) message sig = .ok true ∧
      ∀ S, Chan.Steps (Sign.impl sha) ids coins (Chan.start init) S → ∀ i ∈ ids,
        (S i).state.err = none ∧
        (∀ b ∈ (S i).bytes, ∃ m : Message G, Message.unmarshalBinary Message.fresh b = .ok m) ∧
        ((S i).state.done = true → (S i).state.round.output.signature = some sig ∧
          (S i).incoming = [] ∧ (S i).held = none ∧ (S i).bytes = [] ∧ ∀ k ∈ ids, ∀ p ∈ (S k).outbox, p.1 ≠ i) := by
  obtain ⟨r₀, P⟩ := sign_protocol hs coins hcoins
  obtain ⟨sig, hv, hsig⟩ := C43_honest_sign hs coins hcoins
  refine ⟨sig, hv, fun S hp i hi => ?_⟩
  obtain ⟨N, r, _⟩ := (Chan.run_start P).steps P hp
  obtain ⟨h1, _, h2, _⟩ := hsig N r.path
  rw [r.state i hi]
  exact ⟨h1 i hi, fun b hb => r.decodes hi hb, fun hd => ⟨h2 i hi hd, r.done_nothing P hi hd⟩⟩

/-- C72: every execution is finite. -/
theorem C72_sign_ends (hs : Spec.SignSetup sha ids t F message secret pub timeout now init) (coins : ID → Coins)
    (hcoins : ∀ i ∈ ids, coins i 0 ≠ 0 ∧ coins i 1 ≠ 0) (f : Nat → Chan.Sys G (Sign.Round G)) (h0 : f 0 = Chan.start init) (k : Nat)
    (h : ∀ l < k, Chan.Step (Sign.impl sha) ids coins (f l) (f (l + 1))) : k ≤ ids.length * (12 * ids.length + 2) := by
  obtain ⟨r₀, P⟩ := sign_protocol hs coins hcoins
  exact Chan.ends P f h0 k h

/-- C72: when nothing can happen any more then every message has been delivered, and exactly the handlers whose sessions have ended
have returned. -/
theorem C72_sign_final (hs : Spec.SignSetup sha ids t F message secret pub timeout now init) (coins : ID → Coins)
    (hcoins : ∀ i ∈ ids, coins i 0 ≠ 0 ∧ coins i 1 ≠ 0) (S : Chan.Sys G (Sign.Round G))
    (hp : Chan.Steps (Sign.impl sha) ids coins (Chan.start init) S) (h : ∀ S', ¬ Chan.Step (Sign.impl sha) ids coins S S') (i : ID) (hi : i ∈ ids) :
    (S i).started = true ∧ (S i).outbox = [] ∧ (S i).bytes = [] ∧ (S i).held = none ∧ (S i).incoming = [] ∧ (S i).exited = (S i).state.done := by
  obtain ⟨r₀, P⟩ := sign_protocol hs coins hcoins
  exact Chan.final P hp h hi

/-- C72: there is an execution in which everybody finishes, if there are at least two. -/
theorem C72_sign_can_finish (hs : Spec.SignSetup sha ids t F message secret pub timeout now init) (coins : ID → Coins)
    (hcoins : ∀ i ∈ ids, coins i 0 ≠ 0 ∧ coins i 1 ≠ 0) (h2 : 2 ≤ ids.length) :
    ∃ S, Chan.Steps (Sign.impl sha) ids coins (Chan.start init) S ∧ ∀ i ∈ ids, (S i).state.done = true ∧ (S i).exited = true := by
  obtain ⟨r₀, P⟩ := sign_protocol hs coins hcoins
  exact Chan.can_finish P h2

/-- C72: with two parties every execution ends with both finished. -/
theorem C72_sign_two (hs : Spec.SignSetup sha ids t F message secret pub timeout now init) (coins : ID → Coins)
    (hcoins : ∀ i ∈ ids, coins i 0 ≠ 0 ∧ coins i 1 ≠ 0) (h2 : ids.length = 2) (S : Chan.Sys G (Sign.Round G))
    (hp : Chan.Steps (Sign.impl sha) ids coins (Chan.start init) S) (h : ∀ S', ¬ Chan.Step (Sign.impl sha) ids coins S S') (i : ID) (hi : i ∈ ids) :
    (S i).state.done = true ∧ (S i).exited = true := by
  obtain ⟨r₀, P⟩ := sign_protocol hs coins hcoins
  exact Chan.two_finish P h2 hp h hi

/-- C72: with three or more parties it can happen that a party never finishes, whatever is done afterwards. -/
theorem C72_sign_can_hang (hs : Spec.SignSetup sha ids t F message secret pub timeout now init) (coins : ID → Coins)
    (hcoins : ∀ i ∈ ids, coins i 0 ≠ 0 ∧ coins i 1 ≠ 0) (h3 : 3 ≤ ids.length) (a : ID) (ha : a ∈ ids) :
    ∃ S, Chan.Steps (Sign.impl sha) ids coins (Chan.start init) S ∧
      ∀ S', Chan.Steps (Sign.impl sha) ids coins S S' → (S' a).state.done = false ∧ (S' a).exited = false := by
  obtain ⟨r₀, P⟩ := sign_protocol hs coins hcoins
  obtain ⟨b, hb, hab⟩ := Chan.another P (by omega) ha
  exact Chan.can_hang P h3 ha hb hab

end sign

namespace Demo

/-- Three parties, whatever their coins, can hang or finish. -/
example (coins : ID → Coins) : (∃ S, Chan.Steps (Keygen.impl toySha) ids coins (Chan.start (session ids 1)) S ∧
      ∀ S', Chan.Steps (Keygen.impl toySha) ids coins S S' → (S' 2).state.done = false ∧ (S' 2).exited = false) ∧
    ∃ S, Chan.Steps (Keygen.impl toySha) ids coins (Chan.start (session ids 1)) S ∧ ∀ i ∈ ids, (S i).state.done = true ∧ (S i).exited = true :=
  ⟨C72_keygen_can_hang keygen_setup coins (by decide) 2 (by decide), C72_keygen_can_finish keygen_setup coins (by decide)⟩

/-- Two of them can go on to sign through channels, and finish. -/
example (kcoins scoins : ID → Coins) (hs : ∀ i ∈ [(1 : ID), 3], scoins i 0 ≠ 0 ∧ scoins i 1 ≠ 0) (message : Bytes) :
    ∃ init : ID → State Toy (Sign.Round Toy), ∃ S, Chan.Steps (Sign.impl toySha) [1, 3] scoins (Chan.start init) S ∧ ∀ i ∈ [(1 : ID), 3], (S i).state.done = true ∧ (S i).exited = true := by
  obtain ⟨_, _, _, secret, pub, init, hset, _⟩ := network kcoins scoins hs message
  exact ⟨init, C72_sign_can_finish hset scoins hs (by decide)⟩

end Demo

end Verif.Props
