import Verif.Lemmas.Teardown
import Verif.Props.Frosted

/-!
C88: taking the communicators down after a session.
-/

namespace Verif

open State Spec

namespace Chan

variable {G R : Type} [RGroup G] {impl : RoundImpl G R} {ids : IDSlice} {r₀ : ID → R} {coins : ID → Coins} {M : Nat → ID → ID → Message G}
  {out : ID → Nat → List (Message G)} {Good : ID → Nat → R → Prop} {timeout now : ID → Nat} {tys : List MsgType}
  {init : ID → State G R} {S : Sys G R}

/-- When all sessions are done there is nothing under way. -/
theorem quiet_of_done (P : Protocol impl ids r₀ coins M out Good tys timeout now init) (hp : Steps impl ids coins (start init) S)
    (hd : ∀ i ∈ ids, (S i).state.done = true) : Quiet ids S := by
  obtain ⟨N, r, _⟩ := (run_start P).steps P hp
  have hn : ∀ i ∈ ids, (N.state i).done = true := fun i hi => r.state i hi ▸ hd i hi
  refine ⟨fun i hi => ?_, fun i hi => ?_, fun i hi => (r.done_nothing P hi (hn i hi)).2.2.1, fun i hi => (r.done_nothing P hi (hn i hi)).2.1,
    fun i hi => (r.done_nothing P hi (hn i hi)).1, fun i hi _ => ?_⟩
  · by_contra h
    have h1 := (r.fresh i hi (by simpa using h)).2.2
    have h2 := hn i hi
    rw [h1, P.init i hi] at h2
    cases h2
  · rcases ho : (S i).outbox with _ | ⟨p, l⟩
    · rfl
    · have hpo : p ∈ (S i).outbox := by rw [ho]; exact List.mem_cons_self
      have hj := (mem_others.mp (r.outs i hi p hpo).1).1
      exact absurd rfl ((r.done_nothing P hj (hn _ hj)).2.2.2 i hi p hpo)
  · rw [r.state i hi, (inv_hist P.honest.stable ((P.netInv r.path).hist i hi)).closed]
    exact hn i hi

/-- What it means that the communicators are taken down without harm: from wherever the goroutines have got to no step panics, there is something to do
until everything has ended, the end can be reached, and it is reached after a bounded number of steps that are not turns of a waiting
loop. -/
def Harmless (impl : RoundImpl G R) (ids : List ID) (coins : ID → Coins) (D₀ : Down G R) : Prop :=
  (∀ D, DownSteps impl ids coins D₀ D →
    ¬ DownStep impl ids coins D none ∧ (D.Ended ids ∨ ∃ D', DownStep impl ids coins D (some D') ∧ D' ≠ D) ∧
    ∃ D', DownSteps impl ids coins D D' ∧ D'.Ended ids) ∧
  ∀ (f : Nat → Down G R) (k : Nat), f 0 = D₀ → (∀ l < k, DownStep impl ids coins (f l) (some (f (l + 1)))) →
    ∀ L : List Nat, L.Nodup → (∀ l ∈ L, l < k ∧ f (l + 1) ≠ f l) → L.length ≤ 5 * ids.length + 2

theorem Quiet.harmless (q : Quiet ids S) (hnd : ids.Nodup) {order : List ID} (ho : order.Perm ids) : Harmless impl ids coins (down S ids order) := by
  have I := Down.inv_down q hnd ho
  refine ⟨fun D h => ?_, fun f k h0 h L hL hl => ?_⟩
  · have J := I.steps hnd h
    refine ⟨fun h => ?_, J.progress hnd, J.ends hnd⟩
    obtain ⟨_, h1, _⟩ := J.step hnd h
    cases h1
  · obtain ⟨_, h1, h2⟩ := I.bound hnd f h0 k h
    refine le_trans ?_ (le_trans (le_trans (Nat.le_add_left ..) h1) (Down.todo_down ho))
    refine (List.subperm_of_subset hL fun l h => ?_).length_le
    obtain ⟨h3, h4⟩ := hl l h
    rw [List.mem_filter, List.mem_range]
    exact ⟨h3, by simpa using h2 l h3 h4⟩

end Chan

end Verif

namespace Verif.Props

open Verif State Polynomial

variable {G : Type} [RGroup G] {sha : Sha512}

/-- C88: if the constructor of a session fails and the communicators are taken down before there is any handler, no step panics and all goroutines end. -/
theorem C88_channel_idle {R : Type} {impl : RoundImpl G R} {ids order : List ID} {coins : ID → Coins} (hnd : ids.Nodup) (ho : order.Perm ids)
    (s : ID → State G R) : Chan.Harmless impl ids coins (Chan.down (Chan.idle s) ids order) :=
  Chan.Quiet.harmless ⟨fun _ _ => rfl, fun _ _ => rfl, fun _ _ => rfl, fun _ _ => rfl, fun _ _ => rfl, fun _ _ h => by cases h⟩ hnd ho

/-- C88: the hypothesis that the sessions have ended is needed: a message that is being moved while the communicator of its receiver is taken down
crashes the program. -/
theorem C88_channel_early {R : Type} {impl : RoundImpl G R} {ids rest : List ID} {coins : ID → Coins} {S : Chan.Sys G R} {i : ID} {m : Message G}
    (hi : i ∈ ids) (h : (S i).held = some m) :
    ∃ D, Chan.DownSteps impl ids coins (Chan.down S ids (i :: rest)) D ∧ Chan.DownStep impl ids coins D none := by
  have h1 : Chan.DownStep impl ids coins (Chan.down S ids (i :: rest)) (some { Chan.down S ids (i :: rest) with half := true, wg := ids.length - 1 }) :=
    .wgDone rfl rfl (List.length_pos_of_mem hi).ne'
  exact ⟨_, ((Chan.DownSteps.refl _).tail h1).tail (.closeIn rfl rfl rfl), .putClosed hi rfl h (Function.update_self ..)⟩

section keygen

variable {ids order : IDSlice} {t : UInt16} {timeout now : ID → Nat} {init : ID → State G (Keygen.Round G)}

/-- C88: when all parties of a key generation over channels have finished, the communicators are taken down without a panic, in whatever order, and
all goroutines end. -/
theorem C88_channel_keygen (hs : Spec.KeygenSetup sha ids t timeout now init) (coins : ID → Coins) (S : Chan.Sys G (Keygen.Round G))
    (hp : Chan.Steps (Keygen.impl sha) ids coins (Chan.start init) S) (hd : ∀ i ∈ ids, (S i).state.done = true) (ho : order.Perm ids) :
    Chan.Harmless (Keygen.impl sha) ids coins (Chan.down S ids order) := by
  rcases ids.eq_nil_or_concat with h | ⟨_, i, h⟩
  · subst h
    exact Chan.Quiet.harmless ⟨by simp, by simp, by simp, by simp, by simp, by simp⟩ List.nodup_nil ho
  · have hi : i ∈ ids := by rw [h]; simp
    obtain ⟨r₀, P⟩ := keygen_protocol hs coins hi
    exact (Chan.quiet_of_done P hp hd).harmless P.honest.nodup ho

/-- C88: over UDP `close(c.incoming)` comes before `c.conn.Close()`.  After every key generation in which the first party to be taken down has
finished, a packet it has got once and gets again in between crashes the program. -/
theorem C88_udp_keygen_can_crash (hs : Spec.KeygenSetup sha ids t timeout now init) (coins : ID → Coins) (S : Udp.Sys G (Keygen.Round G))
    (hp : Udp.Steps (Keygen.impl sha) ids coins (Udp.start init fun _ => []) S) (i : ID) (rest : List ID) (hi : i ∈ ids)
    (hd : (S.node i).state.done = true) (he : (S.node i).state.err = none) :
    ∃ D, Udp.DownSteps (Keygen.impl sha) ids coins (Udp.down S (i :: rest)) D ∧ Udp.DownStep (Keygen.impl sha) ids coins D none := by
  obtain ⟨r₀, P⟩ := keygen_protocol hs coins hi
  obtain ⟨j, hj, hne⟩ := Chan.another P (hs.two_le hi) hi
  obtain ⟨⟨b, hb, _⟩, _⟩ := C77_keygen_needs_all hs coins S hp i hi hd he j hj (fun h => hne h.symm)
  exact Udp.down_crash hi (.inr (List.ne_nil_of_mem hb))

/-- C88: it can also be that the program must crash: eleven packets that come after the handler has returned fill the channel and block the reader, which never
returns, and panics when `Done` closes the channel. -/
theorem C88_udp_keygen_must_crash (hs : Spec.KeygenSetup sha ids t timeout now init) (coins : ID → Coins) (S : Udp.Sys G (Keygen.Round G))
    (hp : Udp.Steps (Keygen.impl sha) ids coins (Udp.start init fun _ => []) S) (i : ID) (hi : i ∈ ids)
    (hd : (S.node i).state.done = true) (he : (S.node i).state.err = none) (hx : (S.node i).exited = true) (ho : i ∈ order) :
    ∃ S', Udp.Steps (Keygen.impl sha) ids coins S S' ∧
      (∀ j, (S'.node j).state = (S.node j).state ∧ (S'.node j).exited = (S.node j).exited) ∧
      ∀ D, Udp.DownSteps (Keygen.impl sha) ids coins (Udp.down S' order) D → ¬ D.Ended ids ∧ D.gone i = false ∧
        (D.left = [] → Udp.DownStep (Keygen.impl sha) ids coins D none) := by
  obtain ⟨r₀, P⟩ := keygen_protocol hs coins hi
  obtain ⟨j, hj, hne⟩ := Chan.another P (hs.two_le hi) hi
  obtain ⟨⟨b, hb, _⟩, _⟩ := C77_keygen_needs_all hs coins S hp i hi hd he j hj (fun h => hne h.symm)
  obtain ⟨S', h1, h2, ⟨m, h3⟩, h4⟩ := Udp.can_block (impl := Keygen.impl sha) (coins := coins) hi hx (Udp.incoming_le hp i) (List.ne_nil_of_mem hb)
  refine ⟨S', h1, h2, fun D h => ?_⟩
  obtain ⟨g1, g2, g3⟩ := Udp.down_must_crash hi ho h3 h4 ((h2 i).2.trans hx) h
  refine ⟨fun e => ?_, g2, fun hl => .putClosed hi g1 (g3.resolve_left (by rw [hl]; exact List.not_mem_nil))⟩
  have := e.readers i hi
  rw [g2] at this
  cases this

/-- C88: nor need a packet be received twice.  `DoKeygen` returns as soon as one session has failed, so if one times out while the first packet that was ever
sent to it is under way, the communicators are taken down with that packet still to come. -/
theorem C88_udp_timeout_can_crash (hs : Spec.KeygenSetup sha ids t timeout now init) (coins : ID → Coins) (i : ID) (rest : List ID) (hi : i ∈ ids)
    (hto : 0 < timeout i) :
    ∃ S x, Udp.Steps (Keygen.impl sha) ids coins (Udp.start init fun _ => []) S ∧ Spec.TimedOut (S.node i).state ∧ S.wire i = [x] ∧
      (∀ j, j ≠ i → S.wire j = []) ∧ (∀ j, (S.node j).held = none ∧ (S.node j).incoming = []) ∧
      ∃ D, Udp.DownSteps (Keygen.impl sha) ids coins (Udp.down S (i :: rest)) D ∧ Udp.DownStep (Keygen.impl sha) ids coins D none := by
  obtain ⟨r₀, P⟩ := keygen_protocol hs coins hi
  obtain ⟨j, hj, hne⟩ := Chan.another P (hs.two_le hi) hi
  obtain ⟨S, x, h1, h2, h3, h4, h5⟩ := Udp.timeout_early P hi hj (fun h => hne h.symm) hto (by
    intro S hp h0
    obtain ⟨N, r⟩ := Udp.Run.ofSteps (fits_of_path P (keygen_fits hs coins)) hp
    rw [r.state i hi] at h0 ⊢
    exact (C76_keygen hs coins N r.path i hi).2.2 .callback (Or.inl rfl) (.inr h0))
  exact ⟨S, x, h1, h2, h3, h4, h5, Udp.down_crash hi (.inr (by rw [h3]; simp))⟩

/-- C88: nothing else crashes the program: what panics while the communicators of an honest key generation are taken down is a reader that puts a message
into a closed channel, or a timer that fires before the session has begun. -/
theorem C88_udp_keygen_only (hs : Spec.KeygenSetup sha ids t timeout now init) (coins : ID → Coins) (S : Udp.Sys G (Keygen.Round G))
    (hp : Udp.Steps (Keygen.impl sha) ids coins (Udp.start init fun _ => []) S) (ho : order.Perm ids) (D : Udp.Down G (Keygen.Round G))
    (h : Udp.DownSteps (Keygen.impl sha) ids coins (Udp.down S order) D) (hc : Udp.DownStep (Keygen.impl sha) ids coins D none) :
    (∃ i ∈ ids, ∃ m, (D.sys.node i).held = some m ∧ D.inClosed i = true) ∨
    ∃ i ∈ ids, (D.sys.node i).state.roundNumber = 0 ∧ (D.sys.node i).state.timer.fired ≠ 0 := by
  rcases ((Udp.Down.inv_down (S := S) hs.nodup ho).steps h).step hc with ⟨_, h, _⟩ | ⟨_, h' | h'⟩
  · cases h
  · exact .inr (C79_udp_crash_only_early hs D.sys (Udp.Steps.append hp h.sys) h')
  · exact .inl h'

end keygen

section sign

variable {ids order : IDSlice} {t : UInt16} {F : Scalar[X]} {message : Bytes} {secret : ID → SecretShare G} {pub : ID → Public G}
  {timeout now : ID → Nat} {init : ID → State G (Sign.Round G)}

/-- C88: the same for signing over channels. -/
theorem C88_channel_sign (hs : Spec.SignSetup sha ids t F message secret pub timeout now init) (coins : ID → Coins)
    (hcoins : ∀ i ∈ ids, coins i 0 ≠ 0 ∧ coins i 1 ≠ 0) (S : Chan.Sys G (Sign.Round G))
    (hp : Chan.Steps (Sign.impl sha) ids coins (Chan.start init) S) (hd : ∀ i ∈ ids, (S i).state.done = true) (ho : order.Perm ids) :
    Chan.Harmless (Sign.impl sha) ids coins (Chan.down S ids order) := by
  obtain ⟨r₀, P⟩ := sign_protocol hs coins hcoins
  exact (Chan.quiet_of_done P hp hd).harmless hs.nodup ho

/-- C88: the same for signing over UDP. -/
theorem C88_udp_sign_can_crash (hs : Spec.SignSetup sha ids t F message secret pub timeout now init) (coins : ID → Coins)
    (hcoins : ∀ i ∈ ids, coins i 0 ≠ 0 ∧ coins i 1 ≠ 0) (S : Udp.Sys G (Sign.Round G))
    (hp : Udp.Steps (Sign.impl sha) ids coins (Udp.start init fun _ => []) S) (i j : ID) (rest : List ID) (hi : i ∈ ids) (hj : j ∈ ids) (hne : j ≠ i)
    (hd : (S.node i).state.done = true) (he : (S.node i).state.err = none) :
    ∃ D, Udp.DownSteps (Sign.impl sha) ids coins (Udp.down S (i :: rest)) D ∧ Udp.DownStep (Sign.impl sha) ids coins D none := by
  obtain ⟨⟨b, hb, _⟩, _⟩ := C77_sign_needs_all hs coins hcoins S hp i hi hd he j hj hne
  exact Udp.down_crash hi (.inr (List.ne_nil_of_mem hb))

theorem C88_udp_sign_must_crash (hs : Spec.SignSetup sha ids t F message secret pub timeout now init) (coins : ID → Coins)
    (hcoins : ∀ i ∈ ids, coins i 0 ≠ 0 ∧ coins i 1 ≠ 0) (S : Udp.Sys G (Sign.Round G))
    (hp : Udp.Steps (Sign.impl sha) ids coins (Udp.start init fun _ => []) S) (i j : ID) (hi : i ∈ ids) (hj : j ∈ ids) (hne : j ≠ i)
    (hd : (S.node i).state.done = true) (he : (S.node i).state.err = none) (hx : (S.node i).exited = true) (ho : i ∈ order) :
    ∃ S', Udp.Steps (Sign.impl sha) ids coins S S' ∧
      (∀ j, (S'.node j).state = (S.node j).state ∧ (S'.node j).exited = (S.node j).exited) ∧
      ∀ D, Udp.DownSteps (Sign.impl sha) ids coins (Udp.down S' order) D → ¬ D.Ended ids ∧ D.gone i = false ∧
        (D.left = [] → Udp.DownStep (Sign.impl sha) ids coins D none) := by
  obtain ⟨⟨b, hb, _⟩, _⟩ := C77_sign_needs_all hs coins hcoins S hp i hi hd he j hj hne
  obtain ⟨S', h1, h2, ⟨m, h3⟩, h4⟩ := Udp.can_block (impl := Sign.impl sha) (coins := coins) hi hx (Udp.incoming_le hp i) (List.ne_nil_of_mem hb)
  refine ⟨S', h1, h2, fun D h => ?_⟩
  obtain ⟨g1, g2, g3⟩ := Udp.down_must_crash hi ho h3 h4 ((h2 i).2.trans hx) h
  refine ⟨fun e => ?_, g2, fun hl => .putClosed hi g1 (g3.resolve_left (by rw [hl]; exact List.not_mem_nil))⟩
  have := e.readers i hi
  rw [g2] at this
  cases this

/-- C88: when an honest signing over UDP is taken down, only a reader that puts a message into a closed channel panics. -/
theorem C88_udp_sign_only (hs : Spec.SignSetup sha ids t F message secret pub timeout now init) (coins : ID → Coins)
    (hcoins : ∀ i ∈ ids, coins i 0 ≠ 0 ∧ coins i 1 ≠ 0) (S : Udp.Sys G (Sign.Round G))
    (hp : Udp.Steps (Sign.impl sha) ids coins (Udp.start init fun _ => []) S) (ho : order.Perm ids) (D : Udp.Down G (Sign.Round G))
    (h : Udp.DownSteps (Sign.impl sha) ids coins (Udp.down S order) D) (hc : Udp.DownStep (Sign.impl sha) ids coins D none) :
    ∃ i ∈ ids, ∃ m, (D.sys.node i).held = some m ∧ D.inClosed i = true := by
  rcases ((Udp.Down.inv_down (S := S) hs.nodup ho).steps h).step hc with ⟨_, h, _⟩ | ⟨_, h' | h'⟩
  · cases h
  · obtain ⟨r₀, P⟩ := sign_protocol hs coins hcoins
    obtain ⟨sig, _, hsig⟩ := C76_sign hs coins hcoins
    obtain ⟨N, r⟩ := Udp.Run.ofSteps (fits_of_path P (sign_fits hs.zero message F coins)) (Udp.Steps.append hp h.sys)
    obtain ⟨i, hi, hn⟩ := Udp.crash_callback (fun N hN i hi op ha _ => (hsig N hN i hi).2.2 op ha) r h'
    obtain ⟨s, ret, hs'⟩ := (hsig N r.path i hi).2.2 .callback (Or.inl rfl)
    rw [hn] at hs'
    cases hs'
  · exact h'

end sign

/-- C88: if the constructor of a session fails, the communicators over UDP are taken down without a panic too, as long as nobody sends them a packet.
The sessions `s` are not used: their timers are off. -/
theorem C88_udp_idle {R : Type} {impl : RoundImpl G R} {ids order : List ID} {coins : ID → Coins} (hnd : ids.Nodup) (ho : order.Perm ids)
    (s : ID → State G R) (hs : ∀ i ∈ ids, (s i).timer.deadline = none ∧ (s i).timer.fired = 0) (D : Udp.Down G R)
    (h : Udp.DownSteps impl ids coins (Udp.down (Udp.idle s fun _ => []) order) D) :
    ¬ Udp.DownStep impl ids coins D none ∧ ∃ D', Udp.DownSteps impl ids coins D D' ∧ D'.Ended ids := by
  have q : Udp.Quiet ids D.sys := Udp.Quiet.steps ⟨fun _ _ => rfl, fun _ _ => rfl, fun _ _ => rfl, fun _ _ => rfl, fun _ _ => rfl, hs⟩ h.sys
  have J := (Udp.Down.inv_down (S := Udp.idle s fun _ => []) hnd ho).steps h
  refine ⟨fun hc => ?_, ?_⟩
  · rcases J.step hc with ⟨_, h, _⟩ | ⟨_, h' | ⟨i, hi, m, h1, _⟩⟩
    · cases h
    · exact q.no_crash h'
    · rw [q.held i hi] at h1
      cases h1
  · obtain ⟨D', h1, h2, _⟩ := J.ends (impl := impl) (coins := coins) q.held
    exact ⟨D', h1, h2⟩

/-- C88: with a packet of anybody they are not: the reader may take it before `Done` and put it into the channel after. -/
theorem C88_udp_idle_packet {R : Type} {impl : RoundImpl G R} {ids rest : List ID} {coins : ID → Coins} {i : ID} (hi : i ∈ ids) (s : ID → State G R)
    (noise : ID → List Bytes) (h : noise i ≠ []) :
    ∃ D, Udp.DownSteps impl ids coins (Udp.down (Udp.idle s noise) (i :: rest)) D ∧ Udp.DownStep impl ids coins D none :=
  Udp.down_crash hi (.inr h)

/-- The hypotheses are met: there are executions in which all three parties finish, over channels and over UDP, and all of those are taken down as said. -/
example (c : ID → Coins) : ∃ S, Chan.Steps (Keygen.impl toySha) Demo.ids c (Chan.start (Demo.session Demo.ids 1)) S ∧
    Chan.Harmless (Keygen.impl toySha) Demo.ids c (Chan.down S Demo.ids Demo.ids.reverse) := by
  obtain ⟨S, h1, h2⟩ := C72_keygen_can_finish Demo.keygen_setup c (by decide)
  exact ⟨S, h1, C88_channel_keygen Demo.keygen_setup c S h1 (fun i hi => (h2 i hi).1) (List.reverse_perm _)⟩

example (c : ID → Coins) : ∃ S, Udp.Steps (Keygen.impl toySha) Demo.ids c (Udp.start (Demo.session Demo.ids 1) fun _ => []) S ∧
    (∃ D, Udp.DownSteps (Keygen.impl toySha) Demo.ids c (Udp.down S [1, 2, 3]) D ∧ Udp.DownStep (Keygen.impl toySha) Demo.ids c D none) ∧
    ∃ S', Udp.Steps (Keygen.impl toySha) Demo.ids c S S' ∧ ∀ D, Udp.DownSteps (Keygen.impl toySha) Demo.ids c (Udp.down S' [2, 3, 1]) D → ¬ D.Ended Demo.ids := by
  obtain ⟨S, h1, h2⟩ := C77_keygen_can_finish Demo.keygen_setup c (by decide)
  obtain ⟨g1, g2, g3⟩ := h2 1 (by decide)
  refine ⟨S, h1, C88_udp_keygen_can_crash Demo.keygen_setup c S h1 1 [2, 3] (by decide) g1 g2, ?_⟩
  obtain ⟨S', h3, _, h4⟩ := C88_udp_keygen_must_crash (order := [2, 3, 1]) Demo.keygen_setup c S h1 1 (by decide) g1 g2 g3 (by decide)
  exact ⟨S', h3, fun D h => (h4 D h).1⟩

example (kcoins scoins : ID → Coins) (hs : ∀ i ∈ [(1 : ID), 3], scoins i 0 ≠ 0 ∧ scoins i 1 ≠ 0) (message : Bytes) :
    ∃ init : ID → State Toy (Sign.Round Toy), ∃ S, Chan.Steps (Sign.impl toySha) [1, 3] scoins (Chan.start init) S ∧
      Chan.Harmless (Sign.impl toySha) [1, 3] scoins (Chan.down S [1, 3] [3, 1]) := by
  obtain ⟨_, _, _, secret, pub, init, hset, _⟩ := Demo.network kcoins scoins hs message
  obtain ⟨S, h1, h2⟩ := C72_sign_can_finish hset scoins hs (by decide)
  exact ⟨init, S, h1, C88_channel_sign hset scoins hs S h1 (fun i hi => (h2 i hi).1) (List.Perm.swap ..)⟩

example (c : ID → Coins) := C88_udp_timeout_can_crash Demo.keygen_setup c 2 [1, 3] (by decide) (by decide)

end Verif.Props
