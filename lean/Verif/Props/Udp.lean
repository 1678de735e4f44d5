import Verif.Lemmas.Udp
import Verif.Props.Channel
import Verif.Props.NetTime
import Verif.Props.KeygenOut

/-!
C77: key generation and signing over UDP, where packets may be lost, duplicated and reordered.
-/

namespace Verif.Props

open Verif State Polynomial

variable {G : Type} [RGroup G] {sha : Sha512}

/-- Every message that is sent in an execution with time-outs fits a packet, if those of the protocol do. -/
theorem fits_of_path {R : Type} {impl : RoundImpl G R} {ids : IDSlice} {r₀ : ID → R} {coins : ID → Coins} {M : Nat → ID → ID → Message G}
    {out : ID → Nat → List (Message G)} {Good : ID → Nat → R → Prop} {timeout now : ID → Nat} {tys : List MsgType} {init : ID → State G R}
    (P : Chan.Protocol impl ids r₀ coins M out Good tys timeout now init) (hout : ∀ i ∈ ids, ∀ n, n < 2 → ∀ m ∈ out i n, Udp.Fits ids m)
    (N : Spec.Net G R) (hp : Spec.PathT impl ids coins (Spec.Net.start init) N) (m : Message G) (hm : m ∈ N.sent) : Udp.Fits ids m := by
  obtain ⟨N', h1, h2, _⟩ := untimed hp fun N' h => (P.netInv h).err
  rw [h2] at hm
  obtain ⟨i, hi, n, hn, hmn⟩ := (P.netInv h1).sentOnly m hm
  exact hout i hi n hn m hmn

theorem packet_of {R : Type} {impl : RoundImpl G R} {ids : IDSlice} {coins : ID → Coins} {init : ID → State G R} {S : Udp.Sys G R} {N : Spec.Net G R}
    (r : Udp.Run impl ids coins init S N) {i : ID} (hi : i ∈ ids) {m : Message G} {ret : Ret G} (h : (Op.handle m, ret) ∈ N.hist i) {j : ID} {ty : MsgType}
    (h1 : m.header.fromID = j) (h2 : m.header.type = ty) :
    ∃ b ∈ S.wire i, ∃ m : Message G, Message.unmarshalBinary Message.fresh b = .ok m ∧ m.header.fromID = j ∧ m.header.type = ty := by
  obtain ⟨b, hb, hm⟩ := r.given i hi m ret h
  obtain ⟨h3, m', _, h4⟩ := r.wire i hi b hb
  rw [Udp.read_eq h3 h4] at hm
  subst hm
  exact ⟨b, hb, m', h4, h1, h2⟩

section keygen

variable {ids : IDSlice} {t : UInt16} {timeout now : ID → Nat} {init : ID → State G (Keygen.Round G)}

/-- Every message of an honest key generation fits the buffer of the reader. -/
theorem keygen_fits (hs : Spec.KeygenSetup sha ids t timeout now init) (coins : ID → Coins) (i : ID) (hi : i ∈ ids) (n : Nat) (hn : n < 2)
    (m : Message G) (hm : m ∈ Keygen.honestOut ids t coins i n) : Udp.Fits ids m := by
  obtain ⟨r₀, h1, _⟩ := start_of_new (hs.start i hi) hs.nodup
  obtain ⟨_, ht0, htn, _⟩ := h1.eq
  have hlen := nodup_ids_length hs.nodup
  rw [UInt16.le_iff_toNat_le, N_pred_eq (List.ne_nil_of_mem hi) hlen] at htn
  have hi0 : i ≠ 0 := fun h => hs.zero (h ▸ hi)
  have hpos := List.length_pos_of_mem hi
  have ht : t.toNat ≠ 65535 := fun h => Keygen.threshold_ne h1 hs.zero (UInt16.toNat_inj.mp h)
  match n, hn with
  | 0, _ =>
    rw [Keygen.honestOut, List.mem_singleton] at hm
    subst hm
    obtain ⟨b, h1, h2, h3⟩ := C19_keyGen1 (G := G) i hi0 ⟨0, coins i (t.toNat + 1)⟩ (Exponent.ofPoly (Keygen.coinPoly t (coins i))) (by
      simp only [Exponent.ofPoly, List.length_map, Keygen.coinPoly_length]
      omega)
    refine ⟨b, h1, h3, ?_⟩
    rw [h2]
    simp [Message.size, Message.newKeyGen1, Header.size, headerSize, KeyGen1.size, Schnorr.size, Exponent.size, Exponent.ofPoly, Keygen.coinPoly_length, Udp.bufferSize,
      MsgType.keyGen1]
    omega
  | 1, _ =>
    obtain ⟨k, hk, rfl⟩ := List.mem_map.mp hm
    obtain ⟨b, h1, h2, h3⟩ := C19_keyGen2 (G := G) i k hi0 (fun h => hs.zero (h ▸ (List.mem_filter.mp hk).1)) (Spec.evalAt (Keygen.coinPoly t (coins i)) k.val)
    refine ⟨b, h1, h3, ?_⟩
    rw [h2]
    simp [Message.size, Message.newKeyGen2, Header.size, headerSize, KeyGen2.size, Udp.bufferSize, MsgType.keyGen1, MsgType.keyGen2]
    omega

/-- C77: whatever the network does with the packets, and whenever sessions time out: a time-out is the only error a session ends with,
nobody is blamed, whoever finishes without error has the right result, and every packet is decoded completely: it fits the buffer. -/
theorem C77_keygen_safe (hs : Spec.KeygenSetup sha ids t timeout now init) (coins : ID → Coins) (S : Udp.Sys G (Keygen.Round G))
    (hp : Udp.Steps (Keygen.impl sha) ids coins (Udp.start init fun _ => []) S) (i : ID) (hi : i ∈ ids) :
    (Spec.TimedOut (S.node i).state ∨ (S.node i).state.err = none) ∧
    ((S.node i).state.done = true → (S.node i).state.err = none →
      Spec.KeygenResult ids t (Spec.jointPoly ids t.toNat coins) i (S.node i).state.round) ∧
    ∀ b ∈ S.wire i, b.length ≤ Udp.bufferSize ids ∧ ∃ m : Message G, Message.unmarshalBinary Message.fresh b = .ok m := by
  obtain ⟨r₀, P⟩ := keygen_protocol hs coins hi
  obtain ⟨N, r⟩ := Udp.Run.ofSteps (fits_of_path P (keygen_fits hs coins)) hp
  obtain ⟨h1, h2, _⟩ := C76_keygen hs coins N r.path i hi
  rw [r.state i hi]
  refine ⟨h1, h2, fun b hb => ?_⟩
  obtain ⟨h3, m, _, h4⟩ := r.wire i hi b hb
  exact ⟨h3, m, h4⟩

/-- C77: nothing is sent twice, so a packet that is lost is missed: a party finishes only if a packet with the commitments and one with
the share of every other party were sent to it. -/
theorem C77_keygen_needs_all (hs : Spec.KeygenSetup sha ids t timeout now init) (coins : ID → Coins) (S : Udp.Sys G (Keygen.Round G))
    (hp : Udp.Steps (Keygen.impl sha) ids coins (Udp.start init fun _ => []) S) (i : ID) (hi : i ∈ ids)
    (hd : (S.node i).state.done = true) (he : (S.node i).state.err = none) (j : ID) (hj : j ∈ ids) (hne : j ≠ i) :
    (∃ b ∈ S.wire i, ∃ m : Message G, Message.unmarshalBinary Message.fresh b = .ok m ∧ m.header.fromID = j ∧ m.header.type = 1) ∧
    ∃ b ∈ S.wire i, ∃ m : Message G, Message.unmarshalBinary Message.fresh b = .ok m ∧ m.header.fromID = j ∧ m.header.type = 2 := by
  obtain ⟨r₀, P⟩ := keygen_protocol hs coins hi
  obtain ⟨N, r⟩ := Udp.Run.ofSteps (fits_of_path P (keygen_fits hs coins)) hp
  rw [r.state i hi] at hd he
  have hh := r.hist i hi
  obtain ⟨r₁, h1, h2⟩ := start_of_new (hs.start i hi) hs.nodup
  rw [h2] at hh
  obtain ⟨_, C, z, _, _, _, h3, _⟩ := finished_spec h1 ((Keygen.running h1 hh).2 hd he)
  obtain ⟨⟨m, _, g1, _, g2, g3, _⟩, _, ⟨m', _, g1', _, g2', g3', _⟩, _⟩ := h3 j (mem_others.mpr ⟨hj, hne⟩)
  exact ⟨packet_of r hi g1 g2 g3, packet_of r hi g1' g2' g3'⟩

/-- C77: if no packet is lost and they come in a good order then everybody finishes. -/
theorem C77_keygen_can_finish (hs : Spec.KeygenSetup sha ids t timeout now init) (coins : ID → Coins) (hne : ids ≠ []) :
    ∃ S, Udp.Steps (Keygen.impl sha) ids coins (Udp.start init fun _ => []) S ∧
      ∀ i ∈ ids, (S.node i).state.done = true ∧ (S.node i).state.err = none ∧ (S.node i).exited = true := by
  obtain ⟨i, hi⟩ := List.exists_mem_of_ne_nil _ hne
  obtain ⟨r₀, P⟩ := keygen_protocol hs coins hi
  obtain ⟨S, h1, h2⟩ := C72_keygen_can_finish hs coins hne
  obtain ⟨U, N, h3, l, _⟩ := Udp.like P (keygen_fits hs coins) h1
  refine ⟨U, h3, fun k hk => ?_⟩
  rw [l.node k hk]
  exact ⟨(h2 k hk).1, (C72_keygen_safe hs coins S h1 k hk).1, (h2 k hk).2⟩

/-- The five bytes that look like a KeyGen1 message of `j` without contents. -/
def spoof (j : ID) : Bytes := Spec.headerBytes 1 j 0

/-- C77: nothing checks where a packet comes from.  Five bytes sent by anybody to a party crash it: here with two parties, where the
handler has nothing else to wait for. -/
theorem C77_spoof_crashes (hs : Spec.KeygenSetup sha ids t timeout now init) (coins : ID → Coins) (h2 : ids.length = 2) (i j : ID) (hi : i ∈ ids)
    (hj : j ∈ ids) (hne : j ≠ i) :
    ∃ (S : Udp.Sys G (Keygen.Round G)) (m : Message G),
      Udp.Steps (Keygen.impl sha) ids coins (Udp.start init (Function.update (fun _ => []) i [spoof j])) S ∧
      (S.node i).started = true ∧ (S.node i).exited = false ∧ (S.node i).outbox = [] ∧ (S.node i).incoming = [m] ∧
      ∀ ord c, State.processAll (Keygen.impl sha) ord c (State.handleMessage (Keygen.impl sha) (S.node i).state m).1 = none := by
  obtain ⟨r₀, P⟩ := keygen_protocol hs coins hi
  obtain ⟨s, hpr, hb⟩ := Chan.first_process P (.refl _) hi rfl .insertion
  set m : Message G := ⟨⟨1, j, 0⟩, none, none, none, none⟩ with hm
  have hj0 : j ≠ 0 := fun h => hs.zero (h ▸ hj)
  have hread : Udp.read ids (spoof j) = m := by
    refine Udp.read_eq ?_ ?_
    · rw [spoof, header_bytes_length, Udp.bufferSize, h2]
      decide
    · have := message_unmarshal (Message.fresh : Message G) (t := 1) (f := j) (o := 0) ⟨hj0, Or.inl ⟨Or.inl rfl, rfl⟩⟩ []
      rw [List.append_nil] at this
      rw [spoof, this, if_pos rfl]
      rfl
  have hh : Hist (Keygen.impl sha) (init i) [(.processAll .insertion (coins i), .messages (Keygen.honestOut ids t coins i 0))] s := by
    refine hist_cons.mpr ⟨s, ?_, .nil⟩
    have hpr' : processAll (Keygen.impl sha) .insertion (coins i) (init i) = some (s, Keygen.honestOut ids t coins i 0) := hpr
    simp [State.step, hpr']
  have hinit := P.init i hi
  have hinv := inv_hist P.honest.stable (hinit ▸ hh)
  have hself : (Keygen.impl sha).selfID s.round = i := by rw [hinv.self, P.honest.self i hi]
  have hids : (Keygen.impl sha).partyIDs s.round = ids := by rw [hinv.ids, P.honest.parties i hi]
  have hty : s.acceptedTypes = [1, 2] := by
    rw [hinv.types, P.honest.types i hi, show s.used = 1 by simp [used, hb.running, hb.round]]
    rfl
  have hf : forMe i m = true := by simp [forMe, m, hne]
  obtain ⟨tm, hdel⟩ := deliver_some (i := i) hs.sorted [m] hb.running hty hself hids (by simpa [m] using hj) (by simp [hf]) (by
    intro m' _
    rw [hb.received (by omega)]
    simp [GoMap.keys])
  rw [hb.received (by omega), List.filter_cons_of_pos hf] at hdel
  obtain ⟨s', hstep, hs'⟩ := hist_cons.mp hdel
  have hs'' := hist_nil.mp hs'
  have hhm : (handleMessage (Keygen.impl sha) s m).1 = s' := by
    simp only [State.step, Option.some.injEq, Prod.mk.injEq] at hstep
    exact hstep.1
  have hcrash : ∀ ord c, processAll (Keygen.impl sha) ord c s' = none := by
    intro ord c
    have := C22_bad_payload_crashes i ids t (timeout i) (now i) (init i) (hs.start i hi) hs.nodup (hh.snoc hstep) (by rw [← hs'']; exact hb.running)
      (by rw [← hs'']; exact hb.round) (by rw [← hs'', h2]; rfl) m (by rw [← hs'']; simp) (Or.inl rfl) (by
        intro m' hm' hne'
        rw [← hs''] at hm'
        simp only [List.filter_nil, List.map_cons, List.map_nil, List.nil_append, List.mem_singleton, Prod.mk.injEq, Option.some.injEq] at hm'
        exact absurd hm'.2 hne') ord c
    simpa [State.step] using this
  have s1 := Udp.Step.start (impl := Keygen.impl sha) (coins := coins) (ords := fun _ => .insertion) (S := Udp.start init (Function.update (fun _ => []) i [spoof j])) hi rfl hpr
  have s2 := Udp.dropAll (impl := Keygen.impl sha) (coins := coins) (Udp.Sys.set (Udp.start init (Function.update (fun _ => []) i [spoof j])) i
    { (Udp.start init (Function.update (fun _ => []) i [spoof j])).node i with
      started := true, state := s, outbox := Chan.sends ids i (fun _ => .insertion) (Keygen.honestOut ids t coins i 0 : List (Message G)) }) hi
  have s3 := (Udp.Steps.tail (.refl _) s1).trans s2
  simp only [Udp.Sys.set, Function.update_self, Function.update_idem] at s3
  have s4 := s3.tail (Udp.Step.read (b := spoof j) hi (by simp [Udp.start]) (by simp [Udp.start]))
  rw [hread] at s4
  simp only [Udp.Sys.set, Function.update_self, Function.update_idem] at s4
  have s5 := s4.tail (Udp.Step.put (m := m) hi (by simp) (by simp [Udp.start, Udp.room]))
  simp only [Udp.Sys.set, Function.update_self, Function.update_idem] at s5
  refine ⟨_, m, s5, ?_⟩
  simp only [Function.update_self]
  exact ⟨trivial, rfl, trivial, rfl, by rw [hhm]; exact hcrash⟩

end keygen

section sign

variable {ids : IDSlice} {t : UInt16} {F : Scalar[X]} {message : Bytes} {secret : ID → SecretShare G} {pub : ID → Public G}
  {timeout now : ID → Nat} {init : ID → State G (Sign.Round G)}

/-- Every message of an honest signing session fits the buffer of the reader. -/
theorem sign_fits (h0 : (0 : ID) ∉ ids) (message : Bytes) (F : Scalar[X]) (coins : ID → Coins) (i : ID) (hi : i ∈ ids) (n : Nat) (hn : n < 2)
    (m : Message G) (hm : m ∈ Sign.honestOut G sha ids message F coins i n) : Udp.Fits ids m := by
  have hi0 : i ≠ 0 := fun h => h0 (h ▸ hi)
  have hpos := List.length_pos_of_mem hi
  rw [Sign.honestOut, if_pos hn, List.mem_singleton] at hm
  subst hm
  match n, hn with
  | 0, _ =>
    obtain ⟨b, h1, h2, h3⟩ := C19_sign1 (G := G) i hi0 (Sign.honestD coins i) (Sign.honestE coins i)
    refine ⟨b, h1, h3, ?_⟩
    rw [h2]
    simp [Message.size, Message.newSign1, Header.size, headerSize, Sign1.size, Udp.bufferSize, MsgType.keyGen1, MsgType.keyGen2, MsgType.sign1]
    omega
  | 1, _ =>
    obtain ⟨b, h1, h2, h3⟩ := C19_sign2 (G := G) i hi0 (Sign.honestZ (G := G) sha ids message F coins i)
    refine ⟨b, h1, h3, ?_⟩
    rw [h2]
    simp [Message.size, Message.newSign2, Header.size, headerSize, Sign2.size, Udp.bufferSize, MsgType.keyGen1, MsgType.keyGen2, MsgType.sign1, MsgType.sign2]
    omega

/-- C77 for signing: a time-out is the only error, and all that finish have the same valid signature. -/
theorem C77_sign_safe (hs : Spec.SignSetup sha ids t F message secret pub timeout now init) (coins : ID → Coins)
    (hcoins : ∀ i ∈ ids, coins i 0 ≠ 0 ∧ coins i 1 ≠ 0) :
    ∃ sig : Signature G, PublicKey.verify sha (F.eval 0 • (base : G)) message sig = .ok true ∧
      ∀ S, Udp.Steps (Sign.impl sha) ids coins (Udp.start init fun _ => []) S → ∀ i ∈ ids,
        (Spec.TimedOut (S.node i).state ∨ (S.node i).state.err = none) ∧
        ((S.node i).state.done = true → (S.node i).state.err = none → (S.node i).state.round.output.signature = some sig) ∧
        ∀ b ∈ S.wire i, b.length ≤ Udp.bufferSize ids ∧ ∃ m : Message G, Message.unmarshalBinary Message.fresh b = .ok m := by
  obtain ⟨r₀, P⟩ := sign_protocol hs coins hcoins
  obtain ⟨sig, hv, hsig⟩ := C76_sign hs coins hcoins
  refine ⟨sig, hv, fun S hp i hi => ?_⟩
  obtain ⟨N, r⟩ := Udp.Run.ofSteps (fits_of_path P (sign_fits hs.zero message F coins)) hp
  obtain ⟨h1, h2, _⟩ := hsig N r.path i hi
  rw [r.state i hi]
  refine ⟨h1, h2, fun b hb => ?_⟩
  obtain ⟨h3, m, _, h4⟩ := r.wire i hi b hb
  exact ⟨h3, m, h4⟩

/-- C77 for signing: a party finishes only if packets of both rounds were sent to it by every other party. -/
theorem C77_sign_needs_all (hs : Spec.SignSetup sha ids t F message secret pub timeout now init) (coins : ID → Coins)
    (hcoins : ∀ i ∈ ids, coins i 0 ≠ 0 ∧ coins i 1 ≠ 0) (S : Udp.Sys G (Sign.Round G))
    (hp : Udp.Steps (Sign.impl sha) ids coins (Udp.start init fun _ => []) S) (i : ID) (hi : i ∈ ids)
    (hd : (S.node i).state.done = true) (he : (S.node i).state.err = none) (j : ID) (hj : j ∈ ids) (hne : j ≠ i) :
    (∃ b ∈ S.wire i, ∃ m : Message G, Message.unmarshalBinary Message.fresh b = .ok m ∧ m.header.fromID = j ∧ m.header.type = 3) ∧
    ∃ b ∈ S.wire i, ∃ m : Message G, Message.unmarshalBinary Message.fresh b = .ok m ∧ m.header.fromID = j ∧ m.header.type = 4 := by
  obtain ⟨r₀, P⟩ := sign_protocol hs coins hcoins
  obtain ⟨N, r⟩ := Udp.Run.ofSteps (fits_of_path P (sign_fits hs.zero message F coins)) hp
  rw [r.state i hi] at hd he
  have hh := r.hist i hi
  obtain ⟨r₁, h1, h2⟩ := sign_start_of_new (hs.start i hi) hs.nodup
  rw [h2] at hh
  obtain ⟨D, E, z, ⟨_, h3⟩, h4, _⟩ := sign_finished_spec h1 ((Sign.running h1 hh).2 hd he)
  have hne' : j ≠ (secret i).id := by rw [hs.owner i hi]; exact hne
  obtain ⟨m, _, g1, _, g2, g3, _⟩ := h3 j hj hne'
  obtain ⟨⟨m', _, g1', _, g2', g3', _⟩, _⟩ := h4 j hj hne'
  exact ⟨packet_of r hi g1 g2 g3, packet_of r hi g1' g2' g3'⟩

/-- C77 for signing: if no packet is lost and they come in a good order then everybody finishes. -/
theorem C77_sign_can_finish (hs : Spec.SignSetup sha ids t F message secret pub timeout now init) (coins : ID → Coins)
    (hcoins : ∀ i ∈ ids, coins i 0 ≠ 0 ∧ coins i 1 ≠ 0) (h2 : 2 ≤ ids.length) :
    ∃ S, Udp.Steps (Sign.impl sha) ids coins (Udp.start init fun _ => []) S ∧
      ∀ i ∈ ids, (S.node i).state.done = true ∧ (S.node i).state.err = none ∧ (S.node i).exited = true := by
  obtain ⟨r₀, P⟩ := sign_protocol hs coins hcoins
  obtain ⟨S, h1, h2⟩ := C72_sign_can_finish hs coins hcoins h2
  obtain ⟨U, N, h3, l, _⟩ := Udp.like P (sign_fits hs.zero message F coins) h1
  obtain ⟨sig, _, hsafe⟩ := C72_sign_safe hs coins hcoins
  refine ⟨U, h3, fun k hk => ?_⟩
  rw [l.node k hk]
  exact ⟨(h2 k hk).1, (hsafe S h1 k hk).1, (h2 k hk).2⟩

end sign

/-- The hypotheses are met: three parties of which any two can sign, and two parties of which one is crashed by a forged packet. -/
example (c : ID → Coins) : ∃ S, Udp.Steps (Keygen.impl toySha) Demo.ids c (Udp.start (Demo.session Demo.ids 1) fun _ => []) S ∧
    ∀ i ∈ Demo.ids, (S.node i).state.done = true ∧ (S.node i).state.err = none ∧ (S.node i).exited = true :=
  C77_keygen_can_finish Demo.keygen_setup c (by decide)

example (c : ID → Coins) := C77_spoof_crashes Demo.keygen_setup2 c rfl 1 2 (by decide) (by decide) (by decide)

example (kcoins scoins : ID → Coins) (hs : ∀ i ∈ [(1 : ID), 3], scoins i 0 ≠ 0 ∧ scoins i 1 ≠ 0) (message : Bytes) :
    ∃ init : ID → State Toy (Sign.Round Toy), ∃ S, Udp.Steps (Sign.impl toySha) [1, 3] scoins (Udp.start init fun _ => []) S ∧
      ∀ i ∈ [(1 : ID), 3], (S.node i).state.done = true ∧ (S.node i).state.err = none ∧ (S.node i).exited = true := by
  obtain ⟨_, _, _, secret, pub, init, hset, _⟩ := Demo.network kcoins scoins hs message
  exact ⟨init, C77_sign_can_finish hset scoins hs (by decide)⟩

end Verif.Props
