import Verif.Props.Helpers

/-!
C130: how many bytes a session sends.  Concrete cases are in `Verif/Cases/Traffic.lean`.
-/

namespace Verif.Props

open Verif State Outcome

variable {G : Type} [RGroup G] {sha : Sha512}

/-- The messages that the calls in `h` returned can be encoded, and have `n` bytes together. -/
def Spec.SentBytes (h : List (Op G × Ret G)) (n : Nat) : Prop :=
  ∃ bs : List Bytes, List.Forall₂ (fun m b => Message.marshalBinary m = .ok b) (Spec.emitted h) bs ∧ (bs.map List.length).sum = n

/-- The bytes a party has sent when round `k` of key generation runs, with `n` parties and threshold `t`: nothing; a broadcast of a header
of 5 bytes, a proof of 64, a degree of 2 and `t + 1` points of 32; in addition a header of 5 bytes and a share of 32 to each of the others. -/
def Spec.keygenBytes (t n : Nat) : Nat → Nat
  | 0 => 0
  | 1 => 5 + 64 + 2 + 32 * (t + 1)
  | _ => 5 + 64 + 2 + 32 * (t + 1) + (n - 1) * (5 + 32)

/-- The bytes a party has sent when round `k` of signing runs: nothing; a broadcast of a header of 5 bytes and two points of 32; in
addition a broadcast of a header of 5 bytes and a share of 32. -/
def Spec.signBytes : Nat → Nat
  | 0 => 0
  | 1 => 5 + 2 * 32
  | _ => 5 + 2 * 32 + (5 + 32)

/-- An encoding has the length of the header and the payload. -/
theorem message_length (m : Message G) (b : Bytes) (h : Message.marshalBinary m = .ok b) (n : Nat)
    (hp : ∀ pb, Spec.payloadBytes m = some pb → pb.length = n) : b.length = 5 + n := by
  obtain ⟨_, pb, h1, rfl⟩ := (message_marshal m b).mp h
  rw [List.length_append, header_bytes_length, hp pb h1]

theorem points_length (l : List G) : (l.map RGroup.bytes).flatten.length = 32 * l.length := by
  induction l with
  | nil => rfl
  | cons a l ih => rw [List.map_cons, List.flatten_cons, List.length_append, ih, List.length_cons, RGroup.bytes_length]; omega

theorem keyGen1_length (me : ID) (π : Schnorr) (c : List G) (b : Bytes) (h : Message.marshalBinary (Message.newKeyGen1 me π c) = .ok b) :
    b.length = 5 + (64 + 2 + 32 * c.length) := by
  refine message_length _ b h _ fun pb hp => ?_
  cases hp
  simp only [List.length_append, points_length, Scalar.bytes_length]
  rw [show (Verif.Spec.be2 (UInt16.ofNat (c.length + 65535))).length = 2 from rfl]
  omega

theorem keyGen2_length (me id : ID) (x : Scalar) (b : Bytes) (h : Message.marshalBinary (Message.newKeyGen2 me id x : Message G) = .ok b) :
    b.length = 5 + 32 := by
  refine message_length _ b h _ fun pb hp => ?_
  cases hp
  exact Scalar.bytes_length _

theorem sign1_length (me : ID) (D E : G) (b : Bytes) (h : Message.marshalBinary (Message.newSign1 me D E) = .ok b) :
    b.length = 5 + 2 * 32 := by
  refine message_length _ b h _ fun pb hp => ?_
  cases hp
  simp only [List.length_append, RGroup.bytes_length]

theorem sign2_length (me : ID) (x : Scalar) (b : Bytes) (h : Message.marshalBinary (Message.newSign2 me x : Message G) = .ok b) :
    b.length = 5 + 32 := by
  refine message_length _ b h _ fun pb hp => ?_
  cases hp
  exact Scalar.bytes_length _

/-- Encodings of messages that can all be encoded. -/
theorem encodings {l : List (Message G)} (hl : ∀ m ∈ l, ∃ b, Message.marshalBinary m = .ok b) :
    ∃ bs : List Bytes, List.Forall₂ (fun m b => Message.marshalBinary m = .ok b) l bs := by
  induction l with
  | nil => exact ⟨[], .nil⟩
  | cons m l ih =>
    obtain ⟨bs, h1⟩ := ih fun m' hm' => hl m' (List.mem_cons_of_mem _ hm')
    obtain ⟨b, h2⟩ := hl m List.mem_cons_self
    exact ⟨b :: bs, .cons h2 h1⟩

theorem shares_length {me : ID} {f : List Scalar} {l : List ID} {bs : List Bytes}
    (h : List.Forall₂ (fun m b => Message.marshalBinary m = .ok b) (l.map fun id => (Message.newKeyGen2 me id (Spec.evalAt f id.val) : Message G)) bs) :
    (bs.map List.length).sum = l.length * (5 + 32) := by
  induction l generalizing bs with
  | nil => cases h; rfl
  | cons a l ih =>
    cases h with
    | cons h1 h2 =>
      rw [List.map_cons, List.sum_cons, ih h2, keyGen2_length _ _ _ _ h1, List.length_cons]
      omega

/-- Every history has been, in a state that has not ended, in the round it is in now, and nothing was sent since, if the last round sends
nothing. -/
theorem open_prefix {R : Type} {impl : RoundImpl G R} (hlast : ∀ ord coins r r' out, impl.generateMessages ord coins r = .ok (r', out) →
    impl.nextRound r' = none → out = []) {s₀ s : State G R} (h₀ : s₀.done = false) {h : List (Op G × Ret G)} (hh : Hist impl s₀ h s) :
    ∃ h' s', Hist impl s₀ h' s' ∧ s'.done = false ∧ s'.roundNumber = s.roundNumber ∧ Spec.emitted h' = Spec.emitted h := by
  induction hh with
  | nil => exact ⟨[], _, .nil, h₀, rfl, rfl⟩
  | @snoc h s₁ s₂ op ret h1 hstep ih =>
    obtain ⟨h', s', g1, g2, g3, g4⟩ := ih
    have same : s₂.roundNumber = s₁.roundNumber → Spec.emitted (h ++ [(op, ret)]) = Spec.emitted h →
        ∃ h' s', Hist impl s₀ h' s' ∧ s'.done = false ∧ s'.roundNumber = s₂.roundNumber ∧ Spec.emitted h' = Spec.emitted (h ++ [(op, ret)]) :=
      fun e1 e2 => ⟨h', s', g1, g2, by rw [e1, g3], by rw [e2, g4]⟩
    by_cases hd₂ : s₂.done = false
    · exact ⟨_, _, h1.snoc hstep, hd₂, rfl, rfl⟩
    rcases step_cases hstep with ⟨m, e, rfl, rfl, h2⟩ | ⟨ord, coins, out, rfl, rfl, h2⟩ | ⟨dt, rfl, rfl, rfl⟩ |
      ⟨rfl, rfl, rfl | ⟨t, _, _, rfl⟩⟩ | ⟨rfl, rfl, ⟨_, rfl⟩ | ⟨_, _, rfl⟩ | ⟨r, _, _, _, _, rfl⟩⟩
    · refine same ?_ (emitted_snoc_other _ _ (by simp))
      cases handle_cases _ h2 <;> rfl
    · cases h2 with
      | idle | processErr | generateErr => exact same rfl (by rw [emitted_snoc]; simp)
      | last t types r₁ r r' _ hd hf hpl hg ht hn hr =>
        refine same rfl ?_
        rw [emitted_snoc, hlast _ _ _ _ _ hg hn]; simp
      | next t types r₁ r r' _ hd hf hpl hg ht hn => exact absurd hd hd₂
    all_goals exact same rfl (emitted_snoc_other _ _ (by simp))

theorem keygen_last_silent (ord : MapOrder) (coins : Coins) (r r' : Keygen.Round G) (out : List (Message G))
    (hg : (Keygen.impl sha).generateMessages ord coins r = .ok (r', out)) (hn : (Keygen.impl sha).nextRound r' = none) : out = [] := by
  simp only [Keygen.impl] at hg hn
  split at hg
  · rename_i hst
    obtain ⟨_, _, rfl, _⟩ := Keygen.generate0_ok.mp hg
    simp [hst] at hn
  · rename_i hst
    obtain ⟨_, _, _, rfl, _⟩ := Keygen.generate1_ok.mp hg
    simp [hst] at hn
  · obtain ⟨_, _, _, _, _, _, _, _, _, h⟩ := Keygen.generate2_ok.mp hg
    exact h

theorem sign_last_silent (ord : MapOrder) (coins : Coins) (r r' : Sign.Round G) (out : List (Message G))
    (hg : (Sign.impl sha).generateMessages ord coins r = .ok (r', out)) (hn : (Sign.impl sha).nextRound r' = none) : out = [] := by
  simp only [Sign.impl] at hg hn
  split at hg
  · rename_i hst
    obtain ⟨_, _, rfl, _⟩ := Sign.generate0_ok.mp hg
    simp [hst] at hn
  · rename_i hst
    obtain ⟨_, _, _, _, rfl, _⟩ := Sign.generate1_ok_fields hg
    simp [hst] at hn
  · exact (Sign.generate2_ok.mp hg).2.2.2

/-- What a key generation session has sent in its whole lifetime, whatever it received, is determined by the round it has reached: also
after it has ended, with or without an error. -/
theorem C130_keygen (me : ID) (ids : IDSlice) (t : UInt16) (timeout now : Nat) (s₀ : State G (Keygen.Round G))
    (h₀ : Keygen.newKeygenState sha me ids t timeout now = .ok s₀) (hnd : ids.Nodup) {h : List (Op G × Ret G)}
    {s : State G (Keygen.Round G)} (hh : Hist (Keygen.impl sha) s₀ h s) :
    s.roundNumber ≤ 2 ∧ Spec.SentBytes h (Spec.keygenBytes t.toNat ids.length s.roundNumber) := by
  obtain ⟨bs, hbs⟩ := encodings fun m hm => (C64_keygen_encodes me ids t timeout now s₀ h₀ hnd hh m hm).imp fun _ h => h.1
  obtain ⟨r₀, hs, rfl⟩ := start_of_new h₀ hnd
  have hin : me ∈ ids := IDSlice.contains_sound hs.eq.2.2.2
  obtain ⟨h', s', hh', hd', e1, e2⟩ := open_prefix keygen_last_silent rfl hh
  obtain ⟨n, h1, hrn⟩ := keygenSent hs hh'
  have hrn := hrn hd'
  rw [← e1, ← hrn]
  unfold Spec.SentBytes
  rw [← e2] at hbs ⊢
  match n, h1 with
  | 0, h1 =>
    refine ⟨by omega, bs, hbs, ?_⟩
    rw [show Spec.emitted h' = [] from h1] at hbs
    cases hbs; rfl
  | 1, ⟨f, k, _, h2, _, h3⟩ =>
    refine ⟨by omega, bs, hbs, ?_⟩
    rw [h3] at hbs
    cases hbs with
    | cons g1 g2 =>
      cases g2
      have := keyGen1_length _ _ _ _ g1
      rw [Exponent.ofPoly, List.length_map, h2] at this
      simp only [List.map_cons, List.map_nil, List.sum_cons, List.sum_nil, this, Spec.keygenBytes]
      omega
  | 2, ⟨f, k, _, h2, _, _, h3⟩ =>
    refine ⟨by omega, bs, hbs, ?_⟩
    rw [h3] at hbs
    cases hbs with
    | cons g1 g2 =>
      have := keyGen1_length _ _ _ _ g1
      rw [Exponent.ofPoly, List.length_map, h2] at this
      rw [List.map_cons, List.sum_cons, this, shares_length g2, others_length hnd hin, N_pred_eq (List.ne_nil_of_mem hin) (nodup_ids_length hnd)]
      simp only [Spec.keygenBytes]
      omega

/-- What a signing session has sent in its whole lifetime is determined by the round it has reached: at most 106 bytes, however many
signers there are and however long the message is. -/
theorem C130_sign (secret : SecretShare G) (shares : Public G) (ids : IDSlice) (message : Bytes) (timeout now : Nat)
    (s₀ : State G (Sign.Round G)) (h₀ : Sign.newSignState sha ids secret shares message timeout now = .ok s₀) (hnd : ids.Nodup)
    {h : List (Op G × Ret G)} {s : State G (Sign.Round G)} (hh : Hist (Sign.impl sha) s₀ h s) :
    s.roundNumber ≤ 2 ∧ Spec.SentBytes h (Spec.signBytes s.roundNumber) := by
  obtain ⟨bs, hbs⟩ := encodings fun m hm => (C64_sign_encodes secret shares ids message timeout now s₀ h₀ hnd hh m hm).imp fun _ h => h.1
  obtain ⟨r₀, hs, rfl⟩ := sign_start_of_new h₀ hnd
  obtain ⟨h', s', hh', hd', e1, e2⟩ := open_prefix sign_last_silent rfl hh
  obtain ⟨n, h1, hrn⟩ := sent secret shares ids message timeout now r₀ hs hh'
  have hrn := hrn hd'
  rw [← e1, ← hrn]
  unfold Spec.SentBytes
  rw [← e2] at hbs ⊢
  match n, h1 with
  | 0, h1 =>
    refine ⟨by omega, bs, hbs, ?_⟩
    rw [show Spec.emitted h' = [] from h1] at hbs
    cases hbs; rfl
  | 1, ⟨D, E, h1, _⟩ =>
    refine ⟨by omega, bs, hbs, ?_⟩
    rw [h1] at hbs
    cases hbs with
    | cons g1 g2 =>
      cases g2
      simp only [List.map_cons, List.map_nil, List.sum_cons, List.sum_nil, sign1_length _ _ _ _ g1]
      rfl
  | 2, ⟨D, E, z, h1, _⟩ =>
    refine ⟨by omega, bs, hbs, ?_⟩
    rw [h1] at hbs
    cases hbs with
    | cons g1 g2 =>
      cases g2 with
      | cons g2 g3 =>
        cases g3
        simp only [List.map_cons, List.map_nil, List.sum_cons, List.sum_nil, sign1_length _ _ _ _ g1, sign2_length _ _ _ g2]
        rfl

end Verif.Props
