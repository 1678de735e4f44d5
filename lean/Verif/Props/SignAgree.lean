import Verif.Props.Demo

/-!
C75: do honest signers end alike?  If the commitments of the first round reached them alike, they produce the same signature and accept
each other's shares.  The code does not see to that: a dishonest signer that sends different commitments to two honest signers makes
one of them blame the other.
-/

namespace Verif.Props

open Verif State Outcome

variable {G : Type} [RGroup G] {sha : Sha512}

/-- Two signers that finish without error, for the same key, message and signers, have the same signature if they have used the same
nonce; whatever the others did. -/
theorem C75_same_nonce_same_signature (a b : SecretShare G) (shares : Public G) (ids idsb : IDSlice) (message : Bytes)
    (ta na tb nb : Nat) (sa sb : State G (Sign.Round G)) (hsa : Sign.newSignState sha ids a shares message ta na = .ok sa)
    (hsb : Sign.newSignState sha idsb b shares message tb nb = .ok sb) (hnd : ids.Nodup) (hndb : idsb.Nodup)
    {ha hb : List (Op G × Ret G)} {sa' sb' : State G (Sign.Round G)} (hha : Hist (Sign.impl sha) sa ha sa')
    (hhb : Hist (Sign.impl sha) sb hb sb') (x y : Signature G) (hx : sa'.round.output.signature = some x)
    (hy : sb'.round.output.signature = some y) (hR : x.R = y.R) : x = y := by
  obtain ⟨_, _, h1⟩ := C44_output_verifies a shares ids message ta na sa hsa hnd hha x hx
  obtain ⟨_, _, h2⟩ := C44_output_verifies b shares idsb message tb nb sb hsb hndb hhb y hy
  obtain ⟨R, S⟩ := x
  obtain ⟨R', S'⟩ := y
  simp only at hR
  subst hR
  rw [(C50_unique sha shares.groupKey R message).unique h1 h2]

/-- Two signers that finish without error have the same signature if the commitments reached them alike, whatever the others did. -/
theorem C75_same_signature (a b : SecretShare G) (shares : Public G) (ids : IDSlice) (message : Bytes)
    (ta na tb nb : Nat) (sa sb : State G (Sign.Round G)) (hsa : Sign.newSignState sha ids a shares message ta na = .ok sa)
    (hsb : Sign.newSignState sha ids b shares message tb nb = .ok sb) (hnd : ids.Nodup)
    {ha hb : List (Op G × Ret G)} {sa' sb' : State G (Sign.Round G)} (hha : Hist (Sign.impl sha) sa ha sa')
    (hhb : Hist (Sign.impl sha) sb hb sb')
    (hsame : ∀ D E D' E', Spec.Commitments a.id ids ha D E → Spec.Commitments b.id ids hb D' E' → ∀ id ∈ ids, D id = D' id ∧ E id = E' id)
    (hoka : sa'.done = true ∧ sa'.err = none) (hokb : sb'.done = true ∧ sb'.err = none) :
    ∃ sig, sa'.round.output.signature = some sig ∧ sb'.round.output.signature = some sig := by
  have hsa' := hsa
  have hsb' := hsb
  obtain ⟨ra, hsta, rfl⟩ := sign_start_of_new hsa hnd
  obtain ⟨rb, hstb, rfl⟩ := sign_start_of_new hsb hnd
  obtain ⟨D, E, z, h1, _, _, h2, _⟩ := sign_finished_spec hsta ((Sign.running hsta hha).2 hoka.1 hoka.2)
  obtain ⟨D', E', z', g1, _, _, g2, _⟩ := sign_finished_spec hstb ((Sign.running hstb hhb).2 hokb.1 hokb.2)
  refine ⟨_, h2, ?_⟩
  have hag := hsame D E D' E' h1 g1
  have hR : Spec.groupNonce sha ids message D E = Spec.groupNonce sha ids message D' E' := by
    unfold Spec.groupNonce
    congr 1
    apply List.map_congr_left
    intro id hid
    unfold Spec.nonce Spec.rho
    rw [nonce_congr (message := message) hag, (hag id hid).1, (hag id hid).2]
  rw [C75_same_nonce_same_signature a b shares ids ids message ta na tb nb _ _ hsa' hsb' hnd hnd hha hhb _ _ h2 g2 hR]
  exact g2

/-- When exactly an honest signer's share is accepted by another honest signer, without assuming that the commitments reached them
alike: `w` is its weighted secret, `d` and `e` the nonces it drew.  If the commitments differ, the two sides differ unless the hashes
happen to match, and then it is blamed. -/
theorem C75_share_accepted_iff (a b : SecretShare G) (shares : Public G) (ids : IDSlice) (message : Bytes)
    (ta na tb nb : Nat) (sa sb : State G (Sign.Round G)) (hsa : Sign.newSignState sha ids a shares message ta na = .ok sa)
    (hsb : Sign.newSignState sha ids b shares message tb nb = .ok sb) (hnd : ids.Nodup)
    (hX : shares.shares.get? a.id = some (a.secret • base))
    {ha hb : List (Op G × Ret G)} {sa' sb' : State G (Sign.Round G)} (hha : Hist (Sign.impl sha) sa ha sa')
    (hhb : Hist (Sign.impl sha) sb hb sb')
    (m : Message G) (z : Sign2) (hm : m ∈ Spec.emitted ha) (hz : m.sign2 = some z) (hd : sb'.done = false) (hn : sb'.roundNumber = 2)
    (hown : ∀ D E D' E', Spec.Commitments a.id ids ha D E → Spec.Commitments b.id ids hb D' E' → D a.id = D' a.id ∧ E a.id = E' a.id) :
    ∃ D E D' E' e, Spec.Commitments a.id ids ha D E ∧ Spec.Commitments b.id ids hb D' E' ∧ E a.id = e • (base : G) ∧
      ∀ (msgs : List (Option (Message G))) (r : Sign.Round G), Spec.Fed (Sign.impl sha).processMessage sb'.round msgs r →
        let w := Spec.weight a.id ids * a.secret
        let ok := Spec.rho sha ids message D E a.id * e + Spec.chal sha ids message shares.groupKey D E * w =
          Spec.rho sha ids message D' E' a.id * e + Spec.chal sha ids message shares.groupKey D' E' * w
        (ok → ∃ r', (Sign.impl sha).processMessage r (some m) = .ok r') ∧
        (¬ ok → ∃ er, (Sign.impl sha).processMessage r (some m) = .err (er, r) ∧ er.partyID = a.id) := by
  obtain ⟨hmeq, D, E, h1, h2⟩ := C45_sent_share_valid a shares ids message ta na sa hsa hnd hX hha m z hm hz
  obtain ⟨D', E', h3, h4⟩ := C45_share_accepted_iff b shares ids message tb nb sb hsb hnd hhb hd hn
  have hmem := (C42_accepted a shares ids message ta na sa hsa).1
  have hfrom : m.header.fromID = a.id := by rw [hmeq]; rfl
  obtain ⟨ord, coins, hD, hE, _⟩ := h1.1
  obtain ⟨hDD, hEE⟩ := hown D E D' E' h1 h3
  refine ⟨D, E, D', E', coins 1, h1, h3, hE, ?_⟩
  intro msgs r hfed w ok
  have h5 := h4 msgs r hfed m z (by rw [hfrom]; exact hmem) hz
  rw [hfrom] at h5
  have hw : Spec.weightedShare shares ids a.id = w • (base : G) := by
    simp only [Spec.weightedShare, hX, Option.getD_some, smul_smul, w]
  have hiff : (z.Zi • (base : G) = Spec.nonce sha ids message D' E' a.id +
      Spec.chal sha ids message shares.groupKey D' E' • Spec.weightedShare shares ids a.id) ↔ ok := by
    rw [h2, hw]
    simp only [Spec.nonce, ← hDD, ← hEE, hD, hE, smul_smul, ← add_smul]
    constructor
    · intro h
      have := smul_base_injective (G := G) h
      simp only [ok]
      linear_combination this
    · intro h
      congr 1
      simp only [ok] at h
      linear_combination h
  simp only [hiff] at h5
  exact h5

namespace Demo

/-- A function with 64-byte results that depends on its input: the sum of the bytes. -/
def sumSha : Sha512 := ⟨fun m => m.sum :: List.replicate 63 0, fun _ => by simp⟩

/-- The secret shares of the key of `Demo.key`. -/
def skey (i : ID) : SecretShare Toy := ⟨i, 21 + 24 * i.val, Toy.of (21 + 24 * i.val)⟩

def sround (i : ID) : Option (Sign.Round Toy) := match Sign.newRound ids (skey i) key [1, 2, 3] with
  | .ok r => some r
  | _ => none

/-- A signing session of party `i` among all three. -/
theorem sign3_of_run (i : ID) (ops : List (Op Toy)) (p : List (Op Toy × Ret Toy) → State Toy (Sign.Round Toy) → Bool)
    (h : ((sround i).bind fun r => (run (Sign.impl sumSha) (newBaseState (Sign.impl sumSha) r 10 0) ops).map fun x => p x.1 x.2) = some true) :
    ∃ s₀ h s, Sign.newSignState sumSha ids (skey i) key [1, 2, 3] 10 0 = .ok s₀ ∧ Hist (Sign.impl sumSha) s₀ h s ∧ p h s = true := by
  unfold sround at h
  split at h
  · rename_i r hr
    obtain ⟨hh, s, h3, h4⟩ := of_run h
    exact ⟨_, hh, s, newSignState_ok.mpr ⟨r, hr, rfl⟩, h3, h4⟩
  · cases h

/-- The commitments of the three parties, with nonces `13, 14`, `15, 16` and `11, 99`. -/
def table (i : ID) : Toy × Toy := if i = 1 then (Toy.of 13, Toy.of 14) else if i = 2 then (Toy.of 15, Toy.of 16) else (Toy.of 11, Toy.of 99)

/-- Whether all commitments received or sent by `self` are those of the table. -/
def inTable (self : ID) (h : List (Op Toy × Ret Toy)) : Bool := h.all fun x => match x with
  | (.handle m, _) => match m.sign1 with
    | some k => decide ((k.Di, k.Ei) = table m.header.fromID)
    | none => true
  | (.processAll _ _, .messages l) => l.all fun m => match m.sign1 with
    | some k => decide ((k.Di, k.Ei) = table self)
    | none => true
  | _ => true

theorem of_inTable {self : ID} {h : List (Op Toy × Ret Toy)} (hin : inTable self h = true) {D E : ID → Toy}
    (hc : Spec.Commitments self ids h D E) : ∀ id ∈ ids, D id = (table id).1 ∧ E id = (table id).2 := by
  have hin := List.all_eq_true.mp hin
  intro id hid
  by_cases hs : id = self
  · subst hs
    obtain ⟨ord, c, _, _, h3⟩ := hc.1
    have := hin _ h3
    simp only [Message.newSign1, List.all_cons, List.all_nil, Bool.and_true, decide_eq_true_eq] at this
    rw [← this]
    exact ⟨rfl, rfl⟩
  · obtain ⟨m, k, h1, _, h3, _, h5, h6, h7, _⟩ := hc.2 id hid hs
    have := hin _ h1
    simp only [h5, decide_eq_true_eq, h3] at this
    rw [← this]
    exact ⟨h6.symm, h7.symm⟩

/-- Parties 1 and 2 with the commitments of the table: both succeed, so the hypotheses of `C75_same_signature` can be met. -/
theorem sign3_alike : ∃ s₁ h₁ t₁ s₂ h₂ t₂, Sign.newSignState sumSha ids (skey 1) key [1, 2, 3] 10 0 = .ok s₁ ∧
    Sign.newSignState sumSha ids (skey 2) key [1, 2, 3] 10 0 = .ok s₂ ∧ Hist (Sign.impl sumSha) s₁ h₁ t₁ ∧ Hist (Sign.impl sumSha) s₂ h₂ t₂ ∧
    (t₁.done = true ∧ t₁.err = none) ∧ (t₂.done = true ∧ t₂.err = none) ∧
    ∀ D E D' E', Spec.Commitments (skey 1).id ids h₁ D E → Spec.Commitments (skey 2).id ids h₂ D' E' → ∀ id ∈ ids, D id = D' id ∧ E id = E' id := by
  obtain ⟨s₁, h₁, t₁, a1, a2, a3⟩ := sign3_of_run 1 [.processAll .insertion (coins [13, 14]), .handle (Message.newSign1 2 (Toy.of 15) (Toy.of 16)),
    .handle (Message.newSign1 3 (Toy.of 11) (Toy.of 99)), .processAll .insertion (coins []), .handle (Message.newSign2 2 (-19298)),
    .handle (Message.newSign2 3 33104), .processAll .reversed (coins [])]
    (fun h s => decide ((s.done = true ∧ s.err = none) ∧ inTable 1 h = true)) (by decide +kernel)
  obtain ⟨s₂, h₂, t₂, b1, b2, b3⟩ := sign3_of_run 2 [.processAll .insertion (coins [15, 16]), .handle (Message.newSign1 3 (Toy.of 11) (Toy.of 99)),
    .handle (Message.newSign1 1 (Toy.of 13) (Toy.of 14)), .processAll .insertion (coins []), .handle (Message.newSign2 1 18190),
    .handle (Message.newSign2 3 33104), .processAll .reversed (coins [])]
    (fun h s => decide ((s.done = true ∧ s.err = none) ∧ inTable 2 h = true)) (by decide +kernel)
  simp only [decide_eq_true_eq] at a3 b3
  refine ⟨s₁, h₁, t₁, s₂, h₂, t₂, a1, b1, a2, b2, a3.1, b3.1, ?_⟩
  intro D E D' E' hc hc' id hid
  obtain ⟨g1, g2⟩ := of_inTable a3.2 hc id hid
  obtain ⟨g3, g4⟩ := of_inTable b3.2 hc' id hid
  exact ⟨g1.trans g3.symm, g2.trans g4.symm⟩

end Demo

open Demo in
/-- The claim that an honest signer is never blamed is refuted: parties 1 and 2 are honest, and receive each other's messages as sent;
party 3 sends the commitments `11, 12` to party 1 and `11, 99` to party 2, and to party 2 the share that belongs to the latter.  Then
party 2 aborts, blaming party 1, in whatever order the shares are looked at; party 1 has noticed nothing. -/
theorem C75_framed_refuted (ord : MapOrder) (hord : ord = .insertion ∨ ord = .reversed) :
    ∃ s₁ h₁ t₁ s₂ h₂ t₂, Sign.newSignState sumSha ids (skey 1) key [1, 2, 3] 10 0 = .ok s₁ ∧
    Sign.newSignState sumSha ids (skey 2) key [1, 2, 3] 10 0 = .ok s₂ ∧ Hist (Sign.impl sumSha) s₁ h₁ t₁ ∧ Hist (Sign.impl sumSha) s₂ h₂ t₂ ∧
    t₁.err = none ∧ t₂.done = true ∧ t₂.err = some ⟨1, 2, .badSigShare⟩ ∧
    Spec.emitted h₁ = [Message.newSign1 1 (Toy.of 13) (Toy.of 14), Message.newSign2 1 23992] ∧
    Spec.emitted h₂ = [Message.newSign1 2 (Toy.of 15) (Toy.of 16), Message.newSign2 2 (-19298)] ∧
    h₁.filterMap (fun x => match x with | (.handle m, .handled none) => some m | _ => none) =
      [Message.newSign1 2 (Toy.of 15) (Toy.of 16), Message.newSign1 3 (Toy.of 11) (Toy.of 12), Message.newSign2 2 (-19298)] ∧
    h₂.filterMap (fun x => match x with | (.handle m, .handled none) => some m | _ => none) =
      [Message.newSign1 1 (Toy.of 13) (Toy.of 14), Message.newSign1 3 (Toy.of 11) (Toy.of 99), Message.newSign2 1 23992, Message.newSign2 3 33104] := by
  obtain ⟨s₁, h₁, t₁, a1, a2, a3⟩ := sign3_of_run 1 [.processAll .insertion (coins [13, 14]), .handle (Message.newSign1 2 (Toy.of 15) (Toy.of 16)),
    .handle (Message.newSign1 3 (Toy.of 11) (Toy.of 12)), .processAll .insertion (coins []), .handle (Message.newSign2 2 (-19298))]
    (fun h s => decide (s.err = none ∧ Spec.emitted h = [Message.newSign1 1 (Toy.of 13) (Toy.of 14), Message.newSign2 1 23992] ∧
      h.filterMap (fun x => match x with | (.handle m, .handled none) => some m | _ => none) =
        [Message.newSign1 2 (Toy.of 15) (Toy.of 16), Message.newSign1 3 (Toy.of 11) (Toy.of 12), Message.newSign2 2 (-19298)])) (by decide +kernel)
  obtain ⟨s₂, h₂, t₂, b1, b2, b3⟩ := sign3_of_run 2 [.processAll .insertion (coins [15, 16]), .handle (Message.newSign1 1 (Toy.of 13) (Toy.of 14)),
    .handle (Message.newSign1 3 (Toy.of 11) (Toy.of 99)), .processAll .insertion (coins []), .handle (Message.newSign2 1 23992),
    .handle (Message.newSign2 3 33104), .processAll ord (coins [])]
    (fun h s => decide (s.done = true ∧ s.err = some ⟨1, 2, .badSigShare⟩ ∧
      Spec.emitted h = [Message.newSign1 2 (Toy.of 15) (Toy.of 16), Message.newSign2 2 (-19298)] ∧
      h.filterMap (fun x => match x with | (.handle m, .handled none) => some m | _ => none) =
        [Message.newSign1 1 (Toy.of 13) (Toy.of 14), Message.newSign1 3 (Toy.of 11) (Toy.of 99), Message.newSign2 1 23992, Message.newSign2 3 33104]))
      (by rcases hord with rfl | rfl <;> decide +kernel)
  simp only [decide_eq_true_eq] at a3 b3
  exact ⟨s₁, h₁, t₁, s₂, h₂, t₂, a1, b1, a2, b2, a3.1, b3.1, b3.2.1, a3.2.1, b3.2.2.1, a3.2.2, b3.2.2.2⟩

end Verif.Props
