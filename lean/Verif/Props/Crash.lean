import Verif.Lemmas.Stage
import Verif.Props.KeygenOut
import Verif.Props.Sign
import Verif.Props.Demo

/-!
C22: five bytes from the network crash a party, in every round of both protocols.
-/

namespace Verif.Props

open Verif State Outcome

variable {G R : Type} [RGroup G] {sha : Sha512}

/-- The iteration order that visits `j` first: one of those the Go run-time may pick. -/
def orderFirst (j : ID) : MapOrder :=
  ⟨fun _ m => m.filter (fun e => decide (e.1 = j)) ++ m.filter (fun e => !decide (e.1 = j)), fun _ m => List.filter_append_perm _ m⟩

omit [RGroup G] in
theorem loop_ne_ok {impl : RoundImpl G R} {Q : R → Prop} {m : Message G} (hQ : ∀ r v r', Q r → impl.processMessage r v = .ok r' → Q r')
    (hp : ∀ r, Q r → impl.processMessage r (some m) = .panic) {k : ID} :
    ∀ (l : List (ID × Option (Message G))) (r : R), Q r → (k, some m) ∈ l → ∀ r', processLoop impl l r ≠ .ok r'
  | [], _, _, h, _ => by cases h
  | (k', v) :: l, r, hr, h, r' => by
    unfold processLoop
    rcases List.mem_cons.mp h with h | h
    · cases h
      rw [hp r hr]
      simp
    · cases hv : impl.processMessage r v with
      | panic => simp
      | err e => simp
      | ok r₁ => exact loop_ne_ok hQ hp l r₁ (hQ r v r₁ hr hv) h r'

omit [RGroup G] in
/-- A message whose processing panics, handed over when only it is missing. -/
theorem handed_crashes {impl : RoundImpl G R} {Q : R → Prop} {m : Message G} (hQ : ∀ r v r', Q r → impl.processMessage r v = .ok r' → Q r')
    (hp : ∀ r, Q r → impl.processMessage r (some m) = .panic) {ids : IDSlice} {self : ID} (hsorted : ids.Pairwise (· ≤ ·)) {s : State G R}
    (hr : Q s.round) (hd : s.done = false) {ts : List MsgType} (ht : s.acceptedTypes = m.header.type :: ts) (h1 : impl.selfID s.round = self)
    (h2 : impl.partyIDs s.round = ids) (hj : m.header.fromID ∈ ids) (hme : forMe self m = true) (hn : m.header.fromID ∉ s.received.keys)
    (hf : s.received.length + 2 = ids.length) (hnd : ids.Nodup) :
    (handleMessage impl s m).2 = none ∧
      (∀ coins, processAll impl (orderFirst m.header.fromID) coins (handleMessage impl s m).1 = none) ∧
      ∀ ord coins s' out, processAll impl ord coins (handleMessage impl s m).1 = some (s', out) → s'.done = true ∧ s'.err ≠ none := by
  obtain ⟨tm, hdel⟩ := deliver_some (i := self) hsorted [m] hd ht h1 h2 (by simpa using hj) (by simp [hme]) (by
    intro m' hm'
    have := List.mem_of_mem_filter hm'
    rw [List.mem_singleton] at this
    subst this
    exact hn)
  rw [List.filter_cons_of_pos hme] at hdel
  obtain ⟨s', hstep, hs'⟩ := hist_cons.mp hdel
  have hs' := hist_nil.mp hs'
  simp only [State.step, Option.some.injEq, Prod.mk.injEq] at hstep
  obtain ⟨e1, e2⟩ := hstep
  rw [← hs'] at e1
  have e2 : (handleMessage impl s m).2 = none := by
    simpa using e2
  rw [e1]
  have hfull : (s.received ++ (List.map (fun m : Message G => (m.header.fromID, some m)) (m :: List.filter (forMe self) []))).length =
      (IDSlice.N (impl.partyIDs s.round) - 1).toNat := by
    rw [h2, N_pred_eq (List.ne_nil_of_mem hj) (nodup_ids_length hnd)]
    simp
    omega
  refine ⟨e2, ?_, ?_⟩
  · intro coins
    have hloop : processLoop impl ((orderFirst m.header.fromID).order _ (s.received ++ (List.map (fun m : Message G => (m.header.fromID, some m)) (m :: List.filter (forMe self) []))))
        s.round = .panic := by
      have : List.filter (fun e : ID × Option (Message G) => decide (e.1 = m.header.fromID)) s.received = [] := by
        rw [List.filter_eq_nil_iff]
        intro e he
        have := List.mem_map_of_mem (f := Prod.fst) he
        simp only [decide_eq_true_eq]
        intro h
        rw [h] at this
        exact hn this
      simp [orderFirst, this, processLoop, hp _ hr]
    unfold processAll
    simp only [hd, Bool.false_eq_true, if_false, hfull, ne_eq, not_true, hloop]
  · intro ord coins s'' out h
    have hpc := (processAll_iff impl).mp h
    clear h
    have hno := loop_ne_ok hQ hp (k := m.header.fromID) (ord.order _ (s.received ++ (List.map (fun m : Message G => (m.header.fromID, some m)) (m :: List.filter (forMe self) []))))
      s.round hr ((ord.perm _ _).mem_iff.mpr (by simp))
    cases hpc with
    | idle h =>
      rcases h with h | h
      · exact absurd hd (by simpa using h)
      · exact absurd hfull h
    | processErr e r r' => exact ⟨rfl, by simp⟩
    | generateErr e r₁ r r' _ _ h => exact absurd h (hno _)
    | last _ _ r₁ r r' _ _ _ h => exact absurd h (hno _)
    | next _ _ r₁ r r' _ _ _ h => exact absurd h (hno _)

theorem keygen_stage (r : Keygen.Round G) (v : Option (Message G)) (r' : Keygen.Round G) (h : (Keygen.impl sha).processMessage r v = .ok r') :
    r'.stage = r.stage := by
  simp only [Keygen.impl] at h
  cases hs : r.stage <;> rw [hs] at h
  · cases h; exact hs
  · obtain ⟨_, _, _, _, _, _, _, _, _, rfl⟩ := Keygen.process1_ok.mp h
    exact hs
  · obtain ⟨_, _, _, _, _, _, _, _, rfl⟩ := Keygen.process2_ok.mp h
    exact hs

theorem sign_stage (r : Sign.Round G) (v : Option (Message G)) (r' : Sign.Round G) (h : (Sign.impl sha).processMessage r v = .ok r') :
    r'.stage = r.stage := by
  simp only [Sign.impl] at h
  cases hs : r.stage <;> rw [hs] at h
  · cases h; exact hs
  · obtain ⟨_, _, _, _, _, _, _, _, rfl⟩ := Sign.process1_ok.mp h
    exact hs
  · obtain ⟨_, _, _, _, _, _, _, _, _, rfl⟩ := Sign.process2_ok.mp h
    exact hs

/-- C22 refuted: in either round of key generation, when only the message of `j` is missing, five bytes that name `j` as sender are
unmarshalled without error, are accepted, and then `ProcessAll` panics for some iteration order, whatever the others sent; for
every other order it panics or aborts. -/
theorem C22_keygen_five_bytes (self : ID) (ids : IDSlice) (t : UInt16) (timeout now : Nat) (s₀ : State G (Keygen.Round G))
    (h₀ : Keygen.newKeygenState sha self ids t timeout now = .ok s₀) (hnd : ids.Nodup) (hsorted : ids.Pairwise (· ≤ ·)) {h : List (Op G × Ret G)}
    {s : State G (Keygen.Round G)} (hh : Hist (Keygen.impl sha) s₀ h s) (hd : s.done = false) (hn : s.roundNumber ≠ 0) (j : ID) (hj : j ∈ ids)
    (hj0 : j ≠ 0) (hne : j ≠ self) (hmiss : j ∉ s.received.keys) (hf : s.received.length + 2 = ids.length) :
    ∃ (data : Bytes) (m : Message G), data.length = 5 ∧ Message.unmarshalBinary Message.fresh data = .ok m ∧
      (handleMessage (Keygen.impl sha) s m).2 = none ∧
      (∃ ord, ∀ coins, processAll (Keygen.impl sha) ord coins (handleMessage (Keygen.impl sha) s m).1 = none) ∧
      ∀ ord coins s' out, processAll (Keygen.impl sha) ord coins (handleMessage (Keygen.impl sha) s m).1 = some (s', out) →
        s'.done = true ∧ s'.err ≠ none := by
  obtain ⟨r₀, hs, rfl⟩ := start_of_new h₀ hnd
  obtain ⟨heq, _, _, hc⟩ := hs.eq
  have hi := inv_hist (Keygen.impl_stable sha) hh
  have hrun := (Keygen.running hs hh).1 hd
  have h1 : (Keygen.impl sha).selfID s.round = self := by rw [hi.self, heq]; rfl
  have h2 : (Keygen.impl sha).partyIDs s.round = ids := by rw [hi.ids, heq]; rfl
  have hty : s.acceptedTypes = ([0, 1, 2] : List MsgType).drop s.roundNumber := by
    rw [hi.types]; simp [used, hd]; rfl
  generalize hN : s.roundNumber = N at hrun hty hn
  match N, hrun with
  | 0, _ => exact absurd rfl hn
  | 1, ⟨f, _, _, _, hround⟩ =>
    refine ⟨Spec.headerBytes 1 j 0, { header := ⟨1, j, 0⟩ }, header_bytes_length .., C21_bare_header_accepted 1 j 0 ⟨hj0, Or.inl ⟨Or.inl rfl, rfl⟩⟩, ?_⟩
    obtain ⟨a, b, c⟩ := handed_crashes (impl := Keygen.impl sha) (Q := fun r => r.stage = .r1) (m := { header := ⟨1, j, 0⟩ }) (self := self) (ids := ids)
      (fun r v r' h1 h2 => (keygen_stage r v r' h2).trans h1) (fun r hr => by simp only [Keygen.impl, hr]; rfl)
      hsorted (by rw [hround]; rfl) hd (by rw [hty]; rfl) h1 h2 hj (by simp [forMe, hne]) hmiss hf hnd
    exact ⟨a, ⟨_, b⟩, c⟩
  | 2, ⟨f, l₁, h0, _, _, _, _, _, _, hround⟩ =>
    have hself0 : self ≠ 0 := by rw [heq] at h0; exact h0
    refine ⟨Spec.headerBytes 2 j self, { header := ⟨2, j, self⟩ }, header_bytes_length .., C21_bare_header_accepted 2 j self ⟨hj0, Or.inr ⟨rfl, hself0⟩⟩, ?_⟩
    obtain ⟨a, b, c⟩ := handed_crashes (impl := Keygen.impl sha) (Q := fun r => r.stage = .r2) (m := { header := ⟨2, j, self⟩ }) (self := self) (ids := ids)
      (fun r v r' h1 h2 => (keygen_stage r v r' h2).trans h1) (fun r hr => by simp only [Keygen.impl, hr]; rfl)
      hsorted (by rw [hround]; rfl) hd (by rw [hty]; rfl) h1 h2 hj (by simp [forMe, hne]) hmiss hf hnd
    exact ⟨a, ⟨_, b⟩, c⟩

theorem sign2_bare (r : Sign.Round G) (j : ID) : Sign.process2 r (some { header := ⟨4, j, 0⟩ }) = .panic := by
  unfold Sign.process2
  simp only [deref, ok_bind]
  cases r.parties.get? j <;> rfl

/-- C22 refuted for signing, in either round. -/
theorem C22_sign_five_bytes (ids : IDSlice) (secret : SecretShare G) (shares : Public G) (message : Bytes) (timeout now : Nat)
    (s₀ : State G (Sign.Round G)) (h₀ : Sign.newSignState sha ids secret shares message timeout now = .ok s₀) (hnd : ids.Nodup)
    (hsorted : ids.Pairwise (· ≤ ·)) {h : List (Op G × Ret G)} {s : State G (Sign.Round G)} (hh : Hist (Sign.impl sha) s₀ h s)
    (hd : s.done = false) (hn : s.roundNumber ≠ 0) (j : ID) (hj : j ∈ ids) (hne : j ≠ secret.id) (hmiss : j ∉ s.received.keys)
    (hf : s.received.length + 2 = ids.length) :
    ∃ (data : Bytes) (m : Message G), data.length = 5 ∧ Message.unmarshalBinary Message.fresh data = .ok m ∧
      (handleMessage (Sign.impl sha) s m).2 = none ∧
      (∃ ord, ∀ coins, processAll (Sign.impl sha) ord coins (handleMessage (Sign.impl sha) s m).1 = none) ∧
      ∀ ord coins s' out, processAll (Sign.impl sha) ord coins (handleMessage (Sign.impl sha) s m).1 = some (s', out) →
        s'.done = true ∧ s'.err ≠ none := by
  obtain ⟨r₀, hs, rfl⟩ := sign_start_of_new h₀ hnd
  obtain ⟨hstage, hself, hids, hmsg, hgk, hsk, hout, _, hc, hwf, hkeys, hget, hnz⟩ := hs.eq
  have hi := inv_hist (Sign.impl_stable sha) hh
  have hrun := (Sign.running hs hh).1 hd
  have h1 : (Sign.impl sha).selfID s.round = secret.id := by rw [hi.self, ← hself]; rfl
  have h2 : (Sign.impl sha).partyIDs s.round = ids := by rw [hi.ids, ← hids]; rfl
  have hj0 : j ≠ 0 := (hnz j hj).1
  have hty : s.acceptedTypes = ([0, 3, 4] : List MsgType).drop s.roundNumber := by
    rw [hi.types]; simp [used, hd]; rfl
  generalize hN : s.roundNumber = N at hrun hty hn
  match N, hrun with
  | 0, _ => exact absurd rfl hn
  | 1, ⟨d, e, parties, _, _, hround⟩ =>
    refine ⟨Spec.headerBytes 3 j 0, { header := ⟨3, j, 0⟩ }, header_bytes_length .., C21_bare_header_accepted 3 j 0 ⟨hj0, Or.inl ⟨by decide, rfl⟩⟩, ?_⟩
    obtain ⟨a, b, c⟩ := handed_crashes (impl := Sign.impl sha) (Q := fun r => r.stage = .r1) (m := { header := ⟨3, j, 0⟩ }) (self := secret.id) (ids := ids)
      (fun r v r' h1 h2 => (sign_stage r v r' h2).trans h1) (fun r hr => by simp only [Sign.impl, hr]; rfl)
      hsorted (by rw [hround]) hd (by rw [hty]; rfl) h1 h2 hj (by simp [forMe, hne]) hmiss hf hnd
    exact ⟨a, ⟨_, b⟩, c⟩
  | 2, ⟨d, e, l₁, D, E, parties, _, _, _, _, _, _, hround⟩ =>
    refine ⟨Spec.headerBytes 4 j 0, { header := ⟨4, j, 0⟩ }, header_bytes_length .., C21_bare_header_accepted 4 j 0 ⟨hj0, Or.inl ⟨by decide, rfl⟩⟩, ?_⟩
    obtain ⟨a, b, c⟩ := handed_crashes (impl := Sign.impl sha) (Q := fun r => r.stage = .r2) (m := { header := ⟨4, j, 0⟩ }) (self := secret.id) (ids := ids)
      (fun r v r' h1 h2 => (sign_stage r v r' h2).trans h1)
      (fun r hr => by simp only [Sign.impl, hr]; exact sign2_bare r j)
      hsorted (by rw [hround]; rfl) hd (by rw [hty]; rfl) h1 h2 hj (by simp [forMe, hne]) hmiss hf hnd
    exact ⟨a, ⟨_, b⟩, c⟩

/-- The hypotheses are met: with three parties of which one broadcast was accepted (`Demo.keygen_midway`), and with two signers. -/
example : ∃ h s, Hist (Keygen.impl toySha) (Demo.session Demo.ids 1 1) h s ∧ s.done = false ∧ s.roundNumber ≠ 0 ∧ (3 : ID) ∉ s.received.keys ∧
    s.received.length + 2 = Demo.ids.length := by
  obtain ⟨h, s, h1, h2, h3, _, h4, _⟩ := Demo.keygen_midway
  exact ⟨h, s, h1, h2, by rw [h3]; decide, by rw [h4]; decide, by rw [h4]; rfl⟩

example : ∃ s₀ h s, Sign.newSignState toySha [1, 3] ⟨1, 45, Toy.of 45⟩ Demo.key [1, 2, 3] 10 0 = .ok s₀ ∧ Hist (Sign.impl toySha) s₀ h s ∧
    s.done = false ∧ s.roundNumber = 2 ∧ s.received = [] := by
  obtain ⟨s₀, h, s, h1, h2, h3⟩ := Demo.sign_of_run [.processAll .insertion (Demo.coins [13, 14]), .handle (Message.newSign1 3 (Toy.of 11) (Toy.of 12)),
    .processAll .reversed (Demo.coins [])] (fun _ s => decide (s.done = false ∧ s.roundNumber = 2 ∧ s.received = [])) (by decide +kernel)
  exact ⟨s₀, h, s, h1, h2, by simpa using h3⟩

end Verif.Props
