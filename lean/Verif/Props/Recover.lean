import Verif.Lemmas.Recover
import Verif.Props.Crashes
import Verif.Props.Pointers
import Verif.Props.Demo

/-!
C119: sessions whose caller recovers from a panic of `ProcessAll`.
-/

namespace Verif.Props

open Verif State Outcome

variable {G : Type} [RGroup G] {sha : Sha512}

/-- The rounds of a key generation judge messages in the same way. -/
structure keygenSame (r₁ r₂ : Keygen.Round G) : Prop where
  stage : r₁.stage = r₂.stage
  self : r₁.selfID = r₂.selfID
  ids : r₁.partyIDs = r₂.partyIDs
  output : r₁.output = r₂.output
  poly : r₁.polynomial = r₂.polynomial
  sum : r₁.commitmentsSum.isSome = r₂.commitmentsSum.isSome
  comms : r₁.stage = .r2 → r₁.commitments = r₂.commitments

theorem keygenSame.symm {r₁ r₂ : Keygen.Round G} (h : keygenSame r₁ r₂) : keygenSame r₂ r₁ :=
  ⟨h.stage.symm, h.self.symm, h.ids.symm, h.output.symm, h.poly.symm, h.sum.symm, fun hs => (h.comms (h.stage.trans hs)).symm⟩

theorem keygen_process_err {r₁ r₂ x : Keygen.Round G} {m : Option (Message G)} {e : StateErr} (h : keygenSame r₁ r₂)
    (hp : (Keygen.impl sha).processMessage r₁ m = .err (e, x)) : ∃ y, (Keygen.impl sha).processMessage r₂ m = .err (e, y) := by
  simp only [Keygen.impl] at hp ⊢
  rw [← h.stage]
  cases hs : r₁.stage <;> rw [hs] at hp <;> simp only at hp ⊢
  · cases hp
  · obtain ⟨m, k, c, h1, h2, h3, h4, h5, h6⟩ := Keygen.process1_err.mp hp
    exact ⟨_, Keygen.process1_err.mpr ⟨m, k, c, h1, h2, h3, h4, h5, rfl⟩⟩
  · rw [Keygen.process2_err] at hp
    rw [h.comms hs, h.self] at hp
    obtain ⟨m, k, c, h1, h2, h3, h4, h5, h6, h7⟩ := hp
    exact ⟨_, Keygen.process2_err.mpr ⟨m, k, c, h1, h2, h3, h4, h5, h6, rfl⟩⟩

theorem keygen_process_ok {r₁ r₂ x : Keygen.Round G} {m : Option (Message G)} (h : keygenSame r₁ r₂)
    (hp : (Keygen.impl sha).processMessage r₁ m = .ok x) : ∃ y, (Keygen.impl sha).processMessage r₂ m = .ok y := by
  simp only [Keygen.impl] at hp ⊢
  rw [← h.stage]
  cases hs : r₁.stage <;> rw [hs] at hp <;> simp only at hp ⊢
  · exact ⟨_, rfl⟩
  · obtain ⟨m, k, c, sum, h1, h2, h3, h4, h5, h6⟩ := Keygen.process1_ok.mp hp
    have hsum := h.sum
    rw [h5] at hsum
    obtain ⟨sum', hsum'⟩ := Option.isSome_iff_exists.mp hsum.symm
    exact ⟨_, Keygen.process1_ok.mpr ⟨m, k, c, sum', h1, h2, h3, h4, hsum', rfl⟩⟩
  · rw [Keygen.process2_ok] at hp
    rw [h.comms hs, h.self] at hp
    obtain ⟨m, k, c, h1, h2, h3, h4, h5, h6⟩ := hp
    exact ⟨_, Keygen.process2_ok.mpr ⟨m, k, c, h1, h2, h3, h4, h5, rfl⟩⟩

theorem keygen_verdicts (sha : Sha512) : Recover.Verdicts (Keygen.impl (G := G) sha) Pointers.keygenAfter (fun r => (r.stage, r.output)) keygenSame where
  equiv := ⟨fun _ => ⟨rfl, rfl, rfl, rfl, rfl, rfl, fun _ => rfl⟩, fun h => h.symm, fun h h' => ⟨h.stage.trans h'.stage, h.self.trans h'.self, h.ids.trans h'.ids,
    h.output.trans h'.output, h.poly.trans h'.poly, h.sum.trans h'.sum, fun hs => (h.comms hs).trans (h'.comms (h.stage.symm.trans hs))⟩⟩
  ok {r m r'} h := by
    simp only [Keygen.impl] at h
    cases hs : r.stage <;> rw [hs] at h <;> simp only at h
    · cases h; exact ⟨rfl, rfl, rfl, rfl, rfl, rfl, fun _ => rfl⟩
    · obtain ⟨m, k, c, sum, _, _, _, _, h5, rfl⟩ := Keygen.process1_ok.mp h
      exact ⟨rfl, rfl, rfl, rfl, rfl, by simp [h5], fun h => by rw [hs] at h; cases h⟩
    · obtain ⟨m, k, c, _, _, _, _, _, rfl⟩ := Keygen.process2_ok.mp h
      exact ⟨rfl, rfl, rfl, rfl, rfl, rfl, fun _ => rfl⟩
  err {r m e r'} h := by
    simp only [Keygen.impl] at h
    cases hs : r.stage <;> rw [hs] at h <;> simp only at h
    · cases h
    · obtain ⟨m, k, c, _, _, _, _, _, rfl⟩ := Keygen.process1_err.mp h
      exact ⟨rfl, rfl, rfl, rfl, rfl, rfl, fun _ => rfl⟩
    · obtain ⟨m, k, c, _, _, _, _, _, _, rfl⟩ := Keygen.process2_err.mp h
      exact ⟨rfl, rfl, rfl, rfl, rfl, rfl, fun _ => rfl⟩
  sameErr := keygen_process_err
  samePanic {r₁ r₂ m} h hp := by
    cases hq : (Keygen.impl sha).processMessage r₂ m with
    | panic => rfl
    | err x => obtain ⟨_, hy⟩ := keygen_process_err h.symm hq; rw [hp] at hy; cases hy
    | ok x => obtain ⟨_, hy⟩ := keygen_process_ok h.symm hq; rw [hp] at hy; cases hy
  ids h := ⟨h.self, h.ids, Prod.ext h.stage h.output⟩
  reset {r₁ r₂ x} h hx := by
    simp only [Keygen.impl, Keygen.reset, Option.bind_eq_bind, Option.bind_eq_some_iff] at hx ⊢
    obtain ⟨p, h1, c, h2, _⟩ := hx
    have hsum := h.sum
    rw [h2] at hsum
    obtain ⟨c', hc'⟩ := Option.isSome_iff_exists.mp hsum.symm
    exact ⟨_, p, h.poly ▸ h1, c', hc', rfl⟩
  resetIDs {r x} hx := by
    simp only [Keygen.impl, Keygen.reset, Option.bind_eq_bind, Option.bind_eq_some_iff] at hx
    obtain ⟨p, h1, c, h2, h3⟩ := hx
    cases h3
    exact ⟨rfl, rfl, rfl⟩
  erased {r r' m} h := by
    have hw : (Keygen.impl sha).processMessage r (m.map Pointers.wipe) = .panic := by
      simp only [Keygen.impl] at h ⊢
      cases hs : r.stage <;> rw [hs] at h <;> simp only at h ⊢
      · cases h
      · rw [← h]
        cases m <;> rfl
      · cases hq : Keygen.process2 r (m.map Pointers.wipe) with
        | panic => rfl
        | ok x =>
          obtain ⟨m', k, c, h1, h2, h3, h4, h5⟩ := Keygen.process2_ok.mp hq
          obtain ⟨m₀, rfl, rfl⟩ := Option.map_eq_some_iff.mp h1
          obtain ⟨k₀, hk, _⟩ := Option.map_eq_some_iff.mp (show m₀.keyGen2.map _ = some k from h2)
          by_cases he : (k₀.share • base : G) = Spec.evalAt c r.selfID.val
          · rw [Keygen.process2_ok.mpr ⟨m₀, k₀, c, rfl, hk, h3, h4, he, rfl⟩] at h; cases h
          · rw [Keygen.process2_err.mpr ⟨m₀, k₀, c, rfl, hk, h3, h4, he, rfl, rfl⟩] at h; cases h
        | err x =>
          obtain ⟨e, x⟩ := x
          obtain ⟨m', k, c, h1, h2, h3, h4, h5⟩ := Keygen.process2_err.mp hq
          obtain ⟨m₀, rfl, rfl⟩ := Option.map_eq_some_iff.mp h1
          obtain ⟨k₀, hk, _⟩ := Option.map_eq_some_iff.mp (show m₀.keyGen2.map _ = some k from h2)
          by_cases he : (k₀.share • base : G) = Spec.evalAt c r.selfID.val
          · rw [Keygen.process2_ok.mpr ⟨m₀, k₀, c, rfl, hk, h3, h4, he, rfl⟩] at h; cases h
          · rw [Keygen.process2_err.mpr ⟨m₀, k₀, c, rfl, hk, h3, h4, he, rfl, rfl⟩] at h; cases h
    unfold Pointers.keygenAfter
    cases r'.stage
    · simpa using h
    · simpa using h
    · exact hw

/-- The rounds of a signing session judge messages in the same way. -/
structure signSame (r₁ r₂ : Sign.Round G) : Prop where
  stage : r₁.stage = r₂.stage
  self : r₁.selfID = r₂.selfID
  ids : r₁.partyIDs = r₂.partyIDs
  output : r₁.output = r₂.output
  C : r₁.C = r₂.C
  parties : ∀ id, (r₁.parties.get? id).map (fun p => (p.pub, p.Ri)) = (r₂.parties.get? id).map fun p => (p.pub, p.Ri)

theorem signSame.symm {r₁ r₂ : Sign.Round G} (h : signSame r₁ r₂) : signSame r₂ r₁ :=
  ⟨h.stage.symm, h.self.symm, h.ids.symm, h.output.symm, h.C.symm, fun id => (h.parties id).symm⟩

theorem signSame.get {r₁ r₂ : Sign.Round G} (h : signSame r₁ r₂) {id : ID} {p : Sign.Signer G} (hp : r₁.parties.get? id = some p) :
    ∃ p', r₂.parties.get? id = some p' ∧ p'.pub = p.pub ∧ p'.Ri = p.Ri := by
  have := h.parties id
  rw [hp, Option.map_some] at this
  obtain ⟨p', h1, h2⟩ := Option.map_eq_some_iff.mp this.symm
  exact ⟨p', h1, (Prod.mk.inj h2).1, (Prod.mk.inj h2).2⟩

theorem sign_process_err {r₁ r₂ x : Sign.Round G} {m : Option (Message G)} {e : StateErr} (h : signSame r₁ r₂)
    (hp : (Sign.impl sha).processMessage r₁ m = .err (e, x)) : ∃ y, (Sign.impl sha).processMessage r₂ m = .err (e, y) := by
  simp only [Sign.impl] at hp ⊢
  rw [← h.stage]
  cases hs : r₁.stage <;> rw [hs] at hp <;> simp only at hp ⊢
  · cases hp
  · obtain ⟨m, k, h1, h2, h3, h4, h5⟩ := Sign.process1_err.mp hp
    exact ⟨_, Sign.process1_err.mpr ⟨m, k, h1, h2, h3, h4, rfl⟩⟩
  · obtain ⟨m, k, p, Ri, h1, h2, h3, h4, h5, h6, h7⟩ := Sign.process2_err.mp hp
    obtain ⟨p', g1, g2, g3⟩ := h.get h2
    exact ⟨_, Sign.process2_err.mpr ⟨m, k, p', Ri, h1, g1, h3, g3.trans h4, by rw [g2, ← h.C]; exact h5, h6, rfl⟩⟩

theorem sign_process_ok {r₁ r₂ x : Sign.Round G} {m : Option (Message G)} (h : signSame r₁ r₂)
    (hp : (Sign.impl sha).processMessage r₁ m = .ok x) : ∃ y, (Sign.impl sha).processMessage r₂ m = .ok y := by
  simp only [Sign.impl] at hp ⊢
  rw [← h.stage]
  cases hs : r₁.stage <;> rw [hs] at hp <;> simp only at hp ⊢
  · exact ⟨_, rfl⟩
  · obtain ⟨m, k, p, h1, h2, h3, h4, h5, h6⟩ := Sign.process1_ok.mp hp
    obtain ⟨p', g1, _⟩ := h.get h5
    exact ⟨_, Sign.process1_ok.mpr ⟨m, k, p', h1, h2, h3, h4, g1, rfl⟩⟩
  · obtain ⟨m, k, p, Ri, h1, h2, h3, h4, h5, h6⟩ := Sign.process2_ok.mp hp
    obtain ⟨p', g1, g2, g3⟩ := h.get h2
    exact ⟨_, Sign.process2_ok.mpr ⟨m, k, p', Ri, h1, g1, h3, g3.trans h4, by rw [g2, ← h.C]; exact h5, rfl⟩⟩

theorem sign_verdicts (sha : Sha512) : Recover.Verdicts (Sign.impl (G := G) sha) Pointers.signAfter Sign.Round.output signSame where
  equiv := ⟨fun _ => ⟨rfl, rfl, rfl, rfl, rfl, fun _ => rfl⟩, fun h => h.symm, fun h h' => ⟨h.stage.trans h'.stage, h.self.trans h'.self, h.ids.trans h'.ids,
    h.output.trans h'.output, h.C.trans h'.C, fun id => (h.parties id).trans (h'.parties id)⟩⟩
  ok {r m r'} h := by
    simp only [Sign.impl] at h
    cases hs : r.stage <;> rw [hs] at h <;> simp only at h
    · cases h; exact ⟨rfl, rfl, rfl, rfl, rfl, fun _ => rfl⟩
    · obtain ⟨m, k, p, _, _, _, _, h5, rfl⟩ := Sign.process1_ok.mp h
      refine ⟨rfl, rfl, rfl, rfl, rfl, fun id => ?_⟩
      simp only [GoMap.get?_set]
      split
      · rename_i he; rw [he, h5]; rfl
      · rfl
    · obtain ⟨m, k, p, Ri, _, h2, _, _, _, rfl⟩ := Sign.process2_ok.mp h
      refine ⟨rfl, rfl, rfl, rfl, rfl, fun id => ?_⟩
      simp only [GoMap.get?_set]
      split
      · rename_i he; rw [he, h2]; rfl
      · rfl
  err {r m e r'} h := by
    simp only [Sign.impl] at h
    cases hs : r.stage <;> rw [hs] at h <;> simp only at h
    · cases h
    · obtain ⟨m, k, _, _, _, _, rfl⟩ := Sign.process1_err.mp h
      exact ⟨rfl, rfl, rfl, rfl, rfl, fun _ => rfl⟩
    · obtain ⟨m, k, p, Ri, _, _, _, _, _, _, rfl⟩ := Sign.process2_err.mp h
      exact ⟨rfl, rfl, rfl, rfl, rfl, fun _ => rfl⟩
  sameErr := sign_process_err
  samePanic {r₁ r₂ m} h hp := by
    cases hq : (Sign.impl sha).processMessage r₂ m with
    | panic => rfl
    | err x => obtain ⟨_, hy⟩ := sign_process_err h.symm hq; rw [hp] at hy; cases hy
    | ok x => obtain ⟨_, hy⟩ := sign_process_ok h.symm hq; rw [hp] at hy; cases hy
  ids h := ⟨h.self, h.ids, h.output⟩
  reset _ _ := ⟨_, rfl⟩
  resetIDs h := by cases h; exact ⟨rfl, rfl, rfl⟩
  erased {r r' m} h := by
    have : Pointers.signAfter r' = (id : Message G → Message G) := rfl
    rw [this, Option.map_id]
    exact h

/-- A stored message that no session can use makes the call that is handed it panic. -/
theorem keygen_unusable {self : ID} {ids : IDSlice} {t : UInt16} {timeout now : Nat} {s₀ : State G (Keygen.Round G)}
    (h₀ : Keygen.newKeygenState sha self ids t timeout now = .ok s₀) (hnd : ids.Nodup) {h : List (Op G × Ret G)} {s : State G (Keygen.Round G)}
    (hh : Hist (Keygen.impl sha) s₀ h s) (hd : s.done = false) {j : ID} {m : Message G} (hm : (j, some m) ∈ s.received) (hu : Spec.Unusable m) :
    Recover.Bad (Keygen.impl sha) s.round s.received := by
  obtain ⟨r₀, hs, rfl⟩ := start_of_new h₀ hnd
  have hi := inv_hist (Keygen.impl_stable sha) hh
  have hrun := (Keygen.running hs hh).1 hd
  have hty : s.acceptedTypes = ([0, 1, 2] : List MsgType).drop s.roundNumber := by
    rw [hi.types]; simp [used, hd]; rfl
  obtain ⟨_, _, g3, _⟩ := hi.stored j m hm
  rw [hty] at g3
  refine ⟨j, some m, hm, ?_⟩
  generalize hN : s.roundNumber = N at hrun g3
  match N, hrun with
  | 0, _ =>
    have g3 : m.header.type = 0 := by simpa using g3.symm
    simp [Spec.Unusable, g3] at hu
  | 1, ⟨f, _, _, _, hround⟩ =>
    have g3 : m.header.type = 1 := by simpa using g3.symm
    have hbad : ∀ p, m.keyGen1 = some p → p.commitments = [] := by
      simpa [Spec.Unusable, g3] using hu
    rw [hround]
    exact process1_panic hbad
  | 2, ⟨f, l₁, _, _, _, _, _, _, _, hround⟩ =>
    have g3 : m.header.type = 2 := by simpa using g3.symm
    have hbad : m.keyGen2 = none := by
      simpa [Spec.Unusable, g3] using hu
    rw [hround]
    exact Keygen.process2_nil hbad

/-- The same for signing. -/
theorem sign_unusable {secret : SecretShare G} {shares : Public G} {ids : IDSlice} {message : Bytes} {timeout now : Nat} {s₀ : State G (Sign.Round G)}
    (h₀ : Sign.newSignState sha ids secret shares message timeout now = .ok s₀) (hnd : ids.Nodup) {h : List (Op G × Ret G)} {s : State G (Sign.Round G)}
    (hh : Hist (Sign.impl sha) s₀ h s) (hd : s.done = false) {j : ID} {m : Message G} (hm : (j, some m) ∈ s.received) (hu : Spec.Unusable m) :
    Recover.Bad (Sign.impl sha) s.round s.received := by
  obtain ⟨r₀, hs, rfl⟩ := sign_start_of_new h₀ hnd
  have hi := inv_hist (Sign.impl_stable sha) hh
  have hrun := (Sign.running hs hh).1 hd
  have hty : s.acceptedTypes = ([0, 3, 4] : List MsgType).drop s.roundNumber := by
    rw [hi.types]; simp [used, hd]; rfl
  obtain ⟨_, _, g3, _⟩ := hi.stored j m hm
  rw [hty] at g3
  refine ⟨j, some m, hm, ?_⟩
  generalize hN : s.roundNumber = N at hrun g3
  match N, hrun with
  | 0, _ =>
    have g3 : m.header.type = 0 := by simpa using g3.symm
    simp [Spec.Unusable, g3] at hu
  | 1, ⟨_, _, _, _, _, hround⟩ =>
    have g3 : m.header.type = 3 := by simpa using g3.symm
    have hbad : m.sign1 = none := by
      simpa [Spec.Unusable, g3] using hu
    rw [hround]
    exact Sign.process1_nil hbad
  | 2, ⟨_, _, _, _, _, _, _, _, _, _, _, _, hround⟩ =>
    have g3 : m.header.type = 4 := by simpa using g3.symm
    have hbad : m.sign2 = none := by
      simpa [Spec.Unusable, g3] using hu
    rw [hround]
    exact Sign.process2_nil hbad

/-- What is known about a key generation in which a call panics. -/
theorem keygen_panics {self : ID} {ids : IDSlice} {t : UInt16} {timeout now : Nat} {s₀ : State G (Keygen.Round G)}
    (h₀ : Keygen.newKeygenState sha self ids t timeout now = .ok s₀) (hnd : ids.Nodup) {h : List (Op G × Ret G)} {s : State G (Keygen.Round G)}
    (hh : Hist (Keygen.impl sha) s₀ h s) (hd : s.done = false) :
    s.closed = false ∧ s.round.output = {} ∧ (s.roundNumber ≤ 1 → s.round.stage ≠ .r2) ∧
      (Recover.Bad (Keygen.impl sha) s.round s.received → ∃ x, (Keygen.impl sha).reset s.round = some x) := by
  obtain ⟨r₀, hs, rfl⟩ := start_of_new h₀ hnd
  obtain ⟨heq, _⟩ := hs.eq
  have hout : r₀.output = {} := by rw [heq]
  have hst : r₀.stage = .r0 := by rw [heq]
  have hi := inv_hist (Keygen.impl_stable sha) hh
  have hrun := (Keygen.running hs hh).1 hd
  refine ⟨hi.closed.trans hd, ?_⟩
  generalize hN : s.roundNumber = N at hrun
  match N, hrun with
  | 0, (hround : s.round = r₀) =>
    rw [hround]
    refine ⟨hout, fun _ => by rw [hst]; simp, ?_⟩
    rintro ⟨k, v, _, hp⟩
    simp only [Keygen.impl, hst] at hp
    cases hp
  | 1, ⟨f, _, _, _, hround⟩ =>
    rw [hround]
    exact ⟨hout, fun _ => by simp [Keygen.round1], fun _ => ⟨_, rfl⟩⟩
  | 2, ⟨f, l₁, _, _, _, _, _, _, _, hround⟩ =>
    rw [hround]
    exact ⟨hout, fun h => by omega, fun _ => ⟨_, rfl⟩⟩

theorem keygen_fine {self : ID} {ids : IDSlice} {t : UInt16} {timeout now : Nat} {s₀ : State G (Keygen.Round G)}
    (h₀ : Keygen.newKeygenState sha self ids t timeout now = .ok s₀) (hnd : ids.Nodup) {h : List (Op G × Ret G)} {s : State G (Keygen.Round G)}
    (hh : Hist (Keygen.impl sha) s₀ h s) (hd : s.done = false) (hb : Recover.Bad (Keygen.impl sha) s.round s.received) :
    s.closed = false ∧ ∃ x, (Keygen.impl sha).reset s.round = some x :=
  have h := keygen_panics h₀ hnd hh hd
  ⟨h.1, h.2.2.2 hb⟩

theorem sign_fine {secret : SecretShare G} {shares : Public G} {ids : IDSlice} {message : Bytes} {timeout now : Nat} {s₀ : State G (Sign.Round G)}
    (h₀ : Sign.newSignState sha ids secret shares message timeout now = .ok s₀) (hnd : ids.Nodup) {h : List (Op G × Ret G)} {s : State G (Sign.Round G)}
    (hh : Hist (Sign.impl sha) s₀ h s) (hd : s.done = false) (_ : Recover.Bad (Sign.impl sha) s.round s.received) :
    s.closed = false ∧ ∃ x, (Sign.impl sha).reset s.round = some x := by
  obtain ⟨r₀, hs, rfl⟩ := sign_start_of_new h₀ hnd
  exact ⟨(inv_hist (Sign.impl_stable sha) hh).closed.trans hd, _, rfl⟩

/-! ### C119 -/

/-- The calls that returned, with what they returned. -/
def Spec.Returned : List (Recover.Event G) → List (Op G × Ret G)
  | [] => []
  | .returned op ret :: h => (op, ret) :: Spec.Returned h
  | .panicked _ :: h => Spec.Returned h

theorem calls_eq (h : List (Recover.Event G)) : Recover.calls h = Spec.Returned h := by
  induction h with
  | nil => rfl
  | cons e h ih => cases e <;> simpa [Recover.calls, Spec.Returned] using ih

/-- Two sessions that only differ in what their rounds have computed. -/
def Spec.Alike {R : Type} (s t : State G R) : Prop :=
  s.acceptedTypes = t.acceptedTypes ∧ s.received = t.received ∧ s.queue = t.queue ∧ s.timer = t.timer ∧ s.roundNumber = t.roundNumber ∧
    s.closed = t.closed ∧ s.done = t.done ∧ s.err = t.err

/-- `C119_keygen_complete`: whenever `ProcessAll` of a key generation panics, also after earlier panics, it does so in the loop, so that `Recover.recovered`
is what it leaves behind. -/
theorem C119_keygen_complete {self : ID} {ids : IDSlice} {t : UInt16} {timeout now : Nat} {s₀ : State G (Keygen.Round G)}
    (h₀ : Keygen.newKeygenState sha self ids t timeout now = .ok s₀) (hnd : ids.Nodup) (h0 : (0 : ID) ∉ ids) {h : List (Recover.Event G)}
    {s : State G (Keygen.Round G)} (hh : Recover.Hist (Keygen.impl sha) Pointers.keygenAfter s₀ h s) (ord : MapOrder) (coins : Coins) :
    step (Keygen.impl sha) s (.processAll ord coins) = none ↔ ∃ s', Recover.recovered (Keygen.impl sha) Pointers.keygenAfter ord s = some s' := by
  constructor
  · intro hx
    obtain ⟨g1, g2⟩ := Recover.hist_stuck (keygen_verdicts sha) (keygen_fine h₀ hnd) hh
    by_cases hp : ∀ ord, Recover.Event.panicked ord ∉ h
    · have ht := g1 hp
      obtain ⟨hd, _, j, m, hm, hu⟩ := (C118_keygen_processAll h₀ hnd h0 ht).1.mp ⟨ord, coins, hx⟩
      have hb := keygen_unusable h₀ hnd ht hd hm hu
      exact (keygen_verdicts sha).complete hb (keygen_fine h₀ hnd ht hd hb) ord coins hx
    · simp only [not_forall, not_not] at hp
      obtain ⟨o, hp⟩ := hp
      obtain ⟨a, b, hab⟩ := List.append_of_mem hp
      obtain ⟨⟨s₁, h', s₂, _, _, _, _, _, g6⟩, _⟩ := g2 a o b hab
      by_cases hd : s.done = true
      · simp [step, processAll, hd] at hx
      have hd : s.done = false := by simpa using hd
      exact (keygen_verdicts sha).complete (g6.bad hd) (g6.resets hd) ord coins hx
  · rintro ⟨s', hs'⟩
    obtain ⟨r, l, hd, hf, hp, _⟩ := Recover.Verdicts.recovered_some hs'
    exact Recover.step_of_panicLoop hd hf hp coins

/-- The same for signing. -/
theorem C119_sign_complete {secret : SecretShare G} {shares : Public G} {ids : IDSlice} {message : Bytes} {timeout now : Nat} {s₀ : State G (Sign.Round G)}
    (h₀ : Sign.newSignState sha ids secret shares message timeout now = .ok s₀) (hnd : ids.Nodup) {h : List (Recover.Event G)}
    {s : State G (Sign.Round G)} (hh : Recover.Hist (Sign.impl sha) Pointers.signAfter s₀ h s) (ord : MapOrder) (coins : Coins) :
    step (Sign.impl sha) s (.processAll ord coins) = none ↔ ∃ s', Recover.recovered (Sign.impl sha) Pointers.signAfter ord s = some s' := by
  constructor
  · intro hx
    obtain ⟨g1, g2⟩ := Recover.hist_stuck (sign_verdicts sha) (sign_fine h₀ hnd) hh
    by_cases hp : ∀ ord, Recover.Event.panicked ord ∉ h
    · have ht := g1 hp
      obtain ⟨hd, _, j, m, hm, hu⟩ := (C118_sign_processAll h₀ hnd ht).1.mp ⟨ord, coins, hx⟩
      have hb := sign_unusable h₀ hnd ht hd hm hu
      exact (sign_verdicts sha).complete hb (sign_fine h₀ hnd ht hd hb) ord coins hx
    · simp only [not_forall, not_not] at hp
      obtain ⟨o, hp⟩ := hp
      obtain ⟨a, b, hab⟩ := List.append_of_mem hp
      obtain ⟨⟨s₁, h', s₂, _, _, _, _, _, g6⟩, _⟩ := g2 a o b hab
      by_cases hd : s.done = true
      · simp [step, processAll, hd] at hx
      have hd : s.done = false := by simpa using hd
      exact (sign_verdicts sha).complete (g6.bad hd) (g6.resets hd) ord coins hx
  · rintro ⟨s', hs'⟩
    obtain ⟨r, l, hd, hf, hp, _⟩ := Recover.Verdicts.recovered_some hs'
    exact Recover.step_of_panicLoop hd hf hp coins

/-- Once a call of `ProcessAll` has panicked, a key generation stays in the round it was in, hands out nothing, has no output, and if it ends then
with an error. -/
theorem C119_keygen_nothing {self : ID} {ids : IDSlice} {t : UInt16} {timeout now : Nat} {s₀ : State G (Keygen.Round G)}
    (h₀ : Keygen.newKeygenState sha self ids t timeout now = .ok s₀) (hnd : ids.Nodup) {h₁ h₂ : List (Recover.Event G)} {ord : MapOrder}
    {s : State G (Keygen.Round G)} (hh : Recover.Hist (Keygen.impl sha) Pointers.keygenAfter s₀ (h₁ ++ .panicked ord :: h₂) s) :
    (s.done = true → s.err ≠ none) ∧ s.round.output.pub = none ∧ s.round.output.secretKey = none ∧
      (∀ op ms, .returned op (.messages ms) ∈ h₂ → ms = []) ∧
      ∃ s₁, Recover.Hist (Keygen.impl sha) Pointers.keygenAfter s₀ h₁ s₁ ∧ s.roundNumber = s₁.roundNumber := by
  obtain ⟨⟨s₁, h', s₂, g1, g2, g3, g4, g5, g6⟩, g7⟩ := (Recover.hist_stuck (keygen_verdicts sha) (keygen_fine h₀ hnd) hh).2 h₁ ord h₂ rfl
  have ho : s.round.output = {} := (congrArg Prod.snd g6.output).trans (keygen_panics h₀ hnd g2 g3).2.1
  exact ⟨g6.failed, by rw [ho], by rw [ho], g7, s₁, g1, g6.number.trans g5⟩

/-- The same for signing. -/
theorem C119_sign_nothing {secret : SecretShare G} {shares : Public G} {ids : IDSlice} {message : Bytes} {timeout now : Nat} {s₀ : State G (Sign.Round G)}
    (h₀ : Sign.newSignState sha ids secret shares message timeout now = .ok s₀) (hnd : ids.Nodup) {h₁ h₂ : List (Recover.Event G)} {ord : MapOrder}
    {s : State G (Sign.Round G)} (hh : Recover.Hist (Sign.impl sha) Pointers.signAfter s₀ (h₁ ++ .panicked ord :: h₂) s) :
    (s.done = true → s.err ≠ none) ∧ s.round.output.signature = none ∧ (∀ op ms, .returned op (.messages ms) ∈ h₂ → ms = []) ∧
      ∃ s₁, Recover.Hist (Sign.impl sha) Pointers.signAfter s₀ h₁ s₁ ∧ s.roundNumber = s₁.roundNumber := by
  obtain ⟨⟨s₁, h', s₂, g1, g2, g3, g4, g5, g6⟩, g7⟩ := (Recover.hist_stuck (sign_verdicts sha) (sign_fine h₀ hnd) hh).2 h₁ ord h₂ rfl
  exact ⟨g6.failed, by rw [g6.output]; exact C44_no_signature_without_success secret shares ids message timeout now s₀ h₀ hnd g2 (by simp [g3]), g7, s₁, g1, g6.number.trans g5⟩

/-- Signing: apart from what the round has computed, it is as if the calls that panicked had not been made. -/
theorem C119_sign_same {s₀ s : State G (Sign.Round G)} {h : List (Recover.Event G)} (hh : Recover.Hist (Sign.impl sha) Pointers.signAfter s₀ h s) :
    ∃ t, Hist (Sign.impl sha) s₀ (Spec.Returned h) t ∧ Spec.Alike s t ∧ s.round.output = t.round.output := by
  obtain ⟨t, r, rfl, h1, h2⟩ := Recover.hist_rel (sign_verdicts sha) (last := fun _ => False) (fun _ _ _ _ => rfl) (fun _ h => h) (fun _ h => h) hh (fun h => h)
  exact ⟨t, calls_eq h ▸ h1, ⟨rfl, rfl, rfl, rfl, rfl, rfl, rfl, rfl⟩, h2.output⟩

/-- So whoever recovers and tries again does not get a second signature share out of a signing session. -/
theorem C119_sign_one_share (secret : SecretShare G) (shares : Public G) (ids : IDSlice) (message : Bytes) (timeout now : Nat)
    (s₀ : State G (Sign.Round G)) (h₀ : Sign.newSignState sha ids secret shares message timeout now = .ok s₀) (hnd : ids.Nodup)
    {h : List (Recover.Event G)} {s : State G (Sign.Round G)} (hh : Recover.Hist (Sign.impl sha) Pointers.signAfter s₀ h s) :
    Spec.emitted (Spec.Returned h) = [] ∨ (∃ D E, Spec.emitted (Spec.Returned h) = [Message.newSign1 secret.id D E]) ∨
      ∃ D E z, Spec.emitted (Spec.Returned h) = [Message.newSign1 secret.id D E, Message.newSign2 secret.id z] := by
  obtain ⟨t, h1, _⟩ := C119_sign_same hh
  exact C47_at_most_one_share secret shares ids message timeout now s₀ h₀ hnd h1

/-- Key generation: the same while the last round has not been reached.  Missing: in the last round it is false, see `C119_refuted`. -/
theorem C119_keygen_same_partial {self : ID} {ids : IDSlice} {t : UInt16} {timeout now : Nat} {s₀ : State G (Keygen.Round G)}
    (h₀ : Keygen.newKeygenState sha self ids t timeout now = .ok s₀) (hnd : ids.Nodup) {h : List (Recover.Event G)} {s : State G (Keygen.Round G)}
    (hh : Recover.Hist (Keygen.impl sha) Pointers.keygenAfter s₀ h s) (hn : s.roundNumber ≤ 1) :
    ∃ t, Hist (Keygen.impl sha) s₀ (Spec.Returned h) t ∧ Spec.Alike s t ∧ s.round.output = t.round.output := by
  have hidle : ∀ {h : List (Recover.Event G)} {s}, Recover.Hist (Keygen.impl sha) Pointers.keygenAfter s₀ h s → s.done = false → ¬ 2 ≤ s.roundNumber →
      ∀ m, Pointers.keygenAfter s.round m = m := by
    intro h s hh hd hn m
    have hst : s.round.stage ≠ .r2 := by
      obtain ⟨g1, g2⟩ := Recover.hist_stuck (keygen_verdicts sha) (keygen_fine h₀ hnd) hh
      by_cases hp : ∀ ord, Recover.Event.panicked ord ∉ h
      · exact (keygen_panics h₀ hnd (g1 hp) hd).2.2.1 (by omega)
      · simp only [not_forall, not_not] at hp
        obtain ⟨o, hp⟩ := hp
        obtain ⟨a, b, hab⟩ := List.append_of_mem hp
        obtain ⟨⟨s₁, h', s₂, _, k2, k3, _, _, g6⟩, _⟩ := g2 a o b hab
        rw [show s.round.stage = s₂.round.stage from congrArg Prod.fst g6.output]
        exact (keygen_panics h₀ hnd k2 k3).2.2.1 (by have := g6.number; omega)
    unfold Pointers.keygenAfter
    split
    · rename_i h; exact absurd h hst
    · rfl
  obtain ⟨t, r, rfl, h1, h2⟩ := Recover.hist_rel (keygen_verdicts sha) (last := fun s => 2 ≤ s.roundNumber) hidle
    (fun hs h => le_trans h (Recover.step_roundNumber hs)) (fun hs h => by obtain ⟨_, _, _, _, _, rfl⟩ := Recover.Verdicts.recovered_some hs; exact h) hh (by omega)
  exact ⟨t, calls_eq h ▸ h1, ⟨rfl, rfl, rfl, rfl, rfl, rfl, rfl, rfl⟩, congrArg Prod.snd h2.output⟩

/-- What an interrupted loop has done: it has processed some messages of the map and then met one that panics. -/
theorem panicLoop_split {R : Type} {impl : RoundImpl G R} {l : List (ID × Option (Message G))} {r r' : R} {done : List ID}
    (h : Recover.panicLoop impl l r = some (r', done)) :
    ∃ l₁ k v l₂, l = l₁ ++ (k, v) :: l₂ ∧ done = l₁.map Prod.fst ∧ processLoop impl l₁ r = .ok r' ∧ impl.processMessage r' v = .panic := by
  induction l generalizing r done with
  | nil => cases h
  | cons a l ih =>
    obtain ⟨k, v⟩ := a
    unfold Recover.panicLoop at h
    cases hv : impl.processMessage r v with
    | panic =>
      rw [hv] at h
      cases h
      exact ⟨[], k, v, l, rfl, rfl, rfl, hv⟩
    | err _ => rw [hv] at h; cases h
    | ok r₁ =>
      rw [hv] at h
      obtain ⟨⟨x, d⟩, h1, h2⟩ := Option.map_eq_some_iff.mp h
      cases h2
      obtain ⟨l₁, k', v', l₂, rfl, rfl, e3, e4⟩ := ih h1
      exact ⟨(k, v) :: l₁, k', v', l₂, rfl, rfl, by unfold processLoop; rw [hv]; exact e3, e4⟩

/-- What a call that panics in the last round of the key generation leaves: the shares that it has added to the secret are erased, the other messages are as they were, and
nothing else has changed. -/
theorem C119_left {ord : MapOrder} {s s' : State G (Keygen.Round G)} (h : Recover.recovered (Keygen.impl sha) Pointers.keygenAfter ord s = some s')
    (hst : s.round.stage = .r2) :
    ∃ l₁ k v l₂, ord.order _ s.received = l₁ ++ (k, v) :: l₂ ∧ processLoop (Keygen.impl sha) l₁ s.round = .ok s'.round ∧
      (Keygen.impl sha).processMessage s'.round v = .panic ∧ Spec.Alike { s with received := s'.received } s' ∧ s'.received.keys = s.received.keys ∧
      ∀ i m, (i, some m) ∈ s.received → (i ∉ l₁.map Prod.fst → (i, some m) ∈ s'.received) ∧
        ∀ z, i ∈ l₁.map Prod.fst → m.keyGen2 = some z → (i, some { m with keyGen2 := some ⟨0⟩ }) ∈ s'.received := by
  obtain ⟨r, done, _, _, h1, rfl⟩ := Recover.Verdicts.recovered_some h
  obtain ⟨l₁, k, v, l₂, e1, rfl, e3, e4⟩ := panicLoop_split h1
  refine ⟨l₁, k, v, l₂, e1, e3, e4, ⟨rfl, rfl, rfl, rfl, rfl, rfl, rfl, rfl⟩, ?_, fun i m hm => ⟨fun hi => ?_, fun z hi hz => ?_⟩⟩
  · simp [Recover.leave, GoMap.keys]
  · exact List.mem_map.mpr ⟨_, hm, by simp only [if_neg hi]⟩
  · refine List.mem_map.mpr ⟨_, hm, ?_⟩
    simp only [if_pos hi, Option.map_some, Pointers.keygenAfter, hst, Pointers.wipe, hz]

namespace Demo

variable {R : Type}

/-- Makes the calls one after the other; a call of `ProcessAll` that panics is recovered from. -/
def attempt (impl : RoundImpl G R) (after : Pointers.After G R) : State G R → List (Op G) → Option (List (Recover.Event G) × State G R)
  | s, [] => some ([], s)
  | s, op :: ops => match step impl s op with
    | some (s', ret) => (attempt impl after s' ops).map fun x => (.returned op ret :: x.1, x.2)
    | none => match op with
      | .processAll ord _ => match Recover.recovered impl after ord s with
        | some s' => (attempt impl after s' ops).map fun x => (.panicked ord :: x.1, x.2)
        | none => none
      | _ => none

theorem attempt_from {impl : RoundImpl G R} {after : Pointers.After G R} {s₀ s t : State G R} {h₀ h : List (Recover.Event G)} {ops : List (Op G)}
    (hh : Recover.Hist impl after s₀ h₀ s) (hr : attempt impl after s ops = some (h, t)) : Recover.Hist impl after s₀ (h₀ ++ h) t := by
  induction ops generalizing s h₀ h with
  | nil => cases hr; simpa using hh
  | cons op ops ih =>
    unfold attempt at hr
    split at hr
    · rename_i s' ret hs
      obtain ⟨⟨h', t'⟩, h1, h2⟩ := Option.map_eq_some_iff.mp hr
      cases h2
      simpa using ih (hh.returned hs) h1
    · split at hr
      · split at hr
        · rename_i s' hs
          obtain ⟨⟨h', t'⟩, h1, h2⟩ := Option.map_eq_some_iff.mp hr
          cases h2
          simpa using ih (hh.panicked hs) h1
        · cases hr
      · cases hr

theorem of_attempt {impl : RoundImpl G R} {after : Pointers.After G R} {s : State G R} {ops : List (Op G)} {p : List (Recover.Event G) → State G R → Bool}
    (hr : ((attempt impl after s ops).map fun x => p x.1 x.2) = some true) : ∃ h t, Recover.Hist impl after s h t ∧ p h t = true := by
  obtain ⟨⟨h, t⟩, h1, h2⟩ := Option.map_eq_some_iff.mp hr
  exact ⟨h, t, by simpa using attempt_from .nil h1, h2⟩

/-- Party 3 sends only a header in the second round of the key generation. -/
def bareKeyGen2 : Message Toy := { header := ⟨2, 3, 1⟩ }

/-- The calls of party 1: it gets everything that it should from party 2, and a bare header from party 3. -/
def retried : List (Op Toy) :=
  [.processAll .insertion (coins [5, 6, 7]), .handle (Message.newKeyGen1 2 ⟨0, 1⟩ [Toy.of 7, Toy.of 8]), .handle (Message.newKeyGen1 3 ⟨0, 1⟩ [Toy.of 9, Toy.of 10]),
   .processAll .insertion (coins []), .handle (Message.newKeyGen2 2 1 15), .handle bareKeyGen2, .processAll .insertion (coins []), .processAll .insertion (coins [])]

end Demo

open Demo

/-- That it is always as if the calls that panicked had not been made is refuted: a key generation in which party 3 sends only a header in the last round
and the caller tries again blames party 2, whose share matches its commitments. No session in which no call panics does that. -/
theorem C119_refuted : ∃ (s₀ : State Toy (Keygen.Round Toy)) (h : List (Recover.Event Toy)) (s : State Toy (Keygen.Round Toy)),
    Keygen.newKeygenState toySha 1 [1, 2, 3] 1 10 0 = .ok s₀ ∧ Recover.Hist (Keygen.impl toySha) Pointers.keygenAfter s₀ h s ∧ s.err = some ⟨2, 2, .vssFailed⟩ ∧
    (∃ c z, Spec.GotCommitments 1 [1, 2, 3] (Spec.Returned h) 2 c ∧ Spec.GotShare 1 [1, 2, 3] (Spec.Returned h) 2 z) ∧
    (∀ c z, Spec.GotCommitments 1 [1, 2, 3] (Spec.Returned h) 2 c → Spec.GotShare 1 [1, 2, 3] (Spec.Returned h) 2 z → z • (base : Toy) = Spec.evalAt c (1 : Scalar)) ∧
    ¬ ∃ t, Hist (Keygen.impl toySha) s₀ (Spec.Returned h) t ∧ Spec.Alike s t := by
  obtain ⟨h, s, h1, h2⟩ := of_attempt (impl := Keygen.impl toySha) (after := Pointers.keygenAfter) (s := session ids 1 1) (ops := retried)
    (p := fun h s => decide (s.err = some ⟨2, 2, .vssFailed⟩) && ((Spec.Returned h).all fun x => match x with
      | (.handle m, _) => decide (m.header.fromID = 2 → (m.keyGen1.all fun k => decide (k.commitments = [Toy.of 7, Toy.of 8])) = true ∧ (m.keyGen2.all fun k => decide (k.share = 15)) = true)
      | _ => true) && ((Spec.Returned h).any fun x => match x with
      | (.handle m, .handled none) => decide (m = Message.newKeyGen1 2 ⟨0, 1⟩ [Toy.of 7, Toy.of 8])
      | _ => false) && ((Spec.Returned h).any fun x => match x with
      | (.handle m, .handled none) => decide (m = Message.newKeyGen2 2 1 15)
      | _ => false)) (by decide +kernel)
  simp only [Bool.and_eq_true, decide_eq_true_eq, List.all_eq_true] at h2
  obtain ⟨⟨⟨herr, hall⟩, hc⟩, hz⟩ := h2
  have taken : ∀ m₀ : Message Toy, ((Spec.Returned h).any fun x => match x with
      | (.handle m, .handled none) => decide (m = m₀)
      | _ => false) = true → (Op.handle m₀, Ret.handled none) ∈ Spec.Returned h := by
    intro m₀ ht
    obtain ⟨⟨op, ret⟩, hx, he⟩ := List.any_eq_true.mp ht
    split at he
    · rename_i hxe
      cases hxe
      rw [of_decide_eq_true he] at hx
      exact hx
    · cases he
  have match₂ : ∀ c z, Spec.GotCommitments 1 [1, 2, 3] (Spec.Returned h) 2 c → Spec.GotShare 1 [1, 2, 3] (Spec.Returned h) 2 z → z • (base : Toy) = Spec.evalAt c (1 : Scalar) := by
    rintro c z ⟨m, k, g1, _, g2, _, g3, g4⟩ ⟨m', k', g1', _, g2', _, g3', g4'⟩
    have a := (of_decide_eq_true (hall _ g1) g2).1
    have b := (of_decide_eq_true (hall _ g1') g2').2
    rw [g3] at a
    rw [g3'] at b
    rw [← g4, ← g4', of_decide_eq_true a, of_decide_eq_true b]
    decide +kernel
  refine ⟨session ids 1 1, h, s, session1, h1, herr, ⟨_, _, ⟨_, _, taken _ hc, ?_, rfl, rfl, rfl, rfl⟩, _, _, taken _ hz, ?_, rfl, rfl, rfl, rfl⟩, match₂, ?_⟩
  · unfold Spec.ForUs; decide +kernel
  · unfold Spec.ForUs; decide +kernel
  · rintro ⟨t, ht, _, _, _, _, _, _, _, he⟩
    rw [herr] at he
    obtain ⟨_, _, _, hcase⟩ := Props.C30_keygen_blame 1 ids 1 10 0 _ session1 (by decide) ht _ he.symm (by decide)
    rcases hcase with ⟨hx, _⟩ | ⟨_, c, z, hc', hz', hne⟩
    · simp at hx
    · exact hne ((match₂ c z hc' hz').trans (congrArg (Spec.evalAt c) (show (1 : Scalar) = ID.val 1 by decide +kernel)))

end Verif.Props
