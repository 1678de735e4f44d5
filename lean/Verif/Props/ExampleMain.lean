import Verif.Props.Example
import Verif.Props.KeygenOut
import Verif.Props.Ristretto

/-!
C73: the program `example/main.go` as a whole.
-/

namespace Verif.Props

open State Example Verif.Curve

section

variable {G R : Type} {impl : RoundImpl G R}

theorem event_hist {s₀ : State G R} {h : List (Op G × Ret G)} {r r' : Routine G R} {e : Event G} (hh : Hist impl s₀ h r.state)
    (he : event impl r e = some r') : ∃ h', Hist impl s₀ h' r'.state := by
  have one : ∀ op : Op G, ((State.step impl r.state op).map fun x => { r with state := x.1 }) = some r' → ∃ h', Hist impl s₀ h' r'.state := by
    intro op hop
    obtain ⟨⟨s, ret⟩, h1, rfl⟩ := Option.map_eq_some_iff.mp hop
    exact ⟨_, hh.snoc h1⟩
  cases e with
  | advance dt => exact one (.advance dt) he
  | fire => exact one .fire he
  | callback => exact one .callback he
  | message ord coins msg =>
    simp only [event, onMessage] at he
    split at he
    · rename_i s e' h1
      cases he
      exact ⟨_, hh.snoc (op := .handle msg) (ret := .handled (some e')) (by simp [State.step, h1])⟩
    · rename_i s h1
      split at he
      · cases he
      · rename_i s' out h2
        cases he
        have g1 : State.step impl r.state (.handle msg) = some (s, .handled none) := by simp [State.step, h1]
        have g2 : State.step impl s (.processAll ord coins) = some (s', .messages out) := by simp [State.step, h2]
        exact ⟨_, (hh.snoc g1).snoc g2⟩

theorem steps_snoc {G : Type} [RGroup G] {sha : Sha512} {verify : Bytes → Bytes → Bytes → GoRes Bool} (P : Main G → Prop)
    (hP : ∀ m a m', P m → Main.step sha verify m a = some m' → P m') (as : List (Main.Act G)) :
    ∀ {m m' : Main G}, P m → Main.steps sha verify m as = some m' → P m' := by
  induction as with
  | nil => intro m m' h hs; cases hs; exact h
  | cons a as ih =>
    intro m m' h hs
    rw [Main.steps] at hs
    cases ha : Main.step sha verify m a with
    | none => rw [ha] at hs; cases hs
    | some m₁ => rw [ha] at hs; exact ih (hP m a m₁ h ha) hs

end

section

variable {G : Type} [RGroup G] {sha : Sha512} {verify : Bytes → Bytes → Bytes → GoRes Bool}

/-- What holds of `main` at any time. -/
def MainInv (sha : Sha512) (verify : Bytes → Bytes → Bytes → GoRes Bool) : Main G → Prop
  | .keygen r => ∃ now s₀ h, Keygen.newKeygenState sha 1 (IDSlice.new [1, 2, 42, 8]) 2 2000000000 now = .ok s₀ ∧ Hist (Keygen.impl sha) s₀ h r.state
  | .sign k r => ∃ (pub : Public G) (secret : SecretShare G) (now : Nat) (s₀ : State G (Sign.Round G)) (h : List (Op G × Ret G)), pub.groupKey = k ∧
      Sign.newSignState sha (IDSlice.new [1, 2, 8]) secret pub Main.message 1000000000 now = .ok s₀ ∧ Hist (Sign.impl sha) s₀ h r.state
  | .ended b => ∃ (k : G) (sig : Signature G), PublicKey.verify sha k Main.message sig = .ok true ∧
      verify (PublicKey.toEd25519 k) Main.message (Signature.toEd25519 sig) = .ok (!b)

theorem keygen_nodup : (IDSlice.new [1, 2, 42, 8]).Nodup := by decide +kernel

theorem sign_nodup : (IDSlice.new [1, 2, 8]).Nodup := by decide +kernel

theorem keygen_wait_iff {r : Routine G (Keygen.Round G)} (hi : MainInv sha verify (.keygen r)) : r.state.waitForError = none ↔ r.state.done = false := by
  obtain ⟨now, s₀, h, h1, h2⟩ := hi
  obtain ⟨r₀, _, rfl⟩ := newKeygenState_ok.mp h1
  exact (C29_done_iff_closed (Keygen.impl_stable sha) h2).2.1

theorem sign_wait_iff {k : G} {r : Routine G (Sign.Round G)} (hi : MainInv sha verify (.sign k r)) : r.state.waitForError = none ↔ r.state.done = false := by
  obtain ⟨_, _, now, s₀, h, _, h1, h2⟩ := hi
  obtain ⟨r₀, _, rfl⟩ := newSignState_ok.mp h1
  exact (C29_done_iff_closed (Sign.impl_stable sha) h2).2.1

theorem main_start {now : Nat} {m : Main G} (h : Main.start sha now = some m) : MainInv sha verify m := by
  unfold Main.start at h
  split at h
  · rename_i s hs
    cases h
    exact ⟨now, s, [], hs, .nil⟩
  · cases h
  · cases h

theorem main_step (m : Main G) (a : Main.Act G) (m' : Main G) (hi : MainInv sha verify m) (h : Main.step sha verify m a = some m') : MainInv sha verify m' := by
  cases m with
  | keygen r =>
    cases a with
    | event e =>
      obtain ⟨now, s₀, hs, h1, h2⟩ := hi
      obtain ⟨r', h3, rfl⟩ := Option.map_eq_some_iff.mp h
      obtain ⟨h', h4⟩ := event_hist h2 h3
      exact ⟨now, s₀, h', h1, h4⟩
    | wake =>
      simp only [Main.step] at h
      split at h
      · cases h; exact hi
      · unfold Main.afterKeygen at h
        split at h
        · split at h
          · rename_i _ _ pub sk _ _ _ s hs
            cases h
            exact ⟨pub, sk, _, s, [], rfl, hs, .nil⟩
          · cases h
          · cases h
        · cases h
  | sign k r =>
    cases a with
    | event e =>
      obtain ⟨pub, secret, now, s₀, hs, h0, h1, h2⟩ := hi
      obtain ⟨r', h3, rfl⟩ := Option.map_eq_some_iff.mp h
      obtain ⟨h', h4⟩ := event_hist h2 h3
      exact ⟨pub, secret, now, s₀, h', h0, h1, h4⟩
    | wake =>
      simp only [Main.step] at h
      split at h
      · cases h; exact hi
      · obtain ⟨pub, secret, now, s₀, hs, rfl, h1, h2⟩ := hi
        unfold Main.afterSign at h
        split at h
        · cases h
        · rename_i sig hsig
          split at h
          · rename_i ok hok
            cases h
            exact ⟨pub.groupKey, sig, (C44_output_verifies secret pub _ _ _ now s₀ h1 sign_nodup h2 sig hsig).2.2, by simpa using hok⟩
          · cases h
          · cases h
  | ended b => cases h; exact hi

/-- C73: whatever messages come in and whatever the schedule, `main` crashes after a key generation exactly if it was aborted: the code
that is to deal with an abort is a comment. -/
theorem C73_main_after_keygen (now : Nat) (m₀ : Main G) (h₀ : Main.start sha now = some m₀) (as : List (Main.Act G)) (r : Routine G (Keygen.Round G))
    (h : Main.steps sha verify m₀ as = some (.keygen r)) (hd : r.state.done = true) :
    Main.step sha verify (.keygen r) .wake = none ↔ r.state.err ≠ none := by
  have hi : MainInv sha verify (.keygen r) := steps_snoc _ main_step as (main_start h₀) h
  have hw : ¬ r.state.waitForError = none := by rw [keygen_wait_iff hi, hd]; decide
  obtain ⟨now, s₀, hs, h1, h2⟩ := hi
  simp only [Main.step, if_neg hw]
  constructor
  · intro hn he
    obtain ⟨F, pub, _, g1, g2, _, _, g3, _⟩ := C39_public_on_polynomial 1 _ 2 _ now s₀ h1 keygen_nodup h2 hd he
    obtain ⟨_, sk, _, _, g4, _, _, g5, _⟩ := C39_own_share_exact 1 _ 2 _ now s₀ h1 keygen_nodup h2 hd he
    obtain ⟨s, hnew⟩ := C42_accepts (sha := sha) sk pub (IDSlice.new [1, 2, 8]) Main.message 1000000000 r.state.timer.now (by decide +kernel)
      (by rw [g2]; decide +kernel) (by rw [g5]; decide +kernel) (fun id hid => by
        have hid' : id ∈ IDSlice.new [1, 2, 42, 8] := by
          revert id; decide +kernel
        refine ⟨by rw [g2]; exact hid', by rintro rfl; revert hid; decide +kernel, by rw [g3 id hid']; simp⟩)
    simp [Main.afterKeygen, g1, g4, hnew] at hn
  · intro he
    obtain ⟨g1, _⟩ := (C41_output_iff_success 1 _ 2 _ now s₀ h1 keygen_nodup h2).1 fun h => he h.2
    simp [Main.afterKeygen, g1]

/-- C73: the same for the signing. -/
theorem C73_main_after_sign (now : Nat) (m₀ : Main RG) (h₀ : Main.start sha now = some m₀) (as : List (Main.Act RG)) (k : RG) (r : Routine RG (Sign.Round RG))
    (h : Main.steps sha (Ed25519.verify sha) m₀ as = some (.sign k r)) (hd : r.state.done = true) :
    Main.step sha (Ed25519.verify sha) (.sign k r) .wake = none ↔ r.state.err ≠ none := by
  have hi : MainInv sha (Ed25519.verify sha) (.sign k r) := steps_snoc _ main_step as (main_start h₀) h
  have hw : ¬ r.state.waitForError = none := by rw [sign_wait_iff hi, hd]; decide
  obtain ⟨pub, secret, now, s₀, hs, rfl, h1, h2⟩ := hi
  simp only [Main.step, if_neg hw]
  constructor
  · intro hn he
    obtain ⟨sig, hsig⟩ := Option.ne_none_iff_exists'.mp (C44_success_has_signature secret pub _ _ _ now s₀ h1 sign_nodup h2 hd he)
    simp [Main.afterSign, hsig, C51_crypto_ed25519, (C44_output_verifies secret pub _ _ _ now s₀ h1 sign_nodup h2 sig hsig).2.2] at hn
  · intro he
    simp [Main.afterSign, C44_no_signature_without_success secret pub _ _ _ now s₀ h1 sign_nodup h2 fun h => he h.2]

/-- C73: if `main` gets to its end at all, it does not log that the signature is invalid: `ed25519.Verify` has accepted it. -/
theorem C73_main_end (now : Nat) (m₀ : Main RG) (h₀ : Main.start sha now = some m₀) (as : List (Main.Act RG)) (b : Bool)
    (h : Main.steps sha (Ed25519.verify sha) m₀ as = some (.ended b)) : b = false := by
  obtain ⟨k, sig, h1, h2⟩ : MainInv sha (Ed25519.verify sha) (.ended b : Main RG) := steps_snoc _ main_step as (main_start h₀) h
  rw [C51_crypto_ed25519, h1] at h2
  simpa using h2.symm

/-- C73: `main` gets to its first wait. -/
theorem C73_main_starts (now : Nat) : ∃ r : Routine G (Keygen.Round G), Main.start sha now = some (.keygen r) := by
  obtain ⟨s, hs⟩ := C34_accepts (G := G) (sha := sha) 1 (IDSlice.new [1, 2, 42, 8]) 2 2000000000 now (by decide +kernel) keygen_nodup (by decide +kernel)
    (by decide +kernel) (by decide +kernel)
  exact ⟨⟨s, []⟩, by simp [Main.start, hs]⟩

/-- C73: with a transport layer that brings `main` only messages of other parties that are for everybody or for party 1, `main` never
gets past its first wait, and sends nothing, whatever the schedule. -/
theorem C73_main_waits (now : Nat) (m₀ m : Main G) (h₀ : Main.start sha now = some m₀) (as : List (Main.Act G))
    (hm : ∀ ord coins msg, .event (.message ord coins msg) ∈ as → msg.header.fromID ≠ 1 ∧ (msg.header.toID = 0 ∨ msg.header.toID = 1))
    (h : Main.steps sha verify m₀ as = some m) : ∃ r, m = .keygen r ∧ r.out = [] ∧ r.state.done = false := by
  obtain ⟨r, h1⟩ := C73_main_starts (G := G) (sha := sha) now
  rw [h1] at h₀
  cases h₀
  unfold Main.start at h1
  split at h1
  case h_2 => cases h1
  case h_3 => cases h1
  rename_i s₀ hs₀
  cases h1
  obtain ⟨r₀, h2, rfl⟩ := newKeygenState_ok.mp hs₀
  have hr : r₀.selfID = 1 ∧ r₀.polynomial = none := by
    unfold Keygen.newRound Keygen.newBaseRound at h2
    simp only [Outcome.bind_eq_ok, Outcome.failIf_eq_ok, Outcome.pure_def, Outcome.ok.injEq] at h2
    obtain ⟨_, _, _, _, _, _, h4⟩ := h2
    rw [← h4]
    exact ⟨rfl, rfl⟩
  have hdone : ∀ r : Routine G (Keygen.Round G), Idle (Keygen.impl sha) r₀ 2000000000 now r → r.out = [] ∧ r.state.done = false := by
    rintro r ⟨g1, g2 | ⟨⟨rr, g2⟩, _⟩⟩
    · refine ⟨g1, ?_⟩
      rw [g2]
      rfl
    · simp [Keygen.impl, Keygen.reset, hr.2] at g2
  have key : ∀ (as : List (Main.Act G)) (r : Routine G (Keygen.Round G)), Idle (Keygen.impl sha) r₀ 2000000000 now r →
      (∀ ord coins msg, .event (.message ord coins msg) ∈ as → msg.header.fromID ≠ 1 ∧ (msg.header.toID = 0 ∨ msg.header.toID = 1)) →
      Main.steps sha verify (.keygen r) as = some m → ∃ r, m = .keygen r ∧ Idle (Keygen.impl sha) r₀ 2000000000 now r := by
    intro as
    induction as with
    | nil => intro r hi _ h; cases h; exact ⟨r, rfl, hi⟩
    | cons a as ih =>
      intro r hi hm h
      rw [Main.steps] at h
      have hm' : ∀ ord coins msg, .event (.message ord coins msg) ∈ as → msg.header.fromID ≠ 1 ∧ (msg.header.toID = 0 ∨ msg.header.toID = 1) :=
        fun ord coins msg hmem => hm ord coins msg (List.mem_cons_of_mem _ hmem)
      cases a with
      | wake =>
        have hw : r.state.waitForError = none := by
          obtain ⟨_, g2 | ⟨⟨rr, g2⟩, _⟩⟩ := hi
          · rw [g2]; rfl
          · simp [Keygen.impl, Keygen.reset, hr.2] at g2
        simp only [Main.step, hw, if_true] at h
        exact ih r hi hm' h
      | event e =>
        cases he : Example.event (Keygen.impl sha) r e with
        | none => simp [Main.step, he] at h
        | some r' =>
          simp only [Main.step, he, Option.map_some] at h
          refine ih r' (idle_event hi (fun ord coins msg e' => ?_) he) hm' h
          rw [show (Keygen.impl sha).selfID r₀ = 1 from hr.1]
          exact hm ord coins msg (e' ▸ List.mem_cons_self)
  obtain ⟨r, rfl, hi⟩ := key as ⟨newBaseState (Keygen.impl sha) r₀ 2000000000 now, []⟩ ⟨rfl, Or.inl rfl⟩ hm h
  exact ⟨r, rfl, hdone r hi⟩

/-- C73: and two seconds after the start it crashes. -/
theorem C73_main_crashes (now : Nat) (m₀ : Main G) (h₀ : Main.start sha now = some m₀) :
    Main.steps sha verify m₀ [.event (.advance 2000000000), .event .fire, .event .callback] = none := by
  unfold Main.start at h₀
  split at h₀
  case h_2 => cases h₀
  case h_3 => cases h₀
  rename_i s hs
  cases h₀
  have hc := C73_keygen_crashes (sha := sha) 1 _ 2 2000000000 now (by decide) s hs
  simp only [events] at hc
  simp only [Main.steps, Main.step]
  cases h1 : event (Keygen.impl sha) ⟨s, []⟩ (.advance 2000000000) with
  | none => simp
  | some r₁ =>
    rw [h1] at hc
    simp only [] at hc
    cases h2 : event (Keygen.impl sha) r₁ .fire with
    | none => simp [h2]
    | some r₂ =>
      rw [h2] at hc
      simp only [] at hc
      cases h3 : event (Keygen.impl sha) r₂ .callback with
      | none => simp [h2, h3]
      | some r₃ => rw [h3] at hc; cases hc

end

namespace Demo

/-- The parties of the example. -/
def exampleIDs : List ID := [1, 2, 8, 42]

/-- What makes a party start: a message that claims to be its own. -/
def kick (i : ID) : Message Toy := Message.newKeyGen1 i ⟨0, 0⟩ []

/-- The events of a party with the messages of a pool. -/
def feed (c : Coins) (l : List (Message Toy)) : List (Event Toy) := l.map (.message .insertion c)

/-- All parties get all messages that any of them has sent so far. -/
def sweep {R : Type} (impl : RoundImpl Toy R) (c : ID → Coins) (l : List (ID × Routine Toy R)) : Option (List (ID × Routine Toy R)) :=
  let pool := l.flatMap fun x => x.2.out
  l.mapM fun x => (events impl x.2 (feed (c x.1) (kick x.1 :: pool))).map fun r => (x.1, r)

/-- The coefficients and nonces of the parties. -/
def exampleCoins (i : ID) : Coins := coins [i.toNat + 3, i.toNat + 4, i.toNat + 5]

/-- The four parties after a key generation. -/
def exampleKeygen : Option (List (ID × Routine Toy (Keygen.Round Toy))) := do
  let l ← exampleIDs.mapM fun i => match Keygen.newKeygenState toySha i exampleIDs 2 10 0 with
    | .ok s => some (i, (⟨s, []⟩ : Routine Toy _))
    | _ => none
  let l ← sweep (Keygen.impl toySha) exampleCoins l
  let l ← sweep (Keygen.impl toySha) exampleCoins l
  sweep (Keygen.impl toySha) exampleCoins l

/-- The three signers after the signing. -/
def exampleSign (l : List (ID × Routine Toy (Keygen.Round Toy))) : Option (List (ID × Routine Toy (Sign.Round Toy))) := do
  let l ← (l.filter fun x => x.1 ≠ 42).mapM fun x => match x.2.state.round.output.pub, x.2.state.round.output.secretKey with
    | some pub, some sk => match Sign.newSignState toySha [1, 2, 8] sk pub Main.message 10 0 with
      | .ok s => some (x.1, (⟨s, []⟩ : Routine Toy _))
      | _ => none
    | _, _ => none
  let l ← sweep (Sign.impl toySha) exampleCoins l
  let l ← sweep (Sign.impl toySha) exampleCoins l
  sweep (Sign.impl toySha) exampleCoins l

/-- What happens to `main`: a message that claims to be its own, the messages of the key generation, waking up, and the same for the
signing. -/
def exampleActs : Option (List (Main.Act Toy)) :=
  let acts (l : List (Message Toy)) : List (Main.Act Toy) := (feed (exampleCoins 1) (kick 1 :: (l ++ l))).map .event ++ [.wake]
  exampleKeygen.bind fun k => (exampleSign k).map fun s => acts (k.flatMap fun x => x.2.out) ++ acts (s.flatMap fun x => x.2.out)

/-- `main` can get to its end, if the transport layer brings it a message that claims to be its own; meets the hypotheses of
`C73_main_end`, `C73_main_after_keygen` and `C73_main_after_sign`, the group apart. -/
example : ((exampleActs.bind fun as => (Main.start toySha 0).bind fun m => Main.steps toySha (fun _ _ _ => .ok true) m as).map
    fun m => match m with | .ended b => b | _ => true) = some false := by
  decide +kernel

end Demo

end Verif.Props
