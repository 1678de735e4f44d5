import Verif.Lemmas.Alias
import Verif.Props.Helpers
import Verif.Props.SignBlame

/-!
C94: a session keeps the slices of its caller and sees what the caller writes there.
-/

namespace Verif.Props

open Verif State Sign Outcome

variable {G : Type} [RGroup G] {sha : Sha512}

/-! ### Histories -/

theorem contents_snoc {W : Type} (w : W) (h : List (Act G W × Ret G)) (x : Act G W × Ret G) :
    Spec.contents w (h ++ [x]) = Spec.contents (Spec.contents w h) [x] := by
  induction h generalizing w with
  | nil => rfl
  | cons y h ih =>
    obtain ⟨a, r⟩ := y
    cases a <;> exact ih _

theorem unwritten_append {W : Type} (h h' : List (Act G W × Ret G)) :
    Spec.unwritten (h ++ h') = Spec.unwritten h ++ Spec.unwritten h' := by
  induction h with
  | nil => rfl
  | cons y h ih =>
    obtain ⟨a, r⟩ := y
    cases a
    · exact congrArg _ ih
    · exact ih

/-- Without writes the histories are the ordinary ones. -/
theorem acts_of_hist {R W : Type} {impl : RoundImpl G R} {see : W → R → R} {s s' : State G R} {h : List (Op G × Ret G)}
    (hh : Hist impl s h s') : Acts impl see s (h.map fun x => (.op x.1, x.2)) s' := by
  induction hh with
  | nil => exact .nil
  | snoc _ hs ih =>
    rw [List.map_append]
    exact ih.snoc hs

theorem acts_trans {R W : Type} {impl : RoundImpl G R} {see : W → R → R} {s s₁ s₂ : State G R} {h h' : List (Act G W × Ret G)}
    (h1 : Acts impl see s h s₁) (h2 : Acts impl see s₁ h' s₂) : Acts impl see s (h ++ h') s₂ := by
  induction h2 with
  | nil => simpa using h1
  | snoc _ hs ih => rw [← List.append_assoc]; exact ih.snoc hs

theorem step_number {R : Type} {impl : RoundImpl G R} {s s' : State G R} {op : Op G} {ret : Ret G} (h : step impl s op = some (s', ret)) :
    s.roundNumber ≤ s'.roundNumber := by
  rcases step_cases h with ⟨msg, e, rfl, rfl, h5⟩ | ⟨ord, coins, out, rfl, rfl, h5⟩ | ⟨dt, rfl, rfl, rfl⟩ |
    ⟨rfl, rfl, rfl | ⟨t, ht, hle, rfl⟩⟩ | ⟨rfl, rfl, ⟨hf, rfl⟩ | ⟨_, hd', rfl⟩ | ⟨r, hf, hd', hc, hr, rfl⟩⟩
  · cases handle_cases impl h5 <;> exact Nat.le_refl _
  · cases h5 <;> first | exact Nat.le_refl _ | exact Nat.le_succ _
  all_goals exact Nat.le_refl _

/-! ### Signing -/

section

variable {secret : SecretShare G} {shares : Public G} {ids : IDSlice} {m₀ : Bytes} {timeout now : Nat} {s₀ : State G (Sign.Round G)}

theorem new_with (h₀ : newSignState sha ids secret shares m₀ timeout now = .ok s₀) (m : Bytes) :
    newSignState sha ids secret shares m timeout now = .ok (s₀.withMessage m) := by
  obtain ⟨r₀, h1, rfl⟩ := newSignState_ok.mp h₀
  obtain ⟨h2, h3, ps, h4, rfl⟩ := newRound_ok.mp h1
  exact newSignState_ok.mpr ⟨_, newRound_ok.mpr ⟨h2, h3, ps, h4, rfl⟩, rfl⟩

theorem new_kept (h₀ : newSignState sha ids secret shares m₀ timeout now = .ok s₀) : Kept shares.groupKey m₀ s₀ := by
  obtain ⟨r₀, h1, rfl⟩ := newSignState_ok.mp h₀
  obtain ⟨h2, h3, ps, h4, rfl⟩ := newRound_ok.mp h1
  exact ⟨Nat.zero_le _, fun _ => rfl, fun _ => rfl, fun _ => ⟨rfl, rfl, rfl, rfl⟩, fun h => (nomatch h), rfl⟩

theorem new_running (h₀ : newSignState sha ids secret shares m₀ timeout now = .ok s₀) : s₀.done = false ∧ s₀.roundNumber = 0 := by
  obtain ⟨r₀, h1, rfl⟩ := newSignState_ok.mp h₀
  exact ⟨rfl, rfl⟩

theorem acts_kept {key : G} {w : Bytes} {s s' : State G (Sign.Round G)} (hk : Kept key w s) {h : List (Act G Bytes × Ret G)}
    (hh : Acts (Sign.impl sha) seeMessage s h s') : Kept key (Spec.contents w h) s' := by
  induction hh with
  | nil => exact hk
  | snoc _ hs ih =>
    rename_i h s₁ s₂ a ret _
    rw [contents_snoc]
    cases a with
    | op o => exact (ih.step hs).1
    | write m =>
      obtain ⟨rfl, rfl⟩ := Prod.mk.inj (Option.some.inj hs)
      exact (ih.write m).1

/-- While the message is not used, a session behaves as one that was given another message. -/
theorem acts_sim {key : G} {w : Bytes} {s s' : State G (Sign.Round G)} (hk : Kept key w s) {h : List (Act G Bytes × Ret G)}
    (hh : Acts (Sign.impl sha) seeMessage s h s') (hc : s'.roundNumber ≤ 1 ∨ s.roundNumber = 2 ∧ s'.done = false) (m : Bytes) :
    Hist (Sign.impl sha) (s.put m) (Spec.unwritten h) (s'.put m) := by
  induction hh with
  | nil => exact .nil
  | snoc hh₁ hs ih =>
    rename_i h s₁ s₂ a ret
    have hk₁ := acts_kept hk hh₁
    rw [unwritten_append]
    cases a with
    | op o =>
      have hs' : step (Sign.impl sha) s₁ o = some (s₂, ret) := hs
      have hle := step_number hs'
      have hc₁ : s₁.roundNumber ≤ 1 ∨ s.roundNumber = 2 ∧ s₁.done = false := by
        rcases hc with hc | ⟨hc, hd⟩
        · exact Or.inl (hle.trans hc)
        · refine Or.inr ⟨hc, ?_⟩
          by_contra hd₁
          rw [Bool.not_eq_false] at hd₁
          rw [(step_done hd₁ hs').1] at hd
          cases hd
      refine (ih hc₁).snoc (op := o) ?_
      rcases Bool.eq_false_or_eq_true s₁.done with hd | hd
      · rw [put_done m hd, put_done m (step_done hd hs').1]
        exact hs'
      · rw [put_run m hd]
        refine step_with m hd hs' ?_
        have hst := hk₁.stage hd
        have hn := hk₁.number
        have hk₂ := (hk₁.step hs').1
        rcases hc with hc | ⟨hc, hd'⟩
        · have : s₁.roundNumber = 0 ∨ s₁.roundNumber = 1 := by omega
          rcases this with h0 | h0
          · rw [h0] at hst; exact Or.inl hst
          · rw [h0] at hst; exact Or.inr ⟨by omega, Or.inl hst⟩
        · right
          refine ⟨?_, Or.inr hd'⟩
          have h1 : 2 ≤ s₁.roundNumber := by
            clear ih hs hs' hle hst hn hk₂ hd hk₁ hd' hc₁
            induction hh₁ with
            | nil => omega
            | snoc _ hs₁ ih₁ =>
              rename_i a' _ _
              cases a' with
              | op o' => exact le_trans ih₁ (step_number (show step _ _ _ = some (_, _) from hs₁))
              | write m' => obtain ⟨rfl, rfl⟩ := Prod.mk.inj (Option.some.inj hs₁); exact ih₁
          have := hk₂.number
          omega
    | write m' =>
      obtain ⟨rfl, rfl⟩ := Prod.mk.inj (Option.some.inj hs)
      have h1 := ih hc
      simp only [Spec.unwritten, List.append_nil]
      rw [hk₁.put_write]
      exact h1

end

/-- What the caller wrote before round 1 is complete makes no difference by itself: up to there the session does what any session does, for
every message it could have been given, and the message that counts is the one that is in the memory then. -/
theorem C94_sign_reads_late (secret : SecretShare G) (shares : Public G) (ids : IDSlice) (m₀ : Bytes) (timeout now : Nat)
    (s₀ : State G (Sign.Round G)) (h₀ : newSignState sha ids secret shares m₀ timeout now = .ok s₀)
    {h : List (Act G Bytes × Ret G)} {s : State G (Sign.Round G)} (hh : Acts (Sign.impl sha) seeMessage s₀ h s) (hn : s.roundNumber ≤ 1) :
    (∀ m, ∃ s₁ s₂, newSignState sha ids secret shares m timeout now = .ok s₁ ∧ Hist (Sign.impl sha) s₁ (Spec.unwritten h) s₂ ∧
      s₂.done = s.done ∧ s₂.err = s.err ∧ s₂.roundNumber = s.roundNumber) ∧
    (s.done = false → s.round.message = Spec.contents m₀ h) := by
  have hk := acts_kept (new_kept h₀) hh
  refine ⟨fun m => ⟨_, s.put m, new_with h₀ m, ?_, ?_⟩, hk.message⟩
  · have := acts_sim (new_kept h₀) hh (Or.inl hn) m
    rwa [put_run m (new_running h₀).1] at this
  · unfold State.put
    split <;> exact ⟨rfl, rfl, rfl⟩

/-- Part of: "a session signs the message it was given".  If the caller stops writing before round 1 is complete, then from then on the session
is exactly one that was given what is in the memory at that time, so that everything proved of sessions holds with that message.  Missing:
the caller may write later, and what the session was given does not count (`C94_sign_other_message`). -/
theorem C94_sign_as_if_partial (secret : SecretShare G) (shares : Public G) (ids : IDSlice) (m₀ : Bytes) (timeout now : Nat)
    (s₀ : State G (Sign.Round G)) (h₀ : newSignState sha ids secret shares m₀ timeout now = .ok s₀)
    {h : List (Act G Bytes × Ret G)} {s : State G (Sign.Round G)} (hh : Acts (Sign.impl sha) seeMessage s₀ h s) (hn : s.roundNumber ≤ 1)
    {h' : List (Op G × Ret G)} {s' : State G (Sign.Round G)} (hh' : Hist (Sign.impl sha) s h' s') :
    ∃ s₁, newSignState sha ids secret shares (Spec.contents m₀ h) timeout now = .ok s₁ ∧
      Hist (Sign.impl sha) s₁ (Spec.unwritten h ++ h') s' := by
  have hk := acts_kept (new_kept h₀) hh
  refine ⟨_, new_with h₀ _, Hist.trans ?_ hh'⟩
  have := acts_sim (new_kept h₀) hh (Or.inl hn) (Spec.contents m₀ h)
  rwa [put_run _ (new_running h₀).1, hk.put_self] at this

/-- Against "a session signs the message it was given": whatever a session given `m` can do, a session given `m₀` does if its caller first
writes `m` where `m₀` was; for instance output a signature for `m`.  `m` may have the length of `m₀`. -/
theorem C94_sign_other_message (secret : SecretShare G) (shares : Public G) (ids : IDSlice) (m₀ m : Bytes) (timeout now : Nat)
    (s₀ s₁ : State G (Sign.Round G)) (h₀ : newSignState sha ids secret shares m₀ timeout now = .ok s₀)
    (h₁ : newSignState sha ids secret shares m timeout now = .ok s₁) {h : List (Op G × Ret G)} {s : State G (Sign.Round G)}
    (hh : Hist (Sign.impl sha) s₁ h s) :
    Acts (Sign.impl sha) seeMessage s₀ ((.write m, .nothing) :: h.map fun x => (.op x.1, x.2)) s := by
  have h2 := new_with h₀ m
  rw [h₁] at h2
  cases h2
  refine acts_trans (h := [(.write m, .nothing)]) (Acts.snoc (h := []) .nil ?_) (acts_of_hist hh)
  have h3 := ((new_kept h₀).write m).2
  rw [if_neg (by simp [(new_running h₀).1])] at h3
  simp only [act, h3]

/-- The share that a session sends is for what is in the memory when it completes round 1. -/
theorem C94_sign_share (secret : SecretShare G) (shares : Public G) (ids : IDSlice) (m₀ : Bytes) (timeout now : Nat)
    (s₀ : State G (Sign.Round G)) (h₀ : newSignState sha ids secret shares m₀ timeout now = .ok s₀) (hnd : ids.Nodup)
    (hX : shares.shares.get? secret.id = some (secret.secret • base))
    {h : List (Act G Bytes × Ret G)} {s : State G (Sign.Round G)} (hh : Acts (Sign.impl sha) seeMessage s₀ h s) (hn : s.roundNumber ≤ 1)
    (op : Op G) (s' : State G (Sign.Round G)) (out : List (Message G)) (hs : step (Sign.impl sha) s op = some (s', .messages out))
    (m : Message G) (z : Sign2) (hm : m ∈ out) (hz : m.sign2 = some z) :
    ∃ D E, Spec.Commitments secret.id ids (Spec.unwritten h ++ [(op, .messages out)]) D E ∧ z.Zi • (base : G) =
      Spec.nonce sha ids (Spec.contents m₀ h) D E secret.id +
        Spec.chal sha ids (Spec.contents m₀ h) shares.groupKey D E • Spec.weightedShare shares ids secret.id := by
  obtain ⟨s₁, h1, h2⟩ := C94_sign_as_if_partial secret shares ids m₀ timeout now s₀ h₀ hh hn (Hist.one hs)
  refine (C45_sent_share_valid secret shares ids _ timeout now s₁ h1 hnd hX h2 m z ?_ hz).2
  unfold Spec.emitted
  rw [List.flatMap_append]
  refine List.mem_append_right _ ?_
  obtain ⟨ord, coins, o, rfl, ho, _⟩ : ∃ ord coins o, op = .processAll ord coins ∧ Ret.messages out = Ret.messages o ∧ True := by
    rcases step_cases hs with ⟨_, _, _, h3, _⟩ | ⟨ord, coins, o, h3, h4, _⟩ | ⟨_, _, h3, _⟩ | ⟨_, h3, _⟩ | ⟨_, h3, _⟩
    all_goals first | exact ⟨ord, coins, o, h3, h4, trivial⟩ | cases h3
  simpa using hm

/-- A signature that is output verifies under the group key for what was in the memory at one time, when the session was processing. -/
theorem C94_sign_output (secret : SecretShare G) (shares : Public G) (ids : IDSlice) (m₀ : Bytes) (timeout now : Nat)
    (s₀ : State G (Sign.Round G)) (h₀ : newSignState sha ids secret shares m₀ timeout now = .ok s₀)
    {h : List (Act G Bytes × Ret G)} {s : State G (Sign.Round G)} (hh : Acts (Sign.impl sha) seeMessage s₀ h s) (sig : Signature G)
    (hsig : s.round.output.signature = some sig) :
    s.done = true ∧ s.err = none ∧ ∃ h₁ ord coins ret h₂, h = h₁ ++ (.op (.processAll ord coins), ret) :: h₂ ∧
      PublicKey.verify sha shares.groupKey (Spec.contents m₀ h₁) sig = .ok true := by
  induction hh with
  | nil =>
    rw [((new_kept h₀).open_ (new_running h₀).1).2.2.2] at hsig
    cases hsig
  | snoc hh₁ hs ih =>
    rename_i h s₁ s₂ a ret
    have hk₁ := acts_kept (new_kept h₀) hh₁
    have again : s₁.done = true → s₁.round = s₂.round → s₂.done = s₁.done → s₂.err = s₁.err →
        s₂.done = true ∧ s₂.err = none ∧ ∃ p ord coins r q, h ++ [(a, ret)] = p ++ (.op (.processAll ord coins), r) :: q ∧
          PublicKey.verify sha shares.groupKey (Spec.contents m₀ p) sig = .ok true := fun hd hr hd' he' => by
      rw [← hr] at hsig
      obtain ⟨h1, h2, p, ord, coins, r, q, h3, h4⟩ := ih hsig
      exact ⟨by rw [hd', h1], by rw [he', h2], p, ord, coins, r, q ++ [(a, ret)], by rw [h3]; simp, h4⟩
    cases a with
    | op o =>
      have hs' : step (Sign.impl sha) s₁ o = some (s₂, ret) := hs
      rcases Bool.eq_false_or_eq_true s₁.done with hd | hd
      · obtain ⟨h1, h2, _, h3⟩ := step_done hd hs'
        exact again hd h2.symm (by rw [h1, hd]) h3
      · obtain ⟨⟨ord, coins, rfl⟩, h1, h2, _, h3⟩ := (hk₁.step hs').2 hd sig hsig
        exact ⟨h1, h2, h, ord, coins, ret, [], rfl, h3⟩
    | write m =>
      obtain ⟨rfl, rfl⟩ := Prod.mk.inj (Option.some.inj hs)
      rcases Bool.eq_false_or_eq_true s₁.done with hd | hd
      · have h1 := (hk₁.write m).2
        rw [if_pos hd] at h1
        exact again hd (by rw [h1]) rfl rfl
      · have := ((hk₁.write m).1.open_ hd).2.2.2
        rw [this] at hsig
        cases hsig

/-- A session that has sent its share and still runs: but for the message it is one that was given what was in the memory when it computed
the share. -/
theorem second_with {secret : SecretShare G} {shares : Public G} {ids : IDSlice} {m₀ : Bytes} {timeout now : Nat}
    {s₀ : State G (Sign.Round G)} (h₀ : newSignState sha ids secret shares m₀ timeout now = .ok s₀)
    {h h' : List (Act G Bytes × Ret G)} {s s₁ s' : State G (Sign.Round G)} (hh : Acts (Sign.impl sha) seeMessage s₀ h s)
    (hn : s.roundNumber ≤ 1) {op : Op G} {ret : Ret G} (hs : step (Sign.impl sha) s op = some (s₁, ret)) (hn₁ : s₁.roundNumber = 2)
    (hh' : Acts (Sign.impl sha) seeMessage s₁ h' s') (hd' : s'.done = false) :
    ∃ sₘ, newSignState sha ids secret shares (Spec.contents m₀ h) timeout now = .ok sₘ ∧
      Hist (Sign.impl sha) sₘ (Spec.unwritten h ++ (op, ret) :: Spec.unwritten h') (s'.withMessage (Spec.contents m₀ h)) := by
  obtain ⟨sₘ, h1, h2⟩ := C94_sign_as_if_partial secret shares ids m₀ timeout now s₀ h₀ hh hn (Hist.one hs)
  have hk₁ := ((acts_kept (new_kept h₀) hh).step hs).1
  have h3 := acts_sim hk₁ hh' (Or.inr ⟨hn₁, hd'⟩) (Spec.contents m₀ h)
  rw [hk₁.put_self, put_run _ hd'] at h3
  refine ⟨sₘ, h1, ?_⟩
  have := h2.trans h3
  simpa using this

/-- Writing after round 1 wastes the session.  Let `w₁` be in the memory when the session computes its share and `w₂` when it puts the
signature together.  If the session given `w₁`, with the same events, would now output a signature, then this one outputs the same if
the signature verifies for `w₂` as well, and otherwise aborts without blaming anybody. -/
theorem C94_sign_last (secret : SecretShare G) (shares : Public G) (ids : IDSlice) (m₀ : Bytes) (timeout now : Nat)
    (s₀ : State G (Sign.Round G)) (h₀ : newSignState sha ids secret shares m₀ timeout now = .ok s₀)
    {h h' : List (Act G Bytes × Ret G)} {s s₁ s' : State G (Sign.Round G)} (hh : Acts (Sign.impl sha) seeMessage s₀ h s)
    (hn : s.roundNumber ≤ 1) (op : Op G) (ret : Ret G) (hs : step (Sign.impl sha) s op = some (s₁, ret)) (hn₁ : s₁.roundNumber = 2)
    (hh' : Acts (Sign.impl sha) seeMessage s₁ h' s') (hd' : s'.done = false) :
    let w₁ := Spec.contents m₀ h
    let w₂ := Spec.contents w₁ h'
    ∃ sₘ s'', newSignState sha ids secret shares w₁ timeout now = .ok sₘ ∧
      Hist (Sign.impl sha) sₘ (Spec.unwritten h ++ (op, ret) :: Spec.unwritten h') s'' ∧
      ∀ ord coins t out sig, processAll (Sign.impl sha) ord coins s'' = some (t, out) → t.round.output.signature = some sig →
        PublicKey.verify sha shares.groupKey w₁ sig = .ok true ∧
        (PublicKey.verify sha shares.groupKey w₂ sig = .ok true → processAll (Sign.impl sha) ord coins s' = some (t, out)) ∧
        (PublicKey.verify sha shares.groupKey w₂ sig ≠ .ok true → ∃ t', processAll (Sign.impl sha) ord coins s' = some (t', []) ∧
          t'.done = true ∧ t'.err = some ⟨0, 2, .badSignature⟩ ∧ t'.round.output.signature = none) := by
  intro w₁ w₂
  obtain ⟨sₘ, h1, h2⟩ := second_with h₀ hh hn hs hn₁ hh' hd'
  refine ⟨sₘ, _, h1, h2, ?_⟩
  intro ord coins t out sig h3 h4
  have hk' : Kept shares.groupKey w₂ s' := acts_kept ((acts_kept (new_kept h₀) hh).step hs).1 hh'
  have hkm : Kept shares.groupKey w₁ (s'.withMessage w₁) :=
    ⟨hk'.number, hk'.stage, fun _ => rfl, hk'.open_, hk'.shut, hk'.key⟩
  obtain ⟨_, h5, h6, h7⟩ := last_with hkm hd' h3 h4 w₂
  have h8 : State.withMessage w₂ (s'.withMessage w₁) = s' := by
    rw [← hk'.message hd']
    rfl
  rw [h8] at h6 h7
  exact ⟨h5, h6, h7⟩

/-- If the weighted public shares of the signers add up to the group key and the own secret share is the right one, then a signature that is
output verifies both for what was in the memory when the share was computed and for what is there at the end.  So the two have the
same challenge, unless the group key is the identity. -/
theorem C94_sign_both (secret : SecretShare G) (shares : Public G) (ids : IDSlice) (m₀ : Bytes) (timeout now : Nat)
    (s₀ : State G (Sign.Round G)) (h₀ : newSignState sha ids secret shares m₀ timeout now = .ok s₀) (hnd : ids.Nodup)
    (hX : shares.shares.get? secret.id = some (secret.secret • base))
    (hsum : (ids.map (Spec.weightedShare shares ids)).sum = shares.groupKey)
    {h h' : List (Act G Bytes × Ret G)} {s s₁ s' : State G (Sign.Round G)} (hh : Acts (Sign.impl sha) seeMessage s₀ h s)
    (hn : s.roundNumber ≤ 1) (op : Op G) (ret : Ret G) (hs : step (Sign.impl sha) s op = some (s₁, ret)) (hn₁ : s₁.roundNumber = 2)
    (hh' : Acts (Sign.impl sha) seeMessage s₁ h' s') (hd' : s'.done = false) (ord : MapOrder) (coins : Coins) (t : State G (Sign.Round G))
    (out : List (Message G)) (ht : processAll (Sign.impl sha) ord coins s' = some (t, out)) (sig : Signature G)
    (hsig : t.round.output.signature = some sig) :
    let w₁ := Spec.contents m₀ h
    let w₂ := Spec.contents w₁ h'
    PublicKey.verify sha shares.groupKey w₁ sig = .ok true ∧ PublicKey.verify sha shares.groupKey w₂ sig = .ok true ∧
      (shares.groupKey ≠ 0 → Spec.challenge sha sig.R shares.groupKey w₁ = Spec.challenge sha sig.R shares.groupKey w₂) := by
  intro w₁ w₂
  obtain ⟨sₘ, h1, h2⟩ := second_with h₀ hh hn hs hn₁ hh' hd'
  have hk' : Kept shares.groupKey w₂ s' := acts_kept ((acts_kept (new_kept h₀) hh).step hs).1 hh'
  obtain ⟨_, h5, _, h7⟩ := last_with hk' hd' ht hsig w₁
  have h6 : PublicKey.verify sha shares.groupKey w₁ sig = .ok true := by
    by_contra hc
    obtain ⟨t', g1, _, g2, _⟩ := h7 hc
    have g3 : step (Sign.impl sha) (s'.withMessage w₁) (.processAll ord coins) = some (t', .messages []) := by
      simp only [step, g1, Option.map_some]
    have := C45_no_unattributed_failure secret shares ids w₁ timeout now sₘ h1 hnd hX hsum (h2.snoc g3) _ g2 rfl
    cases this
  exact ⟨h6, h5, fun hA => (C50_message_bound sha _ hA _ _ sig h6).mp h5⟩

end Verif.Props
