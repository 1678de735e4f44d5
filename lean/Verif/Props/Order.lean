import Verif.Lemmas.StateOrder
import Verif.Props.Keygen
import Verif.Props.Sign
import Verif.Lemmas.Toy

/-!
The order in which the messages of a round arrive, and the order in which Go iterates over maps, do not matter (C31).

In both theorems the two runs start from the same reachable state `s` and differ in the order `ms`, `ms'` in which the same messages
of the current round are handed over and in the iteration orders `ord`, `ord'`.  As the hypotheses are symmetric in the two runs,
each theorem says that one run succeeds exactly if the other does, and that their results agree.  (When both fail, the culprit may
differ, if there are several.)
-/

namespace Verif.Props

open State

variable {G : Type} [RGroup G] {sha : Sha512}

/-- The messages of one round, each from a different party that was not heard from yet. -/
structure Spec.RoundMessages {R : Type} (impl : RoundImpl G R) (s : State G R) (ms : List (Message G)) : Prop where
  relevant : ∀ m ∈ ms, Relevant (impl.selfID s.round) (impl.partyIDs s.round) m
  type : ∀ m ∈ ms, s.acceptedTypes.head? = some m.header.type
  senders : (ms.map fun m => m.header.fromID).Nodup
  new : ∀ m ∈ ms, m.header.fromID ∉ s.received.keys

/-- Two states that are equal but for the order of the entries in `receivedMessages`, and whose round objects are related. -/
structure Spec.SameState {R : Type} (same : R → R → Prop) (t t' : State G R) : Prop where
  err : t'.err = t.err
  done : t'.done = t.done
  closed : t'.closed = t.closed
  roundNumber : t'.roundNumber = t.roundNumber
  acceptedTypes : t'.acceptedTypes = t.acceptedTypes
  timer : t'.timer = t.timer
  queue : t'.queue = t.queue
  received : ∀ k, t'.received.get? k = t.received.get? k
  round : same t.round t'.round

/-- Key generation rounds that are equal but for the order of the entries in `Commitments`. -/
structure Spec.SameKeygen (r r' : Keygen.Round G) : Prop where
  rest : r' = { r with commitments := r'.commitments }
  commitments : ∀ k, r'.commitments.get? k = r.commitments.get? k

theorem deliver_hist {R : Type} {impl : RoundImpl G R} (ms : List (Message G)) (s : State G R) : ∃ h, Hist impl s h (deliver impl s ms) := by
  unfold deliver
  induction ms generalizing s with
  | nil => exact ⟨[], Hist.nil⟩
  | cons m ms ih =>
    obtain ⟨h, hh⟩ := ih (handleMessage impl s m).1
    exact ⟨_, (Hist.one (op := .handle m) (ret := .handled (handleMessage impl s m).2) rfl).trans hh⟩

theorem deliver_perm {R : Type} {impl : RoundImpl G R} {s : State G R} (hd : s.done = false) {ms ms' : List (Message G)} (hp : ms.Perm ms')
    (hm : Spec.RoundMessages impl s ms) :
    ∃ tm l l', deliver impl s ms = { s with timer := tm, received := l } ∧ deliver impl s ms' = { s with timer := tm, received := l' } ∧
      l.Perm l' := by
  cases ms with
  | nil =>
    rw [List.nil_perm] at hp
    subst hp
    exact ⟨s.timer, s.received, s.received, rfl, rfl, List.Perm.refl _⟩
  | cons m₀ ms₀ =>
    generalize he : m₀ :: ms₀ = ms at *
    have hmem : m₀ ∈ ms := by rw [← he]; exact List.mem_cons_self
    obtain ⟨t, ts, ht⟩ : ∃ t ts, s.acceptedTypes = t :: ts := by
      have := hm.type m₀ hmem
      cases h : s.acceptedTypes with
      | nil => rw [h] at this; cases this
      | cons t ts => exact ⟨t, ts, rfl⟩
    have hty : ∀ m ∈ ms, m.header.type = t := fun m h => by
      have := hm.type m h
      rw [ht] at this
      exact (Option.some.inj this).symm
    have h1 := deliver_eq (impl := impl) ms hd ht (fun m h => ⟨hm.relevant m h, hty m h⟩) hm.senders hm.new
    have h2 := deliver_eq (impl := impl) ms' hd ht (fun m h => ⟨hm.relevant m (hp.mem_iff.mpr h), hty m (hp.mem_iff.mpr h)⟩)
      ((hp.map _).nodup_iff.mp hm.senders) (fun m h => hm.new m (hp.mem_iff.mpr h))
    rw [← hp.length_eq] at h2
    exact ⟨_, _, _, h1, h2, (hp.map _).append_left _⟩

theorem sameState_of {R : Type} {impl : RoundImpl G R} {E same : R → R → Prop} (hE : ∀ r r', E r r' → same r r') {t t' : State G R}
    (hst : impl.Stable) {r₀ : R} {timeout now : Nat} {h : List (Op G × Ret G)} (hh : Hist impl (newBaseState impl r₀ timeout now) h t)
    (ha : Alike E t t') : Spec.SameState same t t' := by
  have hwf := (inv_hist hst hh).wf
  obtain ⟨h1, h2, h3⟩ := ha
  exact ⟨by rw [h1], by rw [h1], by rw [h1], by rw [h1], by rw [h1], by rw [h1], by rw [h1],
    fun k => GoMap.get?_perm hwf h2.symm k, hE _ _ h3⟩

/-- C31 for key generation. -/
theorem C31_keygen_order {self : ID} {ids : IDSlice} {t : UInt16} {r₀ : Keygen.Round G} (hs : Keygen.Start r₀ self ids t)
    {timeout now : Nat} {h : List (Op G × Ret G)} {s : State G (Keygen.Round G)}
    (hh : Hist (Keygen.impl sha) (newBaseState (Keygen.impl sha) r₀ timeout now) h s) (hd : s.done = false)
    {ms ms' : List (Message G)} (hp : ms.Perm ms') (hm : Spec.RoundMessages (Keygen.impl sha) s ms) (ord ord' : MapOrder) (coins : Coins)
    {u : State G (Keygen.Round G)} {out : List (Message G)}
    (hu : processAll (Keygen.impl sha) ord coins (deliver (Keygen.impl sha) s ms) = some (u, out)) (he : u.err = none) :
    ∃ u', processAll (Keygen.impl sha) ord' coins (deliver (Keygen.impl sha) s ms') = some (u', out) ∧ Spec.SameState Spec.SameKeygen u u' := by
  obtain ⟨tm, l, l', e1, e2, e3⟩ := deliver_perm hd hp hm
  obtain ⟨h', hh'⟩ := deliver_hist (impl := Keygen.impl sha) ms s
  have hh' := hh.trans hh'
  obtain ⟨hr, _, _, hc⟩ := hs.eq
  have hself : (Keygen.impl sha).selfID r₀ = self := by rw [hr]; rfl
  have hids : (Keygen.impl sha).partyIDs r₀ = ids := by rw [hr]; rfl
  have hst := Keygen.impl_stable (G := G) sha
  have hu' := (hh'.snoc (op := .processAll ord coins) (ret := .messages out) (s₂ := u) (by simp [step, hu]))
  have ha : Alike Keygen.Same (deliver (Keygen.impl sha) s ms) (deliver (Keygen.impl sha) s ms') := by
    rw [e1, e2]
    exact ⟨rfl, e3, Keygen.Same.refl _⟩
  obtain ⟨u', g1, g2⟩ := processAll_alike (Keygen.congr_same sha) ha (ord' := ord') (by
    intro hd' hf r₁ r₂ out hl hg
    have hready := ready hst hh' (by rw [hids]; exact hs.nodup) (by rw [hids, hself]; exact IDSlice.contains_sound hc) hd' hf ord
    have hrun := (Keygen.running hs hh').1 hd'
    have hnd : (((ord.order _ (deliver (Keygen.impl sha) s ms).received)).map Prod.fst).Nodup :=
      hready.keys.nodup_iff.mpr (by rw [hids]; exact hs.nodup.filter _)
    have hrnd : ((deliver (Keygen.impl sha) s ms)).roundNumber ≠ 0 ∨ (deliver (Keygen.impl sha) s ms).round.stage = .r0 := by
      by_cases h0 : (deliver (Keygen.impl sha) s ms).roundNumber = 0
      · rw [h0] at hrun
        refine Or.inr ?_
        rw [show (deliver (Keygen.impl sha) s ms).round = r₀ from hrun, hr]
      · exact Or.inl h0
    refine Keygen.core ha.round ((ord.perm _ _).trans (ha.received.trans (ord'.perm _ _).symm)) ?_ hnd ?_ ?_ hl hg
    · intro hs0 k v hk
      obtain ⟨m, a1, a2, _⟩ := hready.later (hrnd.resolve_right hs0) k v hk
      exact ⟨m, a1, a2⟩
    · intro hs1
      match hn : (deliver (Keygen.impl sha) s ms).roundNumber, hrun with
      | 0, hrun =>
        rw [show (deliver (Keygen.impl sha) s ms).round = r₀ from hrun, hr] at hs1
        cases hs1
      | 1, ⟨f, _, _, _, a4⟩ => rw [a4]; simp [Keygen.round1]
      | 2, ⟨f, l₁, _, _, _, _, _, _, _, a4⟩ => rw [a4] at hs1; cases hs1
    · intro hs1
      match hn : (deliver (Keygen.impl sha) s ms).roundNumber, hrun with
      | 0, hrun =>
        rw [show (deliver (Keygen.impl sha) s ms).round = r₀ from hrun, hr] at hs1
        cases hs1
      | 1, ⟨f, _, _, _, a4⟩ => rw [a4] at hs1; cases hs1
      | 2, ⟨f, l₁, a1, _, _, _, _, _, _, a4⟩ => rw [a4]; exact a1) hu he
  exact ⟨u', g1, sameState_of (fun r r' h => ⟨h.1, fun k => (h.2 k).symm⟩) hst hu' g2⟩

/-- C31 for signing; the round objects are equal. -/
theorem C31_sign_order {secret : SecretShare G} {shares : Public G} {ids : IDSlice} {message : Bytes} {r₀ : Sign.Round G}
    (hs : Sign.Start r₀ secret shares ids message)
    {timeout now : Nat} {h : List (Op G × Ret G)} {s : State G (Sign.Round G)}
    (hh : Hist (Sign.impl sha) (newBaseState (Sign.impl sha) r₀ timeout now) h s) (hd : s.done = false)
    {ms ms' : List (Message G)} (hp : ms.Perm ms') (hm : Spec.RoundMessages (Sign.impl sha) s ms) (ord ord' : MapOrder) (coins : Coins)
    {u : State G (Sign.Round G)} {out : List (Message G)}
    (hu : processAll (Sign.impl sha) ord coins (deliver (Sign.impl sha) s ms) = some (u, out)) (he : u.err = none) :
    ∃ u', processAll (Sign.impl sha) ord' coins (deliver (Sign.impl sha) s ms') = some (u', out) ∧ Spec.SameState Eq u u' := by
  obtain ⟨tm, l, l', e1, e2, e3⟩ := deliver_perm hd hp hm
  obtain ⟨h', hh'⟩ := deliver_hist (impl := Sign.impl sha) ms s
  have hh' := hh.trans hh'
  obtain ⟨hstage, hself, hids, _, _, _, _, _, hc, hwf, _⟩ := hs.eq
  have hst := Sign.impl_stable (G := G) sha
  have hu' := (hh'.snoc (op := .processAll ord coins) (ret := .messages out) (s₂ := u) (by simp [step, hu]))
  have ha : Alike Eq (deliver (Sign.impl sha) s ms) (deliver (Sign.impl sha) s ms') := by
    rw [e1, e2]
    exact ⟨rfl, e3, rfl⟩
  obtain ⟨u', g1, g2⟩ := processAll_alike (Sign.congr_eq (Sign.impl sha)) ha (ord' := ord') (by
    intro hd' hf r₁ r₂ out hl hg
    have hready := ready hst hh' (by show r₀.partyIDs.Nodup; rw [hids]; exact hs.nodup)
      (by show r₀.selfID ∈ r₀.partyIDs; rw [hids, hself]; exact IDSlice.contains_sound hc) hd' hf ord
    have hrun := (Sign.running hs hh').1 hd'
    have hnd : (((ord.order _ (deliver (Sign.impl sha) s ms).received)).map Prod.fst).Nodup :=
      hready.keys.nodup_iff.mpr (by show (others r₀.selfID r₀.partyIDs).Nodup; rw [hids]; exact hs.nodup.filter _)
    have hrnd : ((deliver (Sign.impl sha) s ms)).roundNumber ≠ 0 ∨ (deliver (Sign.impl sha) s ms).round.stage = .r0 := by
      by_cases h0 : (deliver (Sign.impl sha) s ms).roundNumber = 0
      · rw [h0] at hrun
        refine Or.inr ?_
        rw [show (deliver (Sign.impl sha) s ms).round = r₀ from hrun, hstage]
      · exact Or.inl h0
    rw [← ha.round]
    refine Sign.core ((ord.perm _ _).trans (ha.received.trans (ord'.perm _ _).symm)) ?_ hnd ?_ hl hg
    · intro hs0 k v hk
      obtain ⟨m, a1, a2, _⟩ := hready.later (hrnd.resolve_right hs0) k v hk
      exact ⟨m, a1, a2⟩
    · intro hs1
      match hn : (deliver (Sign.impl sha) s ms).roundNumber, hrun with
      | 0, hrun =>
        rw [show (deliver (Sign.impl sha) s ms).round = r₀ from hrun, hstage] at hs1
        cases hs1
      | 1, ⟨d, e, parties, _, a2, a4⟩ => rw [a4]; exact a2.wf
      | 2, ⟨d, e, l₁, D, E, parties, _, _, _, _, _, _, a4⟩ => rw [a4] at hs1; cases hs1) hu he
  exact ⟨u', g1, sameState_of (fun r r' h => h) hst hu' g2⟩

end Verif.Props
