import Verif.Props.ZeroID
import Verif.Props.Duplicates

/-!
C121: a list of participants that is not sorted.  `Contains` searches it as if it were (pkg/frost/party/idslice.go:17-25), and nobody checks: `party.IDSlice` is a slice
type, so that a caller need not use `NewIDSlice`.
-/

namespace Verif.Props

open Verif State Outcome

theorem le_search (f : Nat → Bool) (i j : Nat) (hij : i ≤ j) : i ≤ IDSlice.search f i j := by
  induction hn : j - i using Nat.strong_induction_on generalizing i j with
  | _ n ih =>
    rw [IDSlice.search]
    by_cases h : i < j
    · simp only [h, ↓reduceDIte]
      split
      · exact le_trans (by omega) (ih _ (by omega) _ _ (by omega) rfl)
      · exact ih _ (by omega) _ _ (by omega) rfl
    · simp [h]

/-- A binary search that finds every element in its place has sorted elements. -/
theorem search_sorted (a : Nat → Nat) (i j : Nat) (hij : i ≤ j) (hinj : ∀ x y, i ≤ x → x < j → i ≤ y → y < j → a x = a y → x = y)
    (hs : ∀ k, i ≤ k → k < j → IDSlice.search (fun l => decide (a k ≤ a l)) i j = k) : ∀ x y, i ≤ x → x < y → y < j → a x < a y := by
  induction hn : j - i using Nat.strong_induction_on generalizing i j with
  | _ n ih =>
    intro x y hx hxy hy
    have hlt : i < j := by omega
    have hleft : ∀ k, i ≤ k → k < (i + j) / 2 → a k ≤ a ((i + j) / 2) ∧ IDSlice.search (fun l => decide (a k ≤ a l)) i ((i + j) / 2) = k := by
      intro k h1 h2
      have h3 := hs k h1 (by omega)
      rw [IDSlice.search] at h3
      simp only [hlt, ↓reduceDIte] at h3
      split at h3
      · have := le_search (fun l => decide (a k ≤ a l)) ((i + j) / 2 + 1) j (by omega)
        omega
      · rename_i h4
        exact ⟨by simpa using h4, h3⟩
    have hright : ∀ k, (i + j) / 2 < k → k < j → a ((i + j) / 2) < a k ∧ IDSlice.search (fun l => decide (a k ≤ a l)) ((i + j) / 2 + 1) j = k := by
      intro k h1 h2
      have h3 := hs k (by omega) h2
      rw [IDSlice.search] at h3
      simp only [hlt, ↓reduceDIte] at h3
      split at h3
      · rename_i h4
        exact ⟨by simpa using h4, h3⟩
      · have := IDSlice.search_le (fun l => decide (a k ≤ a l)) i ((i + j) / 2) (by omega)
        omega
    have hmid : ∀ k, i ≤ k → k < (i + j) / 2 → a k < a ((i + j) / 2) := fun k h1 h2 =>
      lt_of_le_of_ne (hleft k h1 h2).1 fun h => by
        have := hinj k ((i + j) / 2) h1 (by omega) (by omega) (by omega) h
        omega
    rcases Nat.lt_trichotomy x ((i + j) / 2) with h | h | h
    · rcases Nat.lt_trichotomy y ((i + j) / 2) with h' | h' | h'
      · exact ih _ (by omega) i ((i + j) / 2) (by omega) (fun x y h1 h2 h3 h4 => hinj x y h1 (by omega) h3 (by omega)) (fun k h1 h2 => (hleft k h1 h2).2) rfl x y hx hxy h'
      · rw [h']; exact hmid x hx h
      · exact lt_trans (hmid x hx h) (hright y h' hy).1
    · rw [h]; exact (hright y (by omega) hy).1
    · exact ih _ (by omega) ((i + j) / 2 + 1) j (by omega) (fun x y h1 h2 h3 h4 => hinj x y (by omega) h2 (by omega) h4) (fun k h1 h2 => (hright k (by omega) h2).2) rfl x y
        (by omega) hxy hy

theorem getD_get {l : List ID} {i : Nat} (h : i < l.length) : l.getD i 0 = l[i] := by simp [List.getD, h]

/-- `Contains` finds every entry of a list without duplicates exactly when the list is sorted. -/
theorem C121_contains_iff (ids : IDSlice) (hnd : ids.Nodup) : (∀ id ∈ ids, IDSlice.contains ids id = true) ↔ ids.Pairwise (· < ·) := by
  constructor
  · intro h
    have key := search_sorted (fun i => (ids.getD i 0).toNat) 0 ids.length (Nat.zero_le _) (by
        intro x y _ hx _ hy he
        have he := UInt16.toNat_inj.mp he
        rw [getD_get hx, getD_get hy] at he
        exact (List.Nodup.getElem_inj_iff hnd).mp he) (by
        intro k _ hk
        have := h ids[k] (List.getElem_mem hk)
        unfold IDSlice.contains at this
        simp only [Bool.and_eq_true, decide_eq_true_eq, beq_iff_eq] at this
        obtain ⟨h1, h2⟩ := this
        have he : (fun i => decide (ids[k] ≤ ids.getD i 0)) = fun l => decide ((ids.getD k 0).toNat ≤ (ids.getD l 0).toNat) := by
          funext i
          rw [getD_get hk]
          exact decide_eq_decide.mpr UInt16.le_iff_toNat_le
        rw [he] at h1 h2
        rw [getD_get h1] at h2
        exact (List.Nodup.getElem_inj_iff hnd).mp h2)
    rw [List.pairwise_iff_getElem]
    intro i j hi hj hij
    have := key i j (Nat.zero_le _) hij hj
    rw [getD_get hi, getD_get hj] at this
    exact UInt16.lt_iff_toNat_lt.mpr this
  · intro h id hid
    exact IDSlice.contains_complete (h.imp fun h => UInt16.le_of_lt h) hid

section Generic

variable {G R : Type} {impl : RoundImpl G R}

/-- A session with such a list never completes a round after the first. -/
theorem unsorted_notFull (hst : impl.Stable) {r₀ : R} (hnd : (impl.partyIDs r₀).Nodup) (hself : IDSlice.contains (impl.partyIDs r₀) (impl.selfID r₀) = true)
    (hun : ¬ (impl.partyIDs r₀).Pairwise (· < ·)) {timeout now : Nat} {h : List (Op G × Ret G)} {s : State G R}
    (hh : Hist impl (newBaseState impl r₀ timeout now) h s) (hN : s.roundNumber ≠ 0) : ¬ Full impl s := by
  intro hf
  refine hun ((C121_contains_iff _ hnd).mp fun id hid => ?_)
  by_cases he : id = impl.selfID r₀
  · rw [he]; exact hself
  have hi := inv_hist hst hh
  have hp := full_perm hi hnd (IDSlice.contains_sound hself) hf
  have : id ∈ s.received.map Prod.fst := hp.mem_iff.mpr (mem_others.mpr ⟨hid, he⟩)
  obtain ⟨⟨k, v⟩, hkv, rfl⟩ := List.mem_map.mp this
  cases v with
  | none => exact absurd (hi.storedNone k hkv).1 hN
  | some m =>
    obtain ⟨h1, h2, _⟩ := hi.stored k m hkv
    have h1 : k = m.header.fromID := h1
    show IDSlice.contains _ k = true
    rw [h1]
    exact h2.2.2

/-- A session of which no round after the first is ever complete, and whose first round does not end it. -/
theorem blocked [RGroup G] (hst : impl.Stable) {r₀ : R} {timeout now : Nat} {A : List (Message G) → Prop}
    (hnf : ∀ h s, Hist impl (newBaseState impl r₀ timeout now) h s → s.done = false → s.roundNumber ≠ 0 → ¬ Full impl s)
    (hr0 : ∀ h s ord coins s' out, Hist impl (newBaseState impl r₀ timeout now) h s → s.done = false → s.roundNumber = 0 →
      processAll impl ord coins s = some (s', out) → s' = s ∧ out = [] ∨ s'.done = false ∧ s'.roundNumber = 1 ∧ A out)
    {h : List (Op G × Ret G)} {s : State G R} (hh : Hist impl (newBaseState impl r₀ timeout now) h s) :
    s.roundNumber ≤ 1 ∧ (s.roundNumber = 0 ∧ Spec.emitted h = [] ∨ s.roundNumber = 1 ∧ A (Spec.emitted h)) ∧
      (s.done = true → s.err = some ⟨0, s.roundNumber, .timeout⟩) ∧
      (s.done = true → s.roundNumber = 0 → ∃ h s', Hist impl (newBaseState impl r₀ timeout now) h s' ∧ s'.done = false ∧ s'.roundNumber = 0 ∧ impl.reset s'.round ≠ none) := by
  induction hh with
  | nil => exact ⟨Nat.zero_le _, Or.inl ⟨rfl, rfl⟩, fun h => (by cases h), fun h => (by cases h)⟩
  | @snoc h s s' op ret hh hstep ih =>
    obtain ⟨i1, i2, i3, i4⟩ := ih
    rcases step_cases hstep with ⟨m, e, rfl, rfl, h1⟩ | ⟨ord, coins, out, rfl, rfl, h1⟩ | ⟨dt, rfl, rfl, rfl⟩ |
      ⟨rfl, rfl, rfl | ⟨t, _, _, rfl⟩⟩ | ⟨rfl, rfl, ⟨_, rfl⟩ | ⟨hf, _, rfl⟩ | ⟨r, hf, hd, _, hr, rfl⟩⟩
    · rw [emitted_snoc_other _ _ (by simp)]
      cases handle_cases impl h1 <;> exact ⟨i1, i2, i3, i4⟩
    · have h2 := (processAll_iff _).mpr h1
      have same : s' = s → out = [] → s'.roundNumber ≤ 1 ∧
          (s'.roundNumber = 0 ∧ Spec.emitted (h ++ [(Op.processAll ord coins, Ret.messages out)]) = [] ∨
            s'.roundNumber = 1 ∧ A (Spec.emitted (h ++ [(Op.processAll ord coins, Ret.messages out)]))) ∧
          (s'.done = true → s'.err = some ⟨0, s'.roundNumber, .timeout⟩) ∧
          (s'.done = true → s'.roundNumber = 0 → ∃ h s', Hist impl (newBaseState impl r₀ timeout now) h s' ∧ s'.done = false ∧ s'.roundNumber = 0 ∧ impl.reset s'.round ≠ none) := by
        rintro rfl rfl
        rw [emitted_snoc]
        simpa using ⟨i1, i2, i3, i4⟩
      by_cases hd : s.done = true
      · simp only [processAll, if_pos hd] at h2
        obtain ⟨h3, h4⟩ := Prod.mk.inj (Option.some.inj h2)
        exact same h3.symm h4.symm
      have hd : s.done = false := by simpa using hd
      by_cases hN : s.roundNumber = 0
      · rcases hr0 h s ord coins s' out hh hd hN h2 with ⟨h3, h4⟩ | ⟨h3, h4, h5⟩
        · exact same h3 h4
        · have he : Spec.emitted h = [] := by
            rcases i2 with ⟨_, h⟩ | ⟨h, _⟩
            · exact h
            · omega
          refine ⟨by omega, Or.inr ⟨h4, ?_⟩, (fun h => by rw [h3] at h; cases h), (fun h => by rw [h3] at h; cases h)⟩
          rw [emitted_snoc, he]
          simpa using h5
      · have hnf := hnf h s hh hd hN
        have : processAll impl ord coins s = some (s, []) := (processAll_iff _).mpr (.idle (Or.inr hnf))
        rw [this] at h2
        obtain ⟨h3, h4⟩ := Prod.mk.inj (Option.some.inj h2)
        exact same h3.symm h4.symm
    all_goals rw [emitted_snoc_other _ _ (by simp)]
    · exact ⟨i1, i2, i3, i4⟩
    · exact ⟨i1, i2, i3, i4⟩
    · exact ⟨i1, i2, i3, i4⟩
    · exact ⟨i1, i2, i3, i4⟩
    · exact ⟨i1, i2, i3, i4⟩
    · refine ⟨i1, i2, fun _ => ?_, fun _ hN => ⟨h, s, hh, hd, hN, by rw [hr]; simp⟩⟩
      have he : s.err = none := by
        by_contra he
        rw [(inv_hist hst hh).err he] at hd; cases hd
      simp [he]

end Generic

variable {G : Type} [RGroup G] {sha : Sha512}

/-- Many such lists are accepted: the constructor only looks for the own ID, and a largest one at the end is found whatever comes before. -/
theorem C121_accepted (self : ID) (front : List ID) (t : UInt16) (timeout now : Nat) (hf : ∀ id ∈ front, id < self) (hl : front.length < 65536) (h1 : 1 ≤ t.toNat)
    (h2 : t.toNat ≤ front.length) :
    ∃ s : State G (Keygen.Round G), Keygen.newKeygenState sha self (front ++ [self]) t timeout now = .ok s := by
  have hc : IDSlice.contains (front ++ [self]) self = true := by
    obtain ⟨h1, h2, h3, h4⟩ := IDSlice.search_spec (fun i => decide (self ≤ (front ++ [self]).getD i 0)) 0 (front ++ [self]).length (Nat.zero_le _) (by
      intro a b _ hab hb ha
      have hb' : b < front.length + 1 := by simpa using hb
      have ha' : a = front.length := by
        by_contra hne
        have hlt : a < front.length := by omega
        simp only [decide_eq_true_eq] at ha
        rw [getD_get (by simp; omega), List.getElem_append_left hlt] at ha
        exact absurd (hf _ (List.getElem_mem hlt)) (UInt16.not_lt.mpr ha)
      rw [show b = a by omega]
      exact ha)
    have hlast : IDSlice.search (fun i => decide (self ≤ (front ++ [self]).getD i 0)) 0 (front ++ [self]).length = front.length := by
      generalize IDSlice.search (fun i => decide (self ≤ (front ++ [self]).getD i 0)) 0 (front ++ [self]).length = k at h2 h3 h4
      have h2 : k ≤ front.length + 1 := by simpa using h2
      rcases Nat.lt_trichotomy k front.length with h | h | h
      · have := h4 (by simp; omega)
        simp only [decide_eq_true_eq] at this
        rw [getD_get (by simp; omega), List.getElem_append_left h] at this
        exact absurd (hf _ (List.getElem_mem h)) (UInt16.not_lt.mpr this)
      · exact h
      · have := h3 front.length (Nat.zero_le _) h
        simp [getD_get] at this
    unfold IDSlice.contains
    simp only [hlast]
    simp [getD_get]
  unfold Keygen.newKeygenState Keygen.newRound Keygen.newBaseRound
  rw [Outcome.failIf_neg (by rintro rfl; simp at h1), Outcome.ok_bind, Outcome.failIf_neg, Outcome.ok_bind, Outcome.failIf_neg (by simp [hc])]
  · exact ⟨_, rfl⟩
  · rw [UInt16.not_lt, UInt16.le_iff_toNat_le, N_pred_eq (by simp) (by simp; omega)]
    simpa using h2

/-- Key generation: nothing of a party that is missed by the search is ever stored, so the session gets no further than its broadcast.  It has no output, sends no share,
is not crashed by any message, and ends only by its timer. -/
theorem C121_keygen {self : ID} {ids : IDSlice} {t : UInt16} {timeout now : Nat} {s₀ : State G (Keygen.Round G)}
    (h₀ : Keygen.newKeygenState sha self ids t timeout now = .ok s₀) (hnd : ids.Nodup) (hun : ¬ ids.Pairwise (· < ·)) {h : List (Op G × Ret G)}
    {s : State G (Keygen.Round G)} (hh : Hist (Keygen.impl sha) s₀ h s) :
    s.roundNumber ≤ 1 ∧ (Spec.emitted h = [] ∨ ∃ π c, Spec.emitted h = [Message.newKeyGen1 self π c]) ∧ s.round.output.pub = none ∧ s.round.output.secretKey = none ∧
      (s.done = true → s.err = some ⟨0, 1, .timeout⟩) ∧ (s.roundNumber = 1 → ∀ ord coins, processAll (Keygen.impl sha) ord coins s = some (s, [])) ∧
      (self ≠ 0 → t ≠ 65535 → ∀ ord coins, step (Keygen.impl sha) s (.processAll ord coins) ≠ none) := by
  have hout := (C41_output_iff_success self ids t timeout now s₀ h₀ hnd hh).1
  obtain ⟨r₀, hs, rfl⟩ := start_of_new h₀ hnd
  obtain ⟨heq, _, _, hc⟩ := hs.eq
  have hmem := IDSlice.contains_sound hc
  have e1 : (Keygen.impl sha).selfID r₀ = self := by rw [heq]; rfl
  have e2 : (Keygen.impl sha).partyIDs r₀ = ids := by rw [heq]; rfl
  have hst : r₀.stage = .r0 := by rw [heq]
  have hnf : ∀ h s, Hist (Keygen.impl sha) (newBaseState (Keygen.impl sha) r₀ timeout now) h s → s.done = false → s.roundNumber ≠ 0 → ¬ Full (Keygen.impl sha) s :=
    fun h s hh _ hN => unsorted_notFull (Keygen.impl_stable sha) (by rw [e2]; exact hnd) (by rw [e1, e2]; exact hc) (by rw [e2]; exact hun) hh hN
  have hg' : ∀ ord coins, (Keygen.impl sha).generateMessages ord coins r₀ = Keygen.generate0 sha coins r₀ := fun ord coins => by simp only [Keygen.impl, hst]
  obtain ⟨b1, b2, b3, b4⟩ := blocked (Keygen.impl_stable sha) (A := fun out => ∃ π c, out = [Message.newKeyGen1 self π c]) hnf (by
    intro h s ord coins s' out hh hd hN hx
    have hrun := (Keygen.running hs hh).1 hd
    rw [hN] at hrun
    have hrun : s.round = r₀ := hrun
    have hc := (processAll_iff _).mp hx
    clear hx
    cases hc with
    | idle => exact Or.inl ⟨rfl, rfl⟩
    | processErr e r r' _ _ h => rw [hrun, Keygen.loop0 hst] at h; cases h
    | generateErr e r₁ r r' _ _ h h' =>
      rw [hrun, Keygen.loop0 hst] at h
      cases h
      exact absurd ((hg' _ _).symm.trans h') (Keygen.noErr_generate0 _ _ _ _)
    | last _ _ r₁ r r' _ _ _ h h' _ hn =>
      rw [hrun, Keygen.loop0 hst] at h
      cases h
      obtain ⟨_, _, rfl, _⟩ := Keygen.generate0_ok.mp ((hg' _ _).symm.trans h')
      simp [Keygen.impl, hst] at hn
    | next _ _ r₁ r r' _ _ _ h h' =>
      rw [hrun, Keygen.loop0 hst] at h
      cases h
      obtain ⟨_, _, _, h4⟩ := Keygen.generate0_ok.mp ((hg' _ _).symm.trans h')
      refine Or.inr ⟨hd, by show s.roundNumber + 1 = 1; omega, ⟨0, coins (r₀.threshold.toNat + 1)⟩, Exponent.ofPoly (Keygen.coinPoly r₀.threshold coins), ?_⟩
      rw [h4, show r₀.selfID = self from e1]) hh
  have hfail : ¬ (s.done = true ∧ s.err = none) := fun h => by rw [b3 h.1] at h; cases h.2
  have hidle : s.roundNumber = 1 → ∀ ord coins, processAll (Keygen.impl sha) ord coins s = some (s, []) := fun hN ord coins => by
    refine (processAll_iff _).mpr (.idle ?_)
    by_cases hd : s.done = true
    · exact Or.inl hd
    · exact Or.inr (hnf h s hh (by simpa using hd) (by omega))
  refine ⟨b1, b2.imp And.right And.right, (hout hfail).1, (hout hfail).2, ?_, hidle, ?_⟩
  · intro hd
    rw [b3 hd]
    by_cases hN : s.roundNumber = 0
    · obtain ⟨h', s', k1, k2, k3, k4⟩ := b4 hd hN
      have hrun := (Keygen.running hs k1).1 k2
      rw [k3] at hrun
      have hrun : s'.round = r₀ := hrun
      rw [hrun, heq] at k4
      exact absurd rfl k4
    · rw [show s.roundNumber = 1 by omega]
  · intro hz ht ord coins hx
    by_cases hd : s.done = true
    · simp [step, processAll, hd] at hx
    have hd : s.done = false := by simpa using hd
    by_cases hN : s.roundNumber = 0
    · obtain ⟨s', out, h1, _⟩ := keygen_first hs hnd hz ht hh hd hN ord coins
      simp [step, h1] at hx
    · simp [step, hidle (by omega) ord coins] at hx

/-- Signing: the same, except that the list was also found in that of the key.  Nothing but the commitments is ever sent, no event crashes the session. -/
theorem C121_sign {secret : SecretShare G} {shares : Public G} {ids : IDSlice} {message : Bytes} {timeout now : Nat} {s₀ : State G (Sign.Round G)}
    (h₀ : Sign.newSignState sha ids secret shares message timeout now = .ok s₀) (hnd : ids.Nodup) (hun : ¬ ids.Pairwise (· < ·)) {h : List (Op G × Ret G)}
    {s : State G (Sign.Round G)} (hh : Hist (Sign.impl sha) s₀ h s) :
    s.roundNumber ≤ 1 ∧ (Spec.emitted h = [] ∨ ∃ D E, Spec.emitted h = [Message.newSign1 secret.id D E]) ∧ s.round.output.signature = none ∧
      (s.done = true → s.err = some ⟨0, s.roundNumber, .timeout⟩) ∧ (s.roundNumber = 1 → ∀ ord coins, processAll (Sign.impl sha) ord coins s = some (s, [])) ∧
      ∀ op, step (Sign.impl sha) s op ≠ none := by
  have hout := C44_no_signature_without_success secret shares ids message timeout now s₀ h₀ hnd hh
  have hcrash := (C118_sign_processAll h₀ hnd hh).1
  have hothers := C118_sign_others h₀ hh
  obtain ⟨r₀, hs, rfl⟩ := sign_start_of_new h₀ hnd
  obtain ⟨hst, hself, hids, _, _, _, _, _, hc, _, _, hget, _⟩ := hs.eq
  have hmem := IDSlice.contains_sound hc
  have e1 : (Sign.impl sha).selfID r₀ = secret.id := hself
  have e2 : (Sign.impl sha).partyIDs r₀ = ids := hids
  have hnf : ∀ h s, Hist (Sign.impl sha) (newBaseState (Sign.impl sha) r₀ timeout now) h s → s.done = false → s.roundNumber ≠ 0 → ¬ Full (Sign.impl sha) s :=
    fun h s hh _ hN => unsorted_notFull (Sign.impl_stable sha) (by rw [e2]; exact hnd) (by rw [e1, e2]; exact hc) (by rw [e2]; exact hun) hh hN
  have hg' : ∀ ord coins, (Sign.impl sha).generateMessages ord coins r₀ = Sign.generate0 coins r₀ := fun ord coins => by simp only [Sign.impl, hst]
  obtain ⟨b1, b2, b3, b4⟩ := blocked (Sign.impl_stable sha) (A := fun out => ∃ D E, out = [Message.newSign1 secret.id D E]) hnf (by
    intro h s ord coins s' out hh hd hN hx
    have hrun := (Sign.running hs hh).1 hd
    rw [hN] at hrun
    have hrun : s.round = r₀ := hrun
    have hc := (processAll_iff _).mp hx
    clear hx
    cases hc with
    | idle => exact Or.inl ⟨rfl, rfl⟩
    | processErr e r r' _ _ h => rw [hrun, Sign.loop0 hst] at h; cases h
    | generateErr e r₁ r r' _ _ h h' =>
      rw [hrun, Sign.loop0 hst] at h
      cases h
      exact absurd ((hg' _ _).symm.trans h') (Sign.noErr_generate0 _ _ _)
    | last _ _ r₁ r r' _ _ _ h h' _ hn =>
      rw [hrun, Sign.loop0 hst] at h
      cases h
      obtain ⟨_, _, rfl, _⟩ := Sign.generate0_ok.mp ((hg' _ _).symm.trans h')
      simp [Sign.impl, hst] at hn
    | next _ _ r₁ r r' _ _ _ h h' =>
      rw [hrun, Sign.loop0 hst] at h
      cases h
      obtain ⟨_, _, _, h4⟩ := Sign.generate0_ok.mp ((hg' _ _).symm.trans h')
      refine Or.inr ⟨hd, by show s.roundNumber + 1 = 1; omega, coins 0 • base, coins 1 • base, ?_⟩
      rw [h4, hself]) hh
  have hfail : ¬ (s.done = true ∧ s.err = none) := fun h => by rw [b3 h.1] at h; cases h.2
  refine ⟨b1, b2.imp And.right And.right, hout hfail, b3, fun hN ord coins => ?_, fun op hx => ?_⟩
  · refine (processAll_iff _).mpr (.idle ?_)
    by_cases hd : s.done = true
    · exact Or.inl hd
    · exact Or.inr (hnf h s hh (by simpa using hd) (by omega))
  · by_cases hop : ∃ ord coins, op = .processAll ord coins
    · obtain ⟨ord, coins, rfl⟩ := hop
      obtain ⟨hd, hl, j, m, hm, hu⟩ := hcrash.mp ⟨ord, coins, hx⟩
      have hi := inv_hist (Sign.impl_stable sha) hh
      by_cases hN : s.roundNumber = 0
      · obtain ⟨_, _, h3, _⟩ := hi.stored j m hm
        have hty : s.acceptedTypes = [0, 3, 4] := by
          rw [hi.types]; simp [used, hd, hN]; rfl
        rw [hty] at h3
        have h3 : 0 = m.header.type := by simpa using h3
        rcases hu with ⟨h, _⟩ | ⟨h, _⟩ | ⟨h, _⟩ | ⟨h, _⟩ <;> rw [← h3] at h <;> cases h
      · exact hnf h s hh hd hN ((full_iff (hi.ids.trans e2) (List.ne_nil_of_mem hmem) hnd).mpr hl)
    · exact hothers op (fun ord coins h => hop ⟨ord, coins, h⟩) hx

/-- So whatever the list (of at most 65536 entries): a key generation that succeeds, or that sends a share, was given one that is sorted, without duplicates and without 0. -/
theorem C121_keygen_list {self : ID} {ids : IDSlice} {t : UInt16} {timeout now : Nat} {s₀ : State G (Keygen.Round G)}
    (h₀ : Keygen.newKeygenState sha self ids t timeout now = .ok s₀) (hlen : ids.length ≤ 65536) {h : List (Op G × Ret G)} {s : State G (Keygen.Round G)}
    (hh : Hist (Keygen.impl sha) s₀ h s) (hp : (s.done = true ∧ s.err = none) ∨ ∃ m ∈ Spec.emitted h, m.header.type ≠ 1) :
    ids.Pairwise (· < ·) ∧ (0 : ID) ∉ ids := by
  have hnd : ids.Nodup := by
    by_contra hdup
    obtain ⟨h1, _, h2, _⟩ := C108_keygen self ids t timeout now s₀ h₀ hlen hdup hh
    rcases hp with ⟨h3, _⟩ | ⟨m, hm, _⟩
    · rw [h1] at h3; cases h3
    · rw [h2] at hm; cases hm
  constructor
  · by_contra hun
    obtain ⟨_, h1, _, _, h2, _⟩ := C121_keygen h₀ hnd hun hh
    rcases hp with ⟨h3, h4⟩ | ⟨m, hm, ht⟩
    · rw [h2 h3] at h4; cases h4
    · rcases h1 with h1 | ⟨π, c, h1⟩ <;> rw [h1] at hm
      · cases hm
      · rw [List.mem_singleton.mp hm] at ht
        exact ht rfl
  · intro hz
    obtain ⟨h2, _, _, _, h1⟩ := C120_nothing h₀ hnd hz hh
    rcases hp with ⟨h3, h4⟩ | ⟨m, hm, ht⟩
    · exact h2 h3 h4
    · rcases h1 with h1 | ⟨_, π, c, h1⟩ <;> rw [h1] at hm
      · cases hm
      · rw [List.mem_singleton.mp hm] at ht
        exact ht rfl

/-- The same for signing. -/
theorem C121_sign_list {secret : SecretShare G} {shares : Public G} {ids : IDSlice} {message : Bytes} {timeout now : Nat} {s₀ : State G (Sign.Round G)}
    (h₀ : Sign.newSignState sha ids secret shares message timeout now = .ok s₀) (hlen : ids.length ≤ 65536) {h : List (Op G × Ret G)} {s : State G (Sign.Round G)}
    (hh : Hist (Sign.impl sha) s₀ h s) (hp : (s.done = true ∧ s.err = none) ∨ ∃ m ∈ Spec.emitted h, m.header.type ≠ 3) :
    ids.Pairwise (· < ·) ∧ (0 : ID) ∉ ids := by
  have hnd : ids.Nodup := by
    by_contra hdup
    obtain ⟨h2, _, h1⟩ := C108_sign secret shares ids message timeout now s₀ h₀ hlen hdup hh
    rcases hp with ⟨h3, h4⟩ | ⟨m, hm, _⟩
    · rw [h1 h3] at h4; cases h4
    · rw [h2] at hm; cases hm
  refine ⟨?_, fun hz => (C120_sign secret shares ids message timeout now hz).1 s₀ h₀⟩
  by_contra hun
  obtain ⟨_, h1, _, h2, _⟩ := C121_sign h₀ hnd hun hh
  rcases hp with ⟨h3, h4⟩ | ⟨m, hm, ht⟩
  · rw [h2 h3] at h4; cases h4
  · rcases h1 with h1 | ⟨D, E, h1⟩ <;> rw [h1] at hm
    · cases hm
    · rw [List.mem_singleton.mp hm] at ht
      exact ht rfl

end Verif.Props
