import Verif.Lemmas.Pointers
import Verif.Props.KeygenOut
import Verif.Props.Demo
import Verif.Lemmas.Sign

/-!
C116: sessions that are handed pointers to messages, and what they leave in the messages.
-/

namespace Verif.Props

open Verif State Outcome Pointers

variable {G : Type} [RGroup G] {sha : Sha512}

/-- A session without its messages. -/
def Spec.SameBut {R : Type} (a : State G R) (b : State G R) : Prop :=
  a.acceptedTypes = b.acceptedTypes ∧ a.timer = b.timer ∧ a.roundNumber = b.roundNumber ∧ a.round = b.round ∧ a.closed = b.closed ∧ a.done = b.done ∧ a.err = b.err

/-- The events with each pointer replaced by the message it pointed to in the beginning. -/
def Spec.Read (mem : Ptr → Message G) (h : List (Pointers.Op × Ret G)) : List (State.Op G × Ret G) :=
  h.map fun x => (match x.1 with
    | .handle p => .handle (mem p)
    | .processAll ord coins => .processAll ord coins
    | .advance dt => .advance dt
    | .fire => .fire
    | .callback => .callback, x.2)

/-- The message with share 0. -/
def Spec.Erased (m m' : Message G) : Prop :=
  m'.header = m.header ∧ m'.keyGen1 = m.keyGen1 ∧ m'.sign1 = m.sign1 ∧ m'.sign2 = m.sign2 ∧
    (m.keyGen2 = none ∧ m'.keyGen2 = none ∨ ∃ k, m.keyGen2 = some k ∧ m'.keyGen2 = some { k with share := 0 })

theorem read_eq (mem : Mem G) (h : List (Pointers.Op × Ret G)) : Spec.Read mem h = readHist mem h := by
  refine List.map_congr_left fun x _ => ?_
  obtain ⟨op, ret⟩ := x
  cases op <;> rfl

theorem wipe_erased (m : Message G) : Spec.Erased m (wipe m) := by
  refine ⟨rfl, rfl, rfl, rfl, ?_⟩
  cases hk : m.keyGen2 with
  | none => exact .inl ⟨rfl, by simp [wipe, hk]⟩
  | some k => exact .inr ⟨k, rfl, by simp [wipe, hk]⟩

theorem sameBut_strip {R : Type} {a b : State G R} (h : a = strip b) : Spec.SameBut a b := by
  subst h
  exact ⟨rfl, rfl, rfl, rfl, rfl, rfl, rfl⟩

theorem keygen_lastOnly (sha : Sha512) : LastOnly (Keygen.impl (G := G) sha) keygenAfter fun r => r.stage = .r2 where
  process r m r' h := by
    simp only [Keygen.impl] at h
    cases hs : r.stage <;> rw [hs] at h
    · cases h; rw [hs]
    · obtain ⟨m, k, c, sum, _, _, _, _, _, rfl⟩ := Keygen.process1_ok.mp h; simp [hs]
    · obtain ⟨m, k, c, _, _, _, _, _, rfl⟩ := Keygen.process2_ok.mp h; simp [hs]
  generate ord coins r r' out h := by
    simp only [Keygen.impl] at h
    cases hs : r.stage <;> rw [hs] at h
    · obtain ⟨_, _, rfl, _⟩ := Keygen.generate0_ok.mp h; simp [hs]
    · obtain ⟨_, _, _, rfl, _⟩ := Keygen.generate1_ok.mp h; simp [hs]
    · obtain ⟨_, _, _, _, _, _, _, _, rfl, _⟩ := Keygen.generate2_ok.mp h; simp [hs]
  ends r h := by simp only [Keygen.impl, h]
  idle r m h := by
    unfold keygenAfter
    cases hs : r.stage <;> first | rfl | exact absurd hs h
  header r m := by
    unfold keygenAfter
    cases r.stage <;> rfl

theorem sign_lastOnly (sha : Sha512) : LastOnly (Sign.impl (G := G) sha) signAfter fun r => r.stage = .r2 where
  process r m r' h := by
    simp only [Sign.impl] at h
    cases hs : r.stage <;> rw [hs] at h
    · cases h; rw [hs]
    · obtain ⟨_, _, _, _, _, _, _, _, rfl⟩ := Sign.process1_ok.mp h; simp [hs]
    · obtain ⟨_, _, _, _, _, _, _, _, _, rfl⟩ := Sign.process2_ok.mp h; simp [hs]
  generate ord coins r r' out h := by
    simp only [Sign.impl] at h
    cases hs : r.stage <;> rw [hs] at h
    · obtain ⟨_, _, rfl, _⟩ := Sign.generate0_ok.mp h; simp [hs]
    · obtain ⟨_, _, _, _, rfl, _⟩ := Sign.generate1_ok_fields h; simp [hs]
    · obtain ⟨_, _, rfl, _⟩ := Sign.generate2_ok.mp h; simp [hs]
  ends r h := by simp only [Sign.impl, h]
  idle _ _ _ := rfl
  header _ _ := rfl

/-- A key generation that is handed pointers goes as one that is handed the messages, although it writes into them. -/
theorem C116_same_keygen (r : Keygen.Round G) (timeout now : Nat) (mem₀ : Ptr → Message G) (h : List (Pointers.Op × Ret G)) :
    (∀ mem s, Pointers.Hist (Keygen.impl sha) keygenAfter mem₀ (Pointers.newBaseState (Keygen.impl sha) r timeout now) h mem s →
      ∃ t, State.Hist (Keygen.impl sha) (State.newBaseState (Keygen.impl sha) r timeout now) (Spec.Read mem₀ h) t ∧ Spec.SameBut s.rest t) ∧
    ∀ t, State.Hist (Keygen.impl sha) (State.newBaseState (Keygen.impl sha) r timeout now) (Spec.Read mem₀ h) t →
      ∃ mem s, Pointers.Hist (Keygen.impl sha) keygenAfter mem₀ (Pointers.newBaseState (Keygen.impl sha) r timeout now) h mem s ∧ Spec.SameBut s.rest t := by
  rw [read_eq]
  refine ⟨fun mem s hh => ?_, fun t ht => ?_⟩
  · obtain ⟨t, ht, S⟩ := hist_sim (Keygen.impl_stable sha) (keygen_lastOnly sha) hh
    exact ⟨t, ht, sameBut_strip S.rest⟩
  · obtain ⟨mem, s, hh, S⟩ := hist_complete (Keygen.impl_stable sha) (keygen_lastOnly sha) ht
    exact ⟨mem, s, hh, sameBut_strip S.rest⟩

/-- The same for signing. -/
theorem C116_same_sign (r : Sign.Round G) (timeout now : Nat) (mem₀ : Ptr → Message G) (h : List (Pointers.Op × Ret G)) :
    (∀ mem s, Pointers.Hist (Sign.impl sha) signAfter mem₀ (Pointers.newBaseState (Sign.impl sha) r timeout now) h mem s →
      ∃ t, State.Hist (Sign.impl sha) (State.newBaseState (Sign.impl sha) r timeout now) (Spec.Read mem₀ h) t ∧ Spec.SameBut s.rest t) ∧
    ∀ t, State.Hist (Sign.impl sha) (State.newBaseState (Sign.impl sha) r timeout now) (Spec.Read mem₀ h) t →
      ∃ mem s, Pointers.Hist (Sign.impl sha) signAfter mem₀ (Pointers.newBaseState (Sign.impl sha) r timeout now) h mem s ∧ Spec.SameBut s.rest t := by
  rw [read_eq]
  refine ⟨fun mem s hh => ?_, fun t ht => ?_⟩
  · obtain ⟨t, ht, S⟩ := hist_sim (Sign.impl_stable sha) (sign_lastOnly sha) hh
    exact ⟨t, ht, sameBut_strip S.rest⟩
  · obtain ⟨mem, s, hh, S⟩ := hist_complete (Sign.impl_stable sha) (sign_lastOnly sha) ht
    exact ⟨mem, s, hh, sameBut_strip S.rest⟩

section

variable {R : Type} {impl : RoundImpl G R} {after : After G R} {last : R → Prop}

theorem handle_kept (mem : Mem G) (s : PState G R) (p : Ptr) :
    (∀ q ∈ ptrs (Pointers.handleMessage impl mem s p).1.received, q ∈ ptrs s.received ∨ q = p ∧ (Pointers.handleMessage impl mem s p).2 = none) ∧
    (∀ q ∈ (Pointers.handleMessage impl mem s p).1.queue, q ∈ s.queue ∨ q = p ∧ (Pointers.handleMessage impl mem s p).2 = none) := by
  have key : ∀ x : PState G R × Option HandleErr, (x.1.received = s.received ∧ x.1.queue = s.queue ∨ x.2 = none ∧ x.1.queue = s.queue ∧
      x.1.received = s.received.set (mem p).header.fromID (some p) ∨ x.2 = none ∧ x.1.received = s.received ∧ x.1.queue = s.queue ++ [p]) →
      (∀ q ∈ ptrs x.1.received, q ∈ ptrs s.received ∨ q = p ∧ x.2 = none) ∧ ∀ q ∈ x.1.queue, q ∈ s.queue ∨ q = p ∧ x.2 = none := by
    rintro ⟨y, e⟩ (⟨h1, h2⟩ | ⟨rfl, h2, h1⟩ | ⟨rfl, h1, h2⟩)
    · simp only at h1 h2
      rw [h1, h2]
      exact ⟨fun q h => .inl h, fun q h => .inl h⟩
    · simp only at h1 h2
      rw [h1, h2]
      refine ⟨fun q h => ?_, fun q h => .inl h⟩
      obtain ⟨k, hk⟩ := mem_ptrs.mp h
      rcases mem_set_cases hk with h | h
      · cases h.2; exact .inr ⟨rfl, rfl⟩
      · exact .inl (mem_ptrs.mpr ⟨k, h⟩)
    · simp only at h1 h2
      rw [h1, h2]
      refine ⟨fun q h => .inl h, fun q h => ?_⟩
      rcases List.mem_append.mp h with h | h
      · exact .inl h
      · exact .inr ⟨List.mem_singleton.mp h, rfl⟩
  apply key
  unfold Pointers.handleMessage
  cases s.rest.acceptedTypes <;> simp only <;> split_ifs <;> simp

theorem handle_rest (mem : Mem G) (s : PState G R) (p : Ptr) :
    (Pointers.handleMessage impl mem s p).1.rest.done = s.rest.done ∧ (Pointers.handleMessage impl mem s p).1.rest.err = s.rest.err ∧
      (Pointers.handleMessage impl mem s p).1.rest.round = s.rest.round := by
  unfold Pointers.handleMessage
  cases s.rest.acceptedTypes <;> simp only <;> split_ifs <;> exact ⟨rfl, rfl, rfl⟩

/-- Every message is as it was, or was handed over, accepted, and then written into by the round that ended the session. -/
theorem frame_hist (hst : impl.Stable) (L : LastOnly impl after last) (hlast : ∀ r, impl.nextRound r = none → last r) {mem₀ mem : Mem G} {r : R} {timeout now : Nat}
    {h : List (Pointers.Op × Ret G)} {s : PState G R} (hh : Pointers.Hist impl after mem₀ (Pointers.newBaseState impl r timeout now) h mem s) :
    (∀ p, p ∈ ptrs s.received ∨ p ∈ s.queue → (Pointers.Op.handle p, Ret.handled none) ∈ h) ∧
    ∀ p, mem p = mem₀ p ∨ s.rest.done = true ∧ (Pointers.Op.handle p, Ret.handled none) ∈ h ∧ ∃ r', last r' ∧ mem p = after r' (mem₀ p) := by
  induction hh with
  | nil =>
    refine ⟨fun p hp => ?_, fun p => .inl rfl⟩
    exfalso
    rcases hp with hp | hp
    · simp [Pointers.newBaseState, ptrs] at hp
    · cases hp
  | snoc hh hs ih =>
    rename_i h mem s op ret mem' s'
    obtain ⟨t, ht, S⟩ := hist_sim hst L hh
    have timer : ∀ {o : State.Op G} {s'}, timerStep impl s o = some s' → s'.received = s.received ∧ s'.queue = s.queue ∧ (s.rest.done = true → s'.rest.done = true) := by
      intro o s' ho
      simp only [timerStep, Option.map_eq_some_iff] at ho
      obtain ⟨⟨x, ret⟩, hx, rfl⟩ := ho
      exact ⟨rfl, rfl, fun hd => done_step hx hd⟩
    have quiet : ∀ {op : Pointers.Op} {ret : Ret G} {s' : PState G R},
        (∀ p, p ∈ ptrs s'.received ∨ p ∈ s'.queue → p ∈ ptrs s.received ∨ p ∈ s.queue ∨ op = .handle p ∧ ret = .handled none) →
        (s.rest.done = true → s'.rest.done = true) →
        (∀ p, p ∈ ptrs s'.received ∨ p ∈ s'.queue → (Pointers.Op.handle p, Ret.handled none) ∈ h ++ [(op, ret)]) ∧
        ∀ p, mem p = mem₀ p ∨ s'.rest.done = true ∧ (Pointers.Op.handle p, Ret.handled none) ∈ h ++ [(op, ret)] ∧ ∃ r', last r' ∧ mem p = after r' (mem₀ p) := by
      intro op ret s' h1 h2
      refine ⟨fun p hp => ?_, fun p => ?_⟩
      · rcases h1 p hp with h | h | ⟨rfl, rfl⟩
        · exact List.mem_append_left _ (ih.1 p (.inl h))
        · exact List.mem_append_left _ (ih.1 p (.inr h))
        · exact List.mem_append_right _ List.mem_cons_self
      · rcases ih.2 p with h | ⟨h3, h4, h5⟩
        · exact .inl h
        · exact .inr ⟨h2 h3, List.mem_append_left _ h4, h5⟩
    cases hs with
    | handle p =>
      obtain ⟨k1, k2⟩ := handle_kept (impl := impl) mem s p
      refine quiet (fun q hq => ?_) ?_
      · rcases hq with hq | hq
        · rcases k1 q hq with h | ⟨rfl, h⟩
          · exact .inl h
          · exact .inr (.inr ⟨rfl, by rw [h]⟩)
        · rcases k2 q hq with h | ⟨rfl, h⟩
          · exact .inr (.inl h)
          · exact .inr (.inr ⟨rfl, by rw [h]⟩)
      · intro hd
        unfold Pointers.handleMessage
        simp only [hd, if_true]
    | processAll hp he hpr =>
      have hn : s.rest.done = false → (ptrs s.received).Nodup := by
        intro hd
        have I := inv_hist hst ht
        rw [S.rest] at hd
        obtain ⟨rfl, h1, _⟩ := S.live hd
        exact ptrs_nodup (h1 ▸ I.wf) fun k m hm => (I.stored k m (h1 ▸ hm)).1
      have F := processAll_frame L hlast hn hp hpr
      refine ⟨fun p hp => List.mem_append_left _ (ih.1 p ?_), fun p => ?_⟩
      · rcases hp with hp | hp
        · exact F.received p hp
        · exact .inr (F.queue p hp)
      · by_cases hd : s.rest.done = true
        · unfold Pointers.processAll at hpr
          simp only [hd, if_true, Option.some.injEq, Prod.mk.injEq] at hpr
          obtain ⟨rfl, rfl, _⟩ := hpr
          exact (ih.2 p).imp_right fun h => ⟨h.1, List.mem_append_left _ h.2.1, h.2.2⟩
        · have hm : mem = mem₀ := by
            have hd := Bool.eq_false_iff.mpr hd
            rw [S.rest] at hd
            exact (S.live hd).1
          subst hm
          exact (F.message p).imp_right fun h => ⟨h.1, List.mem_append_left _ (ih.1 p (.inl h.2.1)), h.2.2⟩
    | advance h | fire h | callback h =>
      obtain ⟨h1, h2, h3⟩ := timer h
      exact quiet (fun p hp => by rw [h1, h2] at hp; exact hp.imp_right .inl) h3

end

/-- The share in a message of round 2. -/
def Spec.share (m : Message G) : Scalar := match m.keyGen2 with
  | some k => k.share
  | none => 0

/-- No message changes while a key generation is running. -/
theorem C116_unchanged (r : Keygen.Round G) (timeout now : Nat) (mem₀ mem : Ptr → Message G) (h : List (Pointers.Op × Ret G)) (s : PState G (Keygen.Round G))
    (hh : Pointers.Hist (Keygen.impl sha) keygenAfter mem₀ (Pointers.newBaseState (Keygen.impl sha) r timeout now) h mem s) (hd : s.rest.done = false) : mem = mem₀ := by
  obtain ⟨t, _, S⟩ := hist_sim (Keygen.impl_stable sha) (keygen_lastOnly sha) hh
  rw [S.rest] at hd
  exact (S.live hd).1

theorem keygen_last (sha : Sha512) : ∀ r : Keygen.Round G, (Keygen.impl sha).nextRound r = none → r.stage = .r2 := by
  intro r h
  simp only [Keygen.impl] at h
  cases hs : r.stage <;> rw [hs] at h <;> first | rfl | cases h

/-- A key generation changes nothing but the shares in messages that it has accepted, it sets them to 0, and it does that when it ends. -/
theorem C116_frame_keygen (r : Keygen.Round G) (timeout now : Nat) (mem₀ mem : Ptr → Message G) (h : List (Pointers.Op × Ret G)) (s : PState G (Keygen.Round G))
    (hh : Pointers.Hist (Keygen.impl sha) keygenAfter mem₀ (Pointers.newBaseState (Keygen.impl sha) r timeout now) h mem s) (p : Ptr) :
    mem p = mem₀ p ∨ s.rest.done = true ∧ (Pointers.Op.handle p, Ret.handled none) ∈ h ∧ Spec.Erased (mem₀ p) (mem p) := by
  refine ((frame_hist (Keygen.impl_stable sha) (keygen_lastOnly sha) (keygen_last sha) hh).2 p).imp_right ?_
  rintro ⟨h1, h2, r', h3, h4⟩
  refine ⟨h1, h2, ?_⟩
  rw [h4]
  simp only [keygenAfter, h3]
  exact wipe_erased _

/-- Signing changes no message. -/
theorem C116_frame_sign (r : Sign.Round G) (timeout now : Nat) (mem₀ mem : Ptr → Message G) (h : List (Pointers.Op × Ret G)) (s : PState G (Sign.Round G))
    (hh : Pointers.Hist (Sign.impl sha) signAfter mem₀ (Pointers.newBaseState (Sign.impl sha) r timeout now) h mem s) : mem = mem₀ := by
  have hlast : ∀ r : Sign.Round G, (Sign.impl sha).nextRound r = none → r.stage = .r2 := by
    intro r h
    simp only [Sign.impl] at h
    cases hs : r.stage <;> rw [hs] at h <;> first | rfl | cases h
  funext p
  rcases (frame_hist (Sign.impl_stable sha) (sign_lastOnly sha) hlast hh).2 p with h | ⟨_, _, _, _, h⟩
  · exact h
  · exact h

/-- What has happened when a key generation has ended without error. -/
def Spec.SharesErased (self : ID) (ids : List ID) (t : Nat) (mem₀ mem : Ptr → Message G) (h : List (Pointers.Op × Ret G)) (o : Keygen.Output G) : Prop :=
  ∃ (f : List Scalar) (l : List (ID × Ptr)) (sk : SecretShare G), f.length = t + 1 ∧
    (∃ ord coins m k, (Pointers.Op.processAll ord coins, Ret.messages [m]) ∈ h ∧ m.keyGen1 = some k ∧ k.commitments = f.map (· • base)) ∧
    (l.map Prod.fst).Perm (ids.filter (· ≠ self)) ∧ o.secretKey = some sk ∧
    sk.secret = Spec.evalAt f self.val + (l.map fun e => Spec.share (mem₀ e.2)).sum ∧
    ∀ e ∈ l, (Pointers.Op.handle e.2, Ret.handled none) ∈ h ∧ (mem₀ e.2).header.fromID = e.1 ∧ (mem₀ e.2).header.type = 2 ∧ (mem₀ e.2).keyGen2 ≠ none ∧
      (mem e.2).keyGen2 = some ⟨0⟩

theorem sharesErased_final {r : Keygen.Round G} {self : ID} {ids : IDSlice} {t : UInt16} (hs : Keygen.Start r self ids t) {timeout now : Nat} {mem₀ mem mem' : Mem G}
    {h : List (Pointers.Op × Ret G)} {s s' : PState G (Keygen.Round G)} {entries : GoMap (Option Ptr)} {ord : MapOrder} {coins : Coins} {out : List (Message G)}
    (hh : Pointers.Hist (Keygen.impl sha) keygenAfter mem₀ (Pointers.newBaseState (Keygen.impl sha) r timeout now) h mem s)
    (hp : entries.Perm s.received) (he : viewMap mem entries = ord.order _ (viewMap mem s.received))
    (hpr : Pointers.processAll (Keygen.impl sha) keygenAfter entries ord coins mem s = some (mem', s', out))
    (hd : s.rest.done = false) (hd' : s'.rest.done = true) (he' : s'.rest.err = none) :
    Spec.SharesErased self ids t.toNat mem₀ mem' h s'.rest.round.output := by
  obtain ⟨hr, _, _, hc⟩ := hs.eq
  obtain ⟨u, hu, S⟩ := hist_sim (Keygen.impl_stable sha) (keygen_lastOnly sha) hh
  have I := inv_hist (Keygen.impl_stable sha) hu
  have hud : u.done = false := by rw [S.rest] at hd; exact hd
  have hround : u.round = s.rest.round := by rw [S.rest]; rfl
  obtain ⟨rfl, hrec, _⟩ := S.live hud
  have hn : s.rest.done = false → (ptrs s.received).Nodup := fun _ => ptrs_nodup (hrec ▸ I.wf) fun k m hm => (I.stored k m (hrec ▸ hm)).1
  obtain ⟨h1, h2, h3, r₁, r₂, out', h4, h5, h6⟩ := (processAll_frame (keygen_lastOnly sha) (keygen_last sha) hn hp hpr).success hd hd' he'
  have kept := (frame_hist (Keygen.impl_stable sha) (keygen_lastOnly sha) (keygen_last sha) hh).1
  have hrun := (Keygen.running hs hu).1 hud
  rw [hround] at hrun
  have hnum : u.roundNumber = 2 := by
    match hk : u.roundNumber, hrun with
    | 0, hrun => rw [show s.rest.round = r from hrun, hr] at h1; cases h1
    | 1, ⟨f, _, _, _, h⟩ => rw [h] at h1; cases h1
    | 2, _ => rfl
  rw [hnum] at hrun
  obtain ⟨f, l₁, g1, g2, g3, g4, g5, g6, g7, g8⟩ := hrun
  have hself : (Keygen.impl sha).selfID r = self := by rw [hr]; rfl
  have hids : (Keygen.impl sha).partyIDs r = ids := by rw [hr]; rfl
  have hfull : Full (Keygen.impl sha) u := by
    show u.received.length = _
    rw [hrec, viewMap_length, h2, hround]
  have R := State.ready (Keygen.impl_stable sha) hu (by rw [hids]; exact hs.nodup) (by rw [hids, hself]; exact IDSlice.contains_sound hc) hud hfull ord
  rw [hnum, hrec, ← he] at R
  obtain ⟨l, rfl⟩ : ∃ l : List (ID × Ptr), entries = l.map fun e => (e.1, some e.2) := by
    have : ∀ e ∈ entries, e.2 ≠ none := by
      rintro ⟨k, v⟩ hkv rfl
      obtain ⟨m, h, _⟩ := R.later (by omega) k none (List.mem_map.mpr ⟨_, hkv, rfl⟩)
      cases h
    clear hp he hpr h4 R
    induction entries with
    | nil => exact ⟨[], rfl⟩
    | cons e entries ih =>
      obtain ⟨l, rfl⟩ := ih fun e he => this e (List.mem_cons_of_mem _ he)
      obtain ⟨k, v⟩ := e
      cases v with
      | none => exact absurd rfl (this _ List.mem_cons_self)
      | some p => exact ⟨(k, p) :: l, rfl⟩
  have hview : viewMap mem (l.map fun e => (e.1, some e.2)) = l.map fun e => (e.1, some (mem e.2)) := by
    simp [viewMap, Function.comp_def]
  rw [hview] at h4 R
  rw [g8] at h4
  obtain ⟨v1, rfl⟩ := (Keygen.loop2 (r := Keygen.round2 r f l₁) rfl g1 fun k v hk => by
    obtain ⟨m, a, b, _⟩ := R.later (by omega) k v hk
    exact ⟨m, a, b⟩).mp h4
  have h5 : Keygen.generate2 _ = _ := h5
  obtain ⟨sum, shares, gk, _, _, _, _, _, rfl, _⟩ := Keygen.generate2_ok.mp h5
  obtain ⟨p, c, _, _, h6⟩ := Keygen.reset_eq.mp (show Keygen.reset _ = _ from h6)
  have hflen : f.length = t.toNat + 1 := by
    obtain ⟨_, coins, hf, _⟩ := g3
    rw [hf, Keygen.coinPoly_length, hr]
  refine ⟨f, l, SecretShare.new r.selfID (Spec.evalAt f r.selfID.val + (l.map fun e => Spec.share (mem e.2)).sum), hflen, ?_, ?_, ?_, ?_, ?_⟩
  · obtain ⟨ord, coins, _, hm⟩ := g3
    obtain ⟨⟨op, ret⟩, hx, hxe⟩ := List.mem_map.mp hm
    cases op <;> cases hxe
    exact ⟨_, _, _, _, hx, rfl, rfl⟩
  · have := R.keys
    rw [hself, hids, List.map_map] at this
    exact this
  · rw [h6]
    simp only [Keygen.round2, List.map_map]
    rfl
  · rw [show r.selfID = self from hself]; rfl
  · rintro ⟨k, q⟩ hq
    have hq' : (k, some (mem q)) ∈ l.map fun e => (e.1, some (mem e.2)) := List.mem_map.mpr ⟨_, hq, rfl⟩
    obtain ⟨m, a, b, c, _⟩ := R.later (by omega) k _ hq'
    cases a
    have hqr : q ∈ ptrs s.received := mem_ptrs.mpr ⟨k, hp.mem_iff.mp (List.mem_map.mpr ⟨_, hq, rfl⟩)⟩
    obtain ⟨m, kg, _, a, hkg, _⟩ := v1 k _ hq'
    cases a
    obtain ⟨r', hr', hw⟩ := h3 q hqr
    refine ⟨kept q (.inl hqr), b, ?_, by rw [hkg]; exact Option.some_ne_none _, ?_⟩
    · exact (Option.some.inj c).symm
    · rw [hw]
      simp only [keygenAfter, hr', wipe, hkg]
      rfl

/-- When a key generation has ended without error, the secret key is the own share plus one share from each of the others, and each of these is 0 now in the message in which it
arrived.  Partial: other messages may still have shares, see `C116_left_timeout` and `C116_left_duplicate`. -/
theorem C116_erased_partial (self : ID) (ids : IDSlice) (t : UInt16) (r : Keygen.Round G) (hr : Keygen.newRound self ids t = .ok r) (hnd : ids.Nodup) (timeout now : Nat)
    (mem₀ mem : Ptr → Message G) (h : List (Pointers.Op × Ret G)) (s : PState G (Keygen.Round G))
    (hh : Pointers.Hist (Keygen.impl sha) keygenAfter mem₀ (Pointers.newBaseState (Keygen.impl sha) r timeout now) h mem s)
    (hd : s.rest.done = true) (he : s.rest.err = none) : Spec.SharesErased self ids t.toNat mem₀ mem h s.rest.round.output := by
  induction hh with
  | nil => cases hd
  | snoc hh hs ih =>
    rename_i h mem s op ret mem' s'
    have mono : ∀ {mem o}, Spec.SharesErased self ids t.toNat mem₀ mem h o → Spec.SharesErased self ids t.toNat mem₀ mem (h ++ [(op, ret)]) o := by
      rintro mem o ⟨f, l, sk, a, ⟨ord, coins, m, k, b1, b2⟩, c, d, e, g⟩
      exact ⟨f, l, sk, a, ⟨ord, coins, m, k, List.mem_append_left _ b1, b2⟩, c, d, e, fun x hx => ⟨List.mem_append_left _ (g x hx).1, (g x hx).2⟩⟩
    refine mono ?_
    have timer : ∀ {o : State.Op G}, (o = .fire ∨ o = .callback ∨ ∃ dt, o = .advance dt) → timerStep (Keygen.impl sha) s o = some s' →
        s.rest.done = true ∧ s.rest.err = none ∧ s'.rest.round.output = s.rest.round.output := by
      intro o hop ho
      simp only [timerStep, Option.map_eq_some_iff] at ho
      obtain ⟨⟨x, ret⟩, hx, rfl⟩ := ho
      cases hdone : s.rest.done with
      | true =>
        obtain ⟨hf, _⟩ := C28_frozen (.snoc .nil hx) hdone
        simp only at he ⊢
        rw [hf] at he ⊢
        exact ⟨trivial, he, rfl⟩
      | false =>
        exfalso
        simp only at hd he
        rcases hop with rfl | rfl | ⟨dt, rfl⟩
        · simp only [State.step] at hx
          split at hx
          · split at hx <;> cases hx <;> rw [hdone] at hd <;> cases hd
          · cases hx; rw [hdone] at hd; cases hd
        · simp only [State.step] at hx
          split at hx
          · cases hx; rw [hdone] at hd; cases hd
          · obtain ⟨y, hy, hx⟩ := Option.map_eq_some_iff.mp hx
            cases hx
            exact reportError_err (by exact hdone) hy he
        · cases hx; rw [hdone] at hd; cases hd
    cases hs with
    | handle p =>
      obtain ⟨h1, h2, h3⟩ := handle_rest (impl := Keygen.impl sha) mem s p
      rw [h1] at hd
      rw [h2] at he
      rw [h3]
      exact ih hd he
    | processAll hp hv hpr =>
      cases hdone : s.rest.done with
      | false => exact sharesErased_final ⟨hr, hnd⟩ hh hp hv hpr hdone hd he
      | true =>
        unfold Pointers.processAll at hpr
        simp only [hdone, if_true, Option.some.injEq, Prod.mk.injEq] at hpr
        obtain ⟨rfl, rfl, _⟩ := hpr
        exact ih hdone he
    | advance h =>
      obtain ⟨h1, h2, h3⟩ := timer (.inr (.inr ⟨_, rfl⟩)) h
      rw [h3]
      exact ih h1 h2
    | fire h =>
      obtain ⟨h1, h2, h3⟩ := timer (.inl rfl) h
      rw [h3]
      exact ih h1 h2
    | callback h =>
      obtain ⟨h1, h2, h3⟩ := timer (.inr (.inl rfl)) h
      rw [h3]
      exact ih h1 h2

/-- A timeout erases nothing. -/
theorem C116_timeout_keeps (r : Keygen.Round G) (timeout now : Nat) (mem₀ mem mem' : Ptr → Message G) (h : List (Pointers.Op × Ret G)) (s s' : PState G (Keygen.Round G)) (ret : Ret G)
    (hh : Pointers.Hist (Keygen.impl sha) keygenAfter mem₀ (Pointers.newBaseState (Keygen.impl sha) r timeout now) h mem s) (hd : s.rest.done = false)
    (hs : Pointers.Step (Keygen.impl sha) keygenAfter mem s .callback ret mem' s') : mem' = mem₀ := by
  rw [← C116_unchanged r timeout now mem₀ mem h s hh hd]
  cases hs
  rfl

namespace Demo

/-- One event of a session that is handed pointers, the messages being processed in the order in which they were stored. -/
def stepPointers (mem : Mem Toy) (s : PState Toy (Keygen.Round Toy)) : Pointers.Op → Option (Mem Toy × PState Toy (Keygen.Round Toy) × Ret Toy)
  | .handle p => some (mem, (Pointers.handleMessage (Keygen.impl toySha) mem s p).1, .handled (Pointers.handleMessage (Keygen.impl toySha) mem s p).2)
  | .processAll _ coins => (Pointers.processAll (Keygen.impl toySha) keygenAfter s.received .insertion coins mem s).map fun x => (x.1, x.2.1, .messages x.2.2)
  | .advance dt => (timerStep (Keygen.impl toySha) s (.advance dt)).map fun s' => (mem, s', .nothing)
  | .fire => (timerStep (Keygen.impl toySha) s .fire).map fun s' => (mem, s', .nothing)
  | .callback => (timerStep (Keygen.impl toySha) s .callback).map fun s' => (mem, s', .nothing)

/-- The event with the order that `stepPointers` uses. -/
def inOrder : Pointers.Op → Pointers.Op
  | .processAll _ coins => .processAll .insertion coins
  | op => op

/-- Runs a session that is handed pointers. -/
def runPointers (mem : Mem Toy) (s : PState Toy (Keygen.Round Toy)) : List Pointers.Op → Option (Mem Toy × PState Toy (Keygen.Round Toy) × List (Pointers.Op × Ret Toy))
  | [] => some (mem, s, [])
  | op :: ops => match stepPointers mem s op with
    | none => none
    | some (mem', s', ret) => match runPointers mem' s' ops with
      | none => none
      | some (mem'', s'', h) => some (mem'', s'', (inOrder op, ret) :: h)

theorem hist_cons {mem₀ mem₁ mem : Mem Toy} {s₀ s₁ s : PState Toy (Keygen.Round Toy)} {op : Pointers.Op} {ret : Ret Toy} {h : List (Pointers.Op × Ret Toy)}
    (hs : Pointers.Step (Keygen.impl toySha) keygenAfter mem₀ s₀ op ret mem₁ s₁) (hh : Pointers.Hist (Keygen.impl toySha) keygenAfter mem₁ s₁ h mem s) :
    Pointers.Hist (Keygen.impl toySha) keygenAfter mem₀ s₀ ((op, ret) :: h) mem s := by
  induction hh with
  | nil => exact .snoc .nil hs
  | snoc _ hs' ih => exact .snoc ih hs'

theorem of_runPointers {mem₀ mem : Mem Toy} {s₀ s : PState Toy (Keygen.Round Toy)} {ops : List Pointers.Op} {h : List (Pointers.Op × Ret Toy)}
    (hr : runPointers mem₀ s₀ ops = some (mem, s, h)) : Pointers.Hist (Keygen.impl toySha) keygenAfter mem₀ s₀ h mem s := by
  induction ops generalizing mem₀ s₀ h with
  | nil => cases hr; exact .nil
  | cons op ops ih =>
    simp only [runPointers] at hr
    split at hr
    · cases hr
    rename_i mem₁ s₁ ret h1
    split at hr
    · cases hr
    rename_i mem₂ s₂ h₂ h2
    cases hr
    refine hist_cons ?_ (ih h2)
    cases op with
    | handle p => cases h1; exact .handle p
    | processAll ord coins =>
      obtain ⟨⟨a, b, c⟩, hx, h1⟩ := Option.map_eq_some_iff.mp h1
      cases h1
      exact .processAll (.refl _) rfl hx
    | advance dt =>
      simp only [stepPointers] at h1
      obtain ⟨x, hx, h1⟩ := Option.map_eq_some_iff.mp h1
      cases h1
      exact .advance hx
    | fire =>
      simp only [stepPointers] at h1
      obtain ⟨x, hx, h1⟩ := Option.map_eq_some_iff.mp h1
      cases h1
      exact .fire hx
    | callback =>
      simp only [stepPointers] at h1
      obtain ⟨x, hx, h1⟩ := Option.map_eq_some_iff.mp h1
      cases h1
      exact .callback hx

/-- The messages of `keygenOps`; the share of party 3 is there twice. -/
def messages : Mem Toy
  | 0 => Message.newKeyGen1 2 ⟨0, 1⟩ [Toy.of 7, Toy.of 8]
  | 1 => Message.newKeyGen1 3 ⟨0, 1⟩ [Toy.of 9, Toy.of 10]
  | 2 => Message.newKeyGen2 3 1 19
  | 3 => Message.newKeyGen2 3 1 19
  | _ => Message.newKeyGen2 2 1 15

theorem pointers_of_run (ops : List Pointers.Op) (p : Mem Toy → PState Toy (Keygen.Round Toy) → List (Pointers.Op × Ret Toy) → Bool)
    (h : ((runPointers messages (Pointers.newBaseState (Keygen.impl toySha) (round0 ids 1 1) 10 0) ops).map fun x => p x.1 x.2.1 x.2.2) = some true) :
    ∃ h mem s, Keygen.newRound 1 ids 1 = .ok (round0 ids 1 1) ∧
      Pointers.Hist (Keygen.impl toySha) keygenAfter messages (Pointers.newBaseState (Keygen.impl toySha) (round0 ids 1 1) 10 0) h mem s ∧ p mem s h = true := by
  obtain ⟨⟨mem, s, hist⟩, hx, hp⟩ := Option.map_eq_some_iff.mp h
  refine ⟨hist, mem, s, ?_, of_runPointers hx, hp⟩
  unfold Keygen.newRound Keygen.newBaseRound
  rw [Outcome.failIf_neg (by decide), Outcome.ok_bind, Outcome.failIf_neg (by decide), Outcome.ok_bind, Outcome.failIf_neg (by decide +kernel)]
  rfl

/-- Whether a message was handed over and accepted. -/
def tookPointer (p : Ptr) (h : List (Pointers.Op × Ret Toy)) : Bool := h.any fun x => match x with
  | (.handle q, .handled none) => decide (q = p)
  | _ => false

theorem mem_of_tookPointer {p : Ptr} {h : List (Pointers.Op × Ret Toy)} (ht : tookPointer p h = true) : (Pointers.Op.handle p, Ret.handled none) ∈ h := by
  obtain ⟨⟨op, ret⟩, hx, he⟩ := List.any_eq_true.mp ht
  split at he
  · rename_i hxe
    cases hxe
    rw [of_decide_eq_true he] at hx
    exact hx
  · cases he

end Demo

open Demo

/-- That no share stays in memory is refuted: a key generation that times out in the last round leaves the share it has received in the message. -/
theorem C116_left_timeout : ∃ (r : Keygen.Round Toy) (mem₀ mem : Ptr → Message Toy) (h : List (Pointers.Op × Ret Toy)) (s : PState Toy (Keygen.Round Toy)) (p : Ptr) (k : KeyGen2),
    Keygen.newRound 1 ids 1 = .ok r ∧ Pointers.Hist (Keygen.impl toySha) keygenAfter mem₀ (Pointers.newBaseState (Keygen.impl toySha) r 10 0) h mem s ∧
    s.rest.done = true ∧ s.rest.err = some ⟨0, 2, .timeout⟩ ∧ (Pointers.Op.handle p, Ret.handled none) ∈ h ∧ (mem p).keyGen2 = some k ∧ k.share ≠ 0 := by
  obtain ⟨h, mem, s, h1, h2, h3⟩ := pointers_of_run [.processAll .insertion (coins [5, 6, 7]), .handle 0, .handle 1, .processAll .insertion (coins []), .handle 2, .advance 10, .fire, .callback]
    (fun mem s h => decide (s.rest.done = true ∧ s.rest.err = some ⟨0, 2, .timeout⟩ ∧ tookPointer 2 h = true ∧ (mem 2).keyGen2 = some ⟨19⟩)) (by decide +kernel)
  simp only [decide_eq_true_eq] at h3
  exact ⟨_, _, mem, h, s, 2, ⟨19⟩, h1, h2, h3.1, h3.2.1, mem_of_tookPointer h3.2.2.1, h3.2.2.2, by decide +kernel⟩

/-- It is refuted for key generations that succeed, too: of two copies of a share that arrive in the round before, the session accepts both, and one of them stays. -/
theorem C116_left_duplicate : ∃ (r : Keygen.Round Toy) (mem₀ mem : Ptr → Message Toy) (h : List (Pointers.Op × Ret Toy)) (s : PState Toy (Keygen.Round Toy)) (p : Ptr) (k : KeyGen2),
    Keygen.newRound 1 ids 1 = .ok r ∧ Pointers.Hist (Keygen.impl toySha) keygenAfter mem₀ (Pointers.newBaseState (Keygen.impl toySha) r 10 0) h mem s ∧
    s.rest.done = true ∧ s.rest.err = none ∧ (Pointers.Op.handle p, Ret.handled none) ∈ h ∧ (mem p).keyGen2 = some k ∧ k.share ≠ 0 := by
  obtain ⟨h, mem, s, h1, h2, h3⟩ := pointers_of_run [.processAll .insertion (coins [5, 6, 7]), .handle 0, .handle 2, .handle 3, .handle 1, .processAll .insertion (coins []), .handle 4,
      .processAll .insertion (coins [])]
    (fun mem s h => decide (s.rest.done = true ∧ s.rest.err = none ∧ tookPointer 2 h = true ∧ (mem 2).keyGen2 = some ⟨19⟩)) (by decide +kernel)
  simp only [decide_eq_true_eq] at h3
  exact ⟨_, _, mem, h, s, 2, ⟨19⟩, h1, h2, h3.1, h3.2.1, mem_of_tookPointer h3.2.2.1, h3.2.2.2, by decide +kernel⟩

end Verif.Props
