import Verif.Props.Demo
import Verif.Lemmas.Heap

/-!
C63: what a message handed out by key generation shows later, and where the model by value may stand in for the pointers.
-/

namespace Verif.Props

open State KeygenHeap

variable {G : Type} [RGroup G]

/-- C12: `Add` in memory, where the coefficients are pointers: it does what the model by value says, an error changes nothing, and no other element
changes. -/
theorem C12_memory (h : Heap G) (ps qs : List Addr) (hnd : ps.Nodup) (hdisj : ∀ p ∈ ps, p ∉ qs) :
    (∀ r, Exponent.add (h.read ps) (h.read qs) = .ok r → (h.add ps qs).read ps = r) ∧
    (∀ e, Exponent.add (h.read ps) (h.read qs) = .err e → h.add ps qs = h) ∧
    ∀ a, a ∉ ps → (h.add ps qs).cell a = h.cell a := by
  have l : ∀ l : List Addr, (h.read l).length = l.length := fun l => List.length_map _
  refine ⟨fun r hr => ?_, fun e he => ?_, fun a ha => Heap.cell_add_other h qs ha⟩
  · unfold Exponent.add at hr
    rw [l, l] at hr
    split at hr
    · cases hr
    · rename_i hl
      cases hr
      unfold Heap.add
      rw [if_neg hl]
      exact Heap.read_addLoop h (not_not.mp hl) hnd hdisj
  · unfold Exponent.add at he
    rw [l, l] at he
    split at he
    · rename_i hl
      unfold Heap.add
      rw [if_pos hl]
    · cases he

/-- C12: adding an exponent to itself doubles it, although it is read while it is written. -/
theorem C12_memory_self (h : Heap G) (ps : List Addr) (hnd : ps.Nodup) :
    (h.add ps ps).read ps = (h.read ps).map fun x => x + x := by
  unfold Heap.add
  rw [if_neg (fun h => h rfl)]
  exact Heap.read_addLoop_self h hnd

section

variable {α β γ ε M R : Type}

/-- A value with `Q`, an error leaving an object with `E`, or a panic. -/
def Post (Q : α → Prop) (E : γ → Prop) : Outcome (ε × γ) α → Prop
  | .ok a => Q a
  | .err (_, r) => E r
  | .panic => True

theorem post_bind {Q : α → Prop} {Q' : β → Prop} {E : γ → Prop} {x : Outcome (ε × γ) α} {f : α → Outcome (ε × γ) β} (h : Post Q E x)
    (hf : ∀ a, Q a → Post Q' E (f a)) : Post Q' E (x >>= f) := by
  cases x with
  | ok a => exact hf a h
  | err e => exact h
  | panic => trivial

theorem post_deref {E : γ → Prop} (x : Option α) : Post (fun _ => True) E (Outcome.deref x : Outcome (ε × γ) α) := by
  cases x <;> trivial

theorem post_lift {E : KeygenHeap.Round G → Prop} {r : KeygenHeap.Round G} (h : E r) (x : GoRes α) : Post (fun _ => True) E (KeygenHeap.lift r x) := by
  cases x <;> first | trivial | exact h

/-- `Q` holds of the round while the session runs, `E` once it has ended. -/
structure RoundInv (impl : RoundImpl M R) (Q E : R → Prop) : Prop where
  process : ∀ r m, Q r → Post Q Q (impl.processMessage r m)
  generate : ∀ r ord coins, Q r → Post (fun x => Q x.1) Q (impl.generateMessages ord coins r)
  next : ∀ r r', Q r → impl.nextRound r = some r' → Q r'
  reset : ∀ r r', Q r → impl.reset r = some r' → E r'

theorem RoundInv.loop {impl : RoundImpl M R} {Q E : R → Prop} (hi : RoundInv impl Q E) {l : List (ID × Option (Message M))} {r : R} (hq : Q r) :
    Post Q Q (processLoop impl l r) := by
  induction l generalizing r with
  | nil => exact hq
  | cons x l ih =>
    obtain ⟨k, m⟩ := x
    have h1 := hi.process r m hq
    unfold processLoop
    revert h1
    cases impl.processMessage r m with
    | ok r₁ => exact fun h => ih h
    | err x => exact fun h => h
    | panic => exact fun h => h

theorem RoundInv.hist {impl : RoundImpl M R} {Q E : R → Prop} (hi : RoundInv impl Q E) {s s' : State M R} {h : List (Op M × Ret M)}
    (hh : Hist impl s h s') (hs : (s.done = false → Q s.round) ∧ (s.done = true → E s.round)) :
    (s'.done = false → Q s'.round) ∧ (s'.done = true → E s'.round) := by
  induction hh with
  | nil => exact hs
  | snoc _ hst ih =>
    rename_i s₁ s₂ op ret hh
    have hloop : ∀ l, s₁.done = false → Post Q Q (processLoop impl l s₁.round) := fun l hd => hi.loop (ih.1 hd)
    rcases step_cases hst with ⟨m, e, rfl, rfl, h1⟩ | ⟨ord, coins, out, rfl, rfl, h1⟩ | ⟨dt, rfl, rfl, rfl⟩ | ⟨rfl, rfl, rfl | ⟨t, _, _, rfl⟩⟩ |
      ⟨rfl, rfl, ⟨_, rfl⟩ | ⟨_, _, rfl⟩ | ⟨r, _, hd, _, hr, rfl⟩⟩
    · rcases handle_cases impl h1 <;> exact ih
    · cases h1 with
      | idle => exact ih
      | processErr e r r' hd hf hp hr =>
        have h1 := hloop (ord.order _ s₁.received) hd
        rw [hp] at h1
        exact ⟨fun h => (nomatch h), fun _ => hi.reset _ _ h1 hr⟩
      | generateErr e r₁ r r' hd hf hp hg hr =>
        have h1 := hloop (ord.order _ s₁.received) hd
        rw [hp] at h1
        have h2 := hi.generate r₁ ord coins h1
        rw [hg] at h2
        exact ⟨fun h => (nomatch h), fun _ => hi.reset _ _ h2 hr⟩
      | last t types r₁ r r' _ hd hf hp hg ht hn hr =>
        have h1 := hloop (ord.order _ s₁.received) hd
        rw [hp] at h1
        have h2 := hi.generate r₁ ord coins h1
        rw [hg] at h2
        exact ⟨fun h => (nomatch h), fun _ => hi.reset _ _ h2 hr⟩
      | next t types r₁ r r' _ hd hf hp hg ht hn =>
        have h1 := hloop (ord.order _ s₁.received) hd
        rw [hp] at h1
        have h2 := hi.generate r₁ ord coins h1
        rw [hg] at h2
        exact ⟨fun _ => hi.next _ _ h2 hn, fun h => by have h : s₁.done = true := h; rw [hd] at h; cases h⟩
    · exact ih
    · exact ih
    · exact ih
    · exact ih
    · exact ih
    · exact ⟨fun h => (nomatch h), fun _ => hi.reset _ _ (ih.1 hd) hr⟩

end

/-- While the session runs after round 0, `CommitmentsSum` is the pointer `ps`; when it has ended, the cells hold zero. -/
theorem sum_inv (sha : Sha512) (ps : Exponent Addr) : RoundInv (KeygenHeap.impl sha : RoundImpl Addr (KeygenHeap.Round G))
    (fun r => r.stage ≠ .r0 ∧ r.commitmentsSum = some ps) (fun r => r.commitmentsSum = some ps ∧ ∀ p ∈ ps, r.heap.cell p = 0) where
  process r m hq := by
    simp only [KeygenHeap.impl]
    split
    · exact hq
    · unfold KeygenHeap.process1
      refine post_bind (post_deref _) fun m _ => post_bind (post_deref _) fun k _ => post_bind (post_lift hq _) fun _ _ => post_bind (post_lift hq _) fun _ _ => ?_
      split
      · exact hq
      · exact post_bind (post_deref _) fun _ _ => hq
    · unfold KeygenHeap.process2
      refine post_bind (post_deref _) fun m _ => post_bind (post_deref _) fun k _ => post_bind (post_deref _) fun _ _ => post_bind (post_lift hq _) fun _ _ =>
        post_bind (post_lift hq _) fun _ _ => ?_
      split
      · exact hq
      · exact hq
  generate r ord coins hq := by
    simp only [KeygenHeap.impl]
    split
    · rename_i h; exact absurd h hq.1
    · unfold KeygenHeap.generate1
      exact post_bind (post_deref _) fun _ _ => post_bind (post_lift hq _) fun _ _ => hq
    · unfold KeygenHeap.generate2
      refine post_bind (post_deref _) fun _ _ => post_bind (post_lift hq _) fun _ _ => post_bind (post_lift hq _) fun _ _ => ?_
      split
      · trivial
      · exact hq
  next r r' hq hn := by
    simp only [KeygenHeap.impl] at hn
    split at hn <;> cases hn
    · exact ⟨by simp, hq.2⟩
    · exact ⟨by simp, hq.2⟩
  reset r r' hq hn := by
    simp only [KeygenHeap.impl, KeygenHeap.reset, hq.2] at hn
    cases hp : r.polynomial with
    | none => rw [hp] at hn; cases hn
    | some p =>
      rw [hp] at hn
      simp only [Option.bind_eq_bind, Option.bind_some, Option.some.injEq] at hn
      subst hn
      refine ⟨rfl, fun q hq => ?_⟩
      simp only [Heap.cell_resetLoop, Heap.cell_reset, if_pos hq, ite_self]

/-- Only round 0 hands out a message with commitments, and they are the pointers the session goes on to use. -/
theorem made (sha : Sha512) (ord : MapOrder) (coins : Coins) (r : KeygenHeap.Round G) :
    Post (fun x => ∀ m ∈ x.2, m.sign1 = none ∧ ∀ k, m.keyGen1 = some k → x.1.stage = .r0 ∧ x.1.commitmentsSum = some k.commitments) (fun _ => True)
      ((KeygenHeap.impl sha).generateMessages ord coins r) := by
  simp only [KeygenHeap.impl]
  split
  · rename_i h0
    unfold KeygenHeap.generate0
    refine post_bind (post_lift trivial _) fun _ _ => post_bind (post_lift trivial _) fun _ _ => post_bind (post_lift trivial _) fun _ _ =>
      post_bind (post_lift trivial _) fun _ _ => post_bind (post_lift trivial _) fun _ _ => ?_
    intro m h
    rcases List.mem_singleton.mp h with rfl
    exact ⟨rfl, fun k hk => by cases hk; exact ⟨h0, rfl⟩⟩
  · unfold KeygenHeap.generate1
    refine post_bind (post_deref _) fun poly _ => post_bind (Q := fun o => ∀ m ∈ o, m.sign1 = none ∧ m.keyGen1 = none) ?_ fun o ho m h =>
      ⟨(ho m h).1, fun k hk => by rw [(ho m h).2] at hk; cases hk⟩
    have : ∀ ids o, KeygenHeap.generate1Loop r.selfID poly ids = .ok o → ∀ m ∈ o, m.sign1 = none ∧ m.keyGen1 = none := by
      intro ids
      induction ids with
      | nil => intro o h; cases h; intro m hm; cases hm
      | cons id ids ih =>
        intro o h
        unfold KeygenHeap.generate1Loop at h
        split at h
        · exact ih o h
        · simp only [Outcome.bind_eq_ok, Outcome.pure_def, Outcome.ok.injEq] at h
          obtain ⟨x, _, sh, _, rest, h3, rfl⟩ := h
          intro m hm
          rcases List.mem_cons.mp hm with rfl | hm
          · exact ⟨rfl, rfl⟩
          · exact ih rest h3 m hm
    cases hx : KeygenHeap.generate1Loop r.selfID poly r.partyIDs with
    | ok o => exact this _ o hx
    | err e => trivial
    | panic => trivial
  · unfold KeygenHeap.generate2
    refine post_bind (post_deref _) fun _ _ => post_bind (post_lift trivial _) fun _ _ => post_bind (post_lift trivial _) fun _ _ => ?_
    split
    · trivial
    · intro m h; cases h

theorem made_step {sha : Sha512} {s s' : State Addr (KeygenHeap.Round G)} {op : Op Addr} {out : List (Message Addr)} {m : Message Addr}
    (hs : step (KeygenHeap.impl sha) s op = some (s', .messages out)) (hm : m ∈ out) :
    m.sign1 = none ∧ ∀ k, m.keyGen1 = some k → s'.done = false ∧ s'.round.stage ≠ .r0 ∧ s'.round.commitmentsSum = some k.commitments := by
  rcases step_cases hs with ⟨_, _, _, h, _⟩ | ⟨ord, coins, out, rfl, h, h1⟩ | ⟨_, _, h, _⟩ | ⟨_, h, _⟩ | ⟨_, h, _⟩ <;> cases h
  cases h1 with
  | idle => cases hm
  | processErr => cases hm
  | generateErr => cases hm
  | last t types r₁ r r' _ hd hf hp hg ht hn hr =>
    have h2 := made sha ord coins r₁
    rw [hg] at h2
    obtain ⟨h3, h4⟩ := h2 m hm
    refine ⟨h3, fun k hk => ?_⟩
    have h5 : r.stage = .r0 := (h4 k hk).1
    simp only [KeygenHeap.impl, h5] at hn
    cases hn
  | next t types r₁ r r' _ hd hf hp hg ht hn =>
    have h2 := made sha ord coins r₁
    rw [hg] at h2
    obtain ⟨h3, h4⟩ := h2 m hm
    refine ⟨h3, fun k hk => ?_⟩
    have h5 : r.stage = .r0 := (h4 k hk).1
    simp only [KeygenHeap.impl, h5, Option.some.injEq] at hn
    subst hn
    exact ⟨hd, by simp, (h4 k hk).2⟩

theorem keyGen1_shared {sha : Sha512} {s s' : State Addr (KeygenHeap.Round G)} {op : Op Addr} {out : List (Message Addr)} {m : Message Addr} {k : KeyGen1 Addr}
    (hs : step (KeygenHeap.impl sha) s op = some (s', .messages out)) (hm : m ∈ out) (hk : m.keyGen1 = some k) :
    s'.done = false ∧ s'.round.stage ≠ .r0 ∧ s'.round.commitmentsSum = some k.commitments := (made_step hs hm).2 k hk

/-- C63 is false for the first message of key generation: at every later time it shows the current value of the running sum of all
parties' commitments, because the message and the session share memory. -/
theorem C63_keygen1_shows_sum (sha : Sha512) {s s' t : State Addr (KeygenHeap.Round G)} {op : Op Addr} {out : List (Message Addr)} {m : Message Addr} {k : KeyGen1 Addr}
    {h : List (Op Addr × Ret Addr)} (hs : step (KeygenHeap.impl sha) s op = some (s', .messages out)) (hm : m ∈ out) (hk : m.keyGen1 = some k)
    (hh : Hist (KeygenHeap.impl sha) s' h t) : (t.round.heap.deref m).keyGen1 = (view t.round).commitmentsSum.map fun c => ⟨k.proof, c⟩ := by
  obtain ⟨h1, h2, h3⟩ := keyGen1_shared hs hm hk
  have h4 := (sum_inv sha k.commitments).hist hh ⟨fun _ => ⟨h2, h3⟩, fun h => by rw [h1] at h; cases h⟩
  have h5 : t.round.commitmentsSum = some k.commitments := by
    cases hd : t.done with
    | false => exact (h4.1 hd).2
    | true => exact (h4.2 hd).1
  simp only [Heap.deref, hk, view, h5, Option.map_some]

/-- Once the session has ended, in whatever way, that message holds commitments to the zero polynomial. -/
theorem C63_keygen1_zeroed (sha : Sha512) {s s' t : State Addr (KeygenHeap.Round G)} {op : Op Addr} {out : List (Message Addr)} {m : Message Addr} {k : KeyGen1 Addr}
    {h : List (Op Addr × Ret Addr)} (hs : step (KeygenHeap.impl sha) s op = some (s', .messages out)) (hm : m ∈ out) (hk : m.keyGen1 = some k)
    (hh : Hist (KeygenHeap.impl sha) s' h t) (hd : t.done = true) :
    (t.round.heap.deref m).keyGen1 = some ⟨k.proof, List.replicate k.commitments.length 0⟩ := by
  obtain ⟨h1, h2, h3⟩ := keyGen1_shared hs hm hk
  have h4 := ((sum_inv sha k.commitments).hist hh ⟨fun _ => ⟨h2, h3⟩, fun h => by rw [h1] at h; cases h⟩).2 hd
  simp only [Heap.deref, hk, Option.map_some, Heap.read, Option.some.injEq, KeyGen1.mk.injEq, true_and]
  exact List.map_eq_replicate_iff.mpr h4.2

/-- What C63 says holds until the next call of `ProcessAll` or the time-out: delivering messages and the passing of time change
nothing.  (Missing: it fails for the first message of key generation after that.) -/
theorem C63_until_next_call_partial (sha : Sha512) {s t : State Addr (KeygenHeap.Round G)} {h : List (Op Addr × Ret Addr)} (hh : Hist (KeygenHeap.impl sha) s h t)
    (hq : ∀ x ∈ h, (∀ ord coins, x.1 ≠ .processAll ord coins) ∧ x.1 ≠ .callback) (m : Message Addr) : t.round.heap.deref m = s.round.heap.deref m := by
  induction hh with
  | nil => rfl
  | snoc hh hst ih =>
    rename_i s₁ s₂ op ret
    rw [← ih fun x hx => hq x (List.mem_append_left _ hx)]
    have h1 := hq (op, ret) (List.mem_append_right _ (List.mem_singleton_self _))
    rcases step_cases hst with ⟨m, e, rfl, rfl, h2⟩ | ⟨ord, coins, out, rfl, rfl, _⟩ | ⟨dt, rfl, rfl, rfl⟩ | ⟨rfl, rfl, rfl | ⟨t, _, _, rfl⟩⟩ | ⟨rfl, _⟩
    · cases handle_cases _ h2 <;> rfl
    · exact absurd rfl (h1.1 ord coins)
    · rfl
    · rfl
    · rfl
    · exact absurd rfl h1.2

/-- Every other message of key generation, that is the second one, keeps its content whatever happens to the memory. -/
theorem C63_keygen2_keeps (sha : Sha512) {s s' : State Addr (KeygenHeap.Round G)} {op : Op Addr} {out : List (Message Addr)} {m : Message Addr}
    (hs : step (KeygenHeap.impl sha) s op = some (s', .messages out)) (hm : m ∈ out) (hk : m.keyGen1 = none) (t : Heap G) :
    t.deref m = s'.round.heap.deref m := by
  have h1 := (made_step hs hm).1
  exact Heap.deref_congr (fun k h => by rw [hk] at h; cases h) (fun k h => by rw [h1] at h; cases h)

/-- Where the pointers do not matter: a session is a session of the model by value (`Verif/Model/Keygen.lean`), call for call, crash
for crash, as long as the messages it is given point to memory that was in use before the session started (so not to anything the
session handed out).  The messages a call returns have the content the model by value says at the time of the call. -/
theorem C63_keygen_by_value (sha : Sha512) (heap : Heap G) {self : ID} {ids : IDSlice} {t : UInt16} {timeout now : Nat} {s₀ s : State Addr (KeygenHeap.Round G)}
    {h : List (Op Addr × Ret Addr)} (h0 : KeygenHeap.newKeygenState sha heap self ids t timeout now = .ok s₀) (hh : Hist (KeygenHeap.impl sha) s₀ h s)
    (hold : ∀ m r, (Op.handle m, r) ∈ h → ∀ k, m.keyGen1 = some k → ∀ p ∈ k.commitments, p < heap.next) :
    ∃ (u₀ u : State G (Keygen.Round G)) (h' : List (Op G × Ret G)), Keygen.newKeygenState sha self ids t timeout now = .ok u₀ ∧ Hist (Keygen.impl sha) u₀ h' u ∧
      h'.length = h.length ∧ u.round = view s.round ∧ u.done = s.done ∧ u.err = s.err ∧
      ∀ op, (∀ m, op = .handle m → ∀ k, m.keyGen1 = some k → ∀ p ∈ k.commitments, p < heap.next) → ∃ op',
        SameOp heap.deref s u op op' ∧ match step (KeygenHeap.impl sha) s op, step (Keygen.impl sha) u op' with
          | some (s', .messages o), some (u', r) => u'.round = view s'.round ∧ r = .messages (o.map s'.round.heap.deref)
          | some (s', .handled e), some (u', r) => u'.round = view s'.round ∧ r = .handled e
          | some (s', .nothing), some (u', r) => u'.round = view s'.round ∧ r = .nothing
          | none, none => True
          | _, _ => False := by
  have hsim := KeygenHeap.sim sha heap (G := G)
  have hround : ∀ {s : State Addr (KeygenHeap.Round G)} {u : State G (Keygen.Round G)}, SimState heap.deref (Older heap) (KeygenHeap.Rel heap) KeygenHeap.End s u →
      u.round = view s.round := by
    intro s u h
    cases hd : s.done with
    | false => exact (h.live hd).1
    | true => exact h.ended hd
  have hinit : ∃ u₀, Keygen.newKeygenState sha self ids t timeout now = .ok u₀ ∧ SimState heap.deref (Older heap) (KeygenHeap.Rel heap) KeygenHeap.End s₀ u₀ := by
    unfold KeygenHeap.newKeygenState KeygenHeap.newRound at h0
    unfold Keygen.newKeygenState Keygen.newRound
    simp only [Outcome.bind_eq_ok, Outcome.failIf_eq_ok, Outcome.pure_def, Outcome.ok.injEq] at h0 ⊢
    obtain ⟨r, ⟨_, a1, _, a2, _, a3, rfl⟩, rfl⟩ := h0
    refine ⟨_, ⟨_, ⟨(), a1, (), a2, _, a3, rfl⟩, rfl⟩, ?_⟩
    refine ⟨rfl, ?_, rfl, rfl, rfl, rfl, rfl, rfl, fun _ => ⟨rfl, le_refl _, fun _ _ => rfl, fun ps h => (nomatch h), fun e h => (nomatch h)⟩,
      fun h => (nomatch h), wf_initReceived _ _ _ GoMap.wf_nil, ?_, fun m h => (nomatch h)⟩
    · have hn := initReceived_none (G := Addr) self ids [] (fun k v h => (nomatch h))
      have : ∀ (l : List ID) (acc : GoMap (Option (Message Addr))), (∀ k v, (k, v) ∈ acc → v = none) →
          (initReceived self l (acc.map fun e => (e.1, e.2.map heap.deref)) : GoMap (Option (Message G))) = (initReceived self l acc).map fun e => (e.1, e.2.map heap.deref) := by
        intro l
        induction l with
        | nil => intro acc _; rfl
        | cons a l ih =>
          intro acc hacc
          unfold initReceived
          split
          · rw [← ih _ (fun k v h => by rcases mem_set_cases h with ⟨_, h⟩ | h; exacts [h, hacc k v h])]
            congr 1
            exact set_mapped acc (Option.map heap.deref) a none
          · exact ih _ hacc
      exact this ids [] (fun k v h => (nomatch h))
    · intro k m hm
      cases initReceived_none (G := Addr) self ids [] (fun k v h => (nomatch h)) k _ hm
  obtain ⟨u₀, hu₀, hst₀⟩ := hinit
  have hrun : ∃ u h', Hist (Keygen.impl sha) u₀ h' u ∧ h'.length = h.length ∧ SimState heap.deref (Older heap) (KeygenHeap.Rel heap) KeygenHeap.End s u := by
    clear h0 hu₀
    induction hh with
    | nil => exact ⟨u₀, [], .nil, rfl, hst₀⟩
    | snoc hh hst ih =>
      rename_i s₁ s₂ op ret
      obtain ⟨u, h', g1, g2, g3⟩ := ih (fun m r hm => hold m r (List.mem_append_left _ hm))
      obtain ⟨op', ho⟩ := exists_sameOp g3 op
      have hP : ∀ m, op = .handle m → Older heap m := by
        rintro m rfl
        exact hold m ret (List.mem_append_right _ (List.mem_singleton_self _))
      have := step_sim hsim g3 ho hP
      rw [hst] at this
      cases hu : step (Keygen.impl sha) u op' with
      | none => rw [hu] at this; exact this.elim
      | some x =>
        rw [hu] at this
        exact ⟨x.1, h' ++ [(op', x.2)], .snoc g1 hu, by simp [g2], this.1⟩
  obtain ⟨u, h', g1, g2, g3⟩ := hrun
  refine ⟨u₀, u, h', hu₀, g1, g2, hround g3, g3.done, g3.err, fun op hop => ?_⟩
  obtain ⟨op', ho⟩ := exists_sameOp g3 op
  refine ⟨op', ho, ?_⟩
  have hstep := step_sim hsim g3 ho hop
  revert hstep
  rcases step (KeygenHeap.impl sha) s op with _ | ⟨s', r⟩
  · rcases step (Keygen.impl sha) u op' with _ | ⟨u', r'⟩
    · exact fun _ => trivial
    · exact fun h => h.elim
  · rcases step (Keygen.impl sha) u op' with _ | ⟨u', r'⟩
    · exact fun h => h.elim
    · rintro ⟨h1, h2⟩
      have h1 := hround h1
      cases r with
      | messages o => cases r' with
        | messages o' => exact ⟨h1, congrArg _ h2⟩
        | _ => exact h2.elim
      | handled e => cases r' with
        | handled e' => exact ⟨h1, congrArg _ h2⟩
        | _ => exact h2.elim
      | nothing => cases r' with
        | nothing => exact ⟨h1, rfl⟩
        | _ => exact h2.elim

/-! ### A concrete session -/

namespace HeapDemo

open Demo

/-- Memory with the commitments of parties 2 and 3 at addresses 0 to 3. -/
def heap : Heap Toy where
  cell a := Toy.of (([7, 8, 9, 10] : List Scalar).getD a 0)
  next := 4

def start : State Addr (KeygenHeap.Round Toy) := newBaseState (KeygenHeap.impl toySha)
  { stage := .r0, selfID := 1, partyIDs := ids, threshold := 1, secret := 0, polynomial := none, commitmentsSum := none, commitments := [],
    hasOutput := true, output := {}, heap } 10 0

theorem start_ok : KeygenHeap.newKeygenState toySha heap 1 ids 1 10 0 = .ok start := by
  unfold KeygenHeap.newKeygenState KeygenHeap.newRound Keygen.newBaseRound
  rw [Outcome.failIf_neg (by decide), Outcome.ok_bind, Outcome.failIf_neg (by decide), Outcome.ok_bind, Outcome.failIf_neg (by decide +kernel)]
  rfl

def ops : List (Op Addr) :=
  [.handle (Message.newKeyGen1 2 ⟨0, 1⟩ [0, 1]), .handle (Message.newKeyGen1 3 ⟨0, 1⟩ [2, 3]), .processAll .insertion (coins [])]

/-- The message party 1 hands out, with pointers to addresses 4 and 5. -/
def mine : Message Addr := Message.newKeyGen1 1 ⟨0, 7⟩ [4, 5]

/-- Whether the call handed out just `mine`. -/
def isMine : Ret Addr → Bool
  | .messages [m] => decide (m = mine)
  | _ => false

theorem eq_of_isMine {r : Ret Addr} (h : isMine r = true) : r = .messages [mine] := by
  unfold isMine at h
  split at h
  · rw [of_decide_eq_true h]
  · cases h

end HeapDemo

open HeapDemo Demo in
/-- C63 is refuted: the message marshals to other bytes after the next call of `ProcessAll`, in a session that runs as it should. -/
theorem C63_keygen1_refuted : ∃ (s t : State Addr (KeygenHeap.Round Toy)) (h : List (Op Addr × Ret Addr)),
    KeygenHeap.newKeygenState toySha HeapDemo.heap 1 ids 1 10 0 = .ok start ∧
    step (KeygenHeap.impl toySha) start (.processAll .insertion (coins [5, 6, 7])) = some (s, .messages [mine]) ∧
    Hist (KeygenHeap.impl toySha) s h t ∧ h.length = 3 ∧ t.done = false ∧
    (s.round.heap.deref mine).keyGen1 = some ⟨⟨0, 7⟩, [Toy.of 5, Toy.of 6]⟩ ∧ (t.round.heap.deref mine).keyGen1 = some ⟨⟨0, 7⟩, [Toy.of 21, Toy.of 24]⟩ ∧
    Message.marshalBinary (s.round.heap.deref mine) ≠ Message.marshalBinary (t.round.heap.deref mine) := by
  have key : ((step (KeygenHeap.impl toySha) start (.processAll .insertion (coins [5, 6, 7]))).bind fun x =>
      (run (KeygenHeap.impl toySha) x.1 HeapDemo.ops).map fun y => isMine x.2 && decide (y.1.length = 3 ∧ y.2.done = false ∧
        (x.1.round.heap.deref mine).keyGen1 = some ⟨⟨0, 7⟩, [Toy.of 5, Toy.of 6]⟩ ∧ (y.2.round.heap.deref mine).keyGen1 = some ⟨⟨0, 7⟩, [Toy.of 21, Toy.of 24]⟩ ∧
        Message.marshalBinary (x.1.round.heap.deref mine) ≠ Message.marshalBinary (y.2.round.heap.deref mine))) = some true := by decide +kernel
  rw [Option.bind_eq_some_iff] at key
  obtain ⟨⟨s, r⟩, h1, h2⟩ := key
  rw [Option.map_eq_some_iff] at h2
  obtain ⟨⟨h, t⟩, h3, h4⟩ := h2
  rw [Bool.and_eq_true, decide_eq_true_eq] at h4
  have hr : r = .messages [mine] := eq_of_isMine h4.1
  rw [hr] at h1
  exact ⟨s, t, h, start_ok, h1, run_hist h3, h4.2⟩

end Verif.Props
