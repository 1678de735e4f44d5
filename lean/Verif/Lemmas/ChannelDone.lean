import Verif.Lemmas.ChannelEnd

/-!
Parties connected by channels: some execution finishes, and with two parties every execution does.
-/

namespace Verif.Chan

open State Spec

variable {G R : Type} [RGroup G]

section

variable {impl : RoundImpl G R} {ids : IDSlice} {r₀ : ID → R} {coins : ID → Coins} {M : Nat → ID → ID → Message G}
  {out : ID → Nat → List (Message G)} {Good : ID → Nat → R → Prop} {timeout now : ID → Nat} {N : Net G R} {tys : List MsgType}
  {init : ID → State G R} {S S' : Sys G R}

/-- All pending sends of some parties get done. -/
theorem Run.flushAll (P : Protocol impl ids r₀ coins M out Good tys timeout now init) (r : Run impl ids coins M init S N) (l : List ID)
    (hl : ∀ k ∈ l, k ∈ ids) (hnd : l.Nodup) :
    ∃ S', Steps impl ids coins S S' ∧ Run impl ids coins M init S' N ∧ (∀ k, (S' k).started = (S k).started ∧ (S' k).exited = (S k).exited) ∧
      (∀ k ∈ l, (S' k).outbox = []) ∧ (∀ k, k ∉ l → (S' k).outbox = (S k).outbox) ∧
      ∀ k, pipe (S' k) = pipe (S k) ++ l.flatMap fun i => boxTo (S i).outbox k := by
  induction l generalizing S with
  | nil => exact ⟨S, .refl S, r, fun k => ⟨rfl, rfl⟩, fun k hk => absurd hk List.not_mem_nil, fun _ _ => rfl, fun k => by simp⟩
  | cons i l ih =>
    rw [List.nodup_cons] at hnd
    obtain ⟨S₁, p1, r1, h1, h2, h3, h4⟩ := r.flush P (hl i List.mem_cons_self)
    obtain ⟨S₂, p2, r2, g1, g2, g3, g4⟩ := ih r1 (fun k hk => hl k (List.mem_cons_of_mem _ hk)) hnd.2
    refine ⟨S₂, p1.trans p2, r2, fun k => ⟨(g1 k).1.trans (h1 k).2.1, (g1 k).2.trans (h1 k).2.2⟩, ?_, ?_, ?_⟩
    · intro k hk
      rcases List.mem_cons.mp hk with rfl | hk
      · rw [g3 k hnd.1, h2]
      · exact g2 k hk
    · intro k hk
      rw [List.mem_cons, not_or] at hk
      rw [g3 k hk.2, h3 k hk.1]
    · intro k
      rw [g4 k, h4 k, List.flatMap_cons, List.append_assoc]
      congr 2
      refine List.flatMap_congr fun a ha => ?_
      rw [h3 a fun h => hnd.1 (h ▸ ha)]

/-- A party that is at the start of a round, has nothing left to read, and is about to send its messages of the round before. -/
structure Ready (ids : List ID) (M : Nat → ID → ID → Message G) (n : Nat) (k : ID) (S : Sys G R) (N : Net G R) : Prop where
  started : (S k).started = true
  running : (S k).exited = false
  between : Between n (N.state k)
  empty : pipe (S k) = []
  sending : ∀ j ∈ ids, j ≠ k → boxTo (S k).outbox j = [M n k j]

theorem Ready.keeps {n : Nat} {k : ID} {N' : Net G R} (h : Ready ids M n k S N) (hk : Keeps k S S' N N') (hp : pipe (S' k) = pipe (S k)) : Ready ids M n k S' N' :=
  ⟨hk.started.trans h.started, hk.exited.trans h.running, by rw [hk.state]; exact h.between, hp.trans h.empty, fun j hj hne => by rw [hk.outbox]; exact h.sending j hj hne⟩

theorem Run.startOne (P : Protocol impl ids r₀ coins M out Good tys timeout now init) (r : Run impl ids coins M init S N) {k : ID} (hk : k ∈ ids)
    (hs : (S k).started = false) (he : (S k).exited = false) (hp : pipe (S k) = []) :
    ∃ S' N', Steps impl ids coins S S' ∧ Run impl ids coins M init S' N' ∧ Ready ids M 1 k S' N' ∧ ∀ k', k' ≠ k → Keeps k' S S' N N' ∧ pipe (S' k') = pipe (S k') := by
  obtain ⟨h1, h2, h3⟩ := r.fresh k hk hs
  obtain ⟨s, hpr, hbt⟩ := first_process P r.path hk h3 .insertion
  have hpr' := hpr
  rw [← r.state k hk] at hpr'
  have hstep := Step.start (impl := impl) (coins := coins) (ords := fun _ => .insertion) hk hs hpr'
  set S₁ := Function.update S k { S k with started := true, state := s, outbox := sends ids k (fun _ => .insertion) (out k 0) } with hS₁
  set N₁ := N.after k (.processAll .insertion (coins k)) (.messages (out k 0)) s with hN₁
  have r1 : Run impl ids coins M init S₁ N₁ := by
    have hf : Full impl (N.state k) ∧ (N.state k).done = false := by
      have h0 : (N.state k).done = false := by rw [h3, P.init k hk]; rfl
      refine ⟨?_, h0⟩
      by_contra hf
      have := (processAll_iff impl).mpr (.idle (ord := .insertion) (coins := coins k) (s := N.state k) (Or.inr hf))
      rw [hpr] at this
      have e : s = N.state k := (Prod.mk.inj (Option.some.inj this)).1
      have := hbt.round
      rw [e, h3, P.init k hk] at this
      cases this
    exact Run.process P hk r.path r.flow r.state (fun k hk _ => r.fresh k hk) (fun k hk _ => r.begun k hk) (Or.inr hf) r.outs r.coded r.senders h1 _ (fun _ => rfl) hpr
  have e1 : (S₁ k) = { S k with started := true, state := s, outbox := sends ids k (fun _ => .insertion) (out k 0) } := by simp [S₁]
  refine ⟨S₁, N₁, Steps.one hstep, r1, ⟨by rw [e1], by rw [e1]; exact he, ?_, by rw [e1]; exact hp, fun j hj hne => ?_⟩, fun k' hk' => ⟨?_, ?_⟩⟩
  · rw [show N₁.state k = s by simp [N₁, Net.after]]; exact hbt
  · rw [e1]; exact boxTo_out P hk hj (Ne.symm hne) (by omega) _
  · constructor <;> simp [S₁, N₁, Net.after, Function.update_of_ne hk']
  · simp [S₁, Function.update_of_ne hk']

theorem Run.startAll (P : Protocol impl ids r₀ coins M out Good tys timeout now init) (r : Run impl ids coins M init S N) (l : List ID) (hl : ∀ k ∈ l, k ∈ ids)
    (hnd : l.Nodup) (hs : ∀ k ∈ l, (S k).started = false ∧ (S k).exited = false ∧ pipe (S k) = []) :
    ∃ S' N', Steps impl ids coins S S' ∧ Run impl ids coins M init S' N' ∧ (∀ k ∈ l, Ready ids M 1 k S' N') ∧
      ∀ k', k' ∉ l → Keeps k' S S' N N' ∧ pipe (S' k') = pipe (S k') := by
  induction l generalizing S N with
  | nil => exact ⟨S, N, .refl S, r, fun k hk => absurd hk List.not_mem_nil, fun _ _ => ⟨⟨rfl, rfl, rfl, rfl, rfl⟩, rfl⟩⟩
  | cons k l ih =>
    obtain ⟨h1, h2, h3⟩ := hs k List.mem_cons_self
    obtain ⟨S₁, N₁, p1, r1, g1, g2⟩ := r.startOne P (hl k List.mem_cons_self) h1 h2 h3
    rw [List.nodup_cons] at hnd
    obtain ⟨S₂, N₂, p2, r2, f1, f2⟩ := ih r1 (fun k' hk' => hl k' (List.mem_cons_of_mem _ hk')) hnd.2 (fun k' hk' => by
      have := g2 k' (fun h => hnd.1 (h ▸ hk'))
      rw [this.1.1, this.1.2, this.2]
      exact hs k' (List.mem_cons_of_mem _ hk'))
    refine ⟨S₂, N₂, p1.trans p2, r2, ?_, ?_⟩
    · intro k' hk'
      rcases List.mem_cons.mp hk' with rfl | hk'
      · exact g1.keeps (f2 _ hnd.1).1 (f2 _ hnd.1).2
      · exact f1 k' hk'
    · intro k' hk'
      rw [List.mem_cons, not_or] at hk'
      exact ⟨(g2 k' hk'.1).1.trans (f2 k' hk'.2).1, (f2 k' hk'.2).2.trans (g2 k' hk'.1).2⟩

/-- A party that has all messages of its round in its pipe, and nothing else. -/
structure Loaded (ids : List ID) (M : Nat → ID → ID → Message G) (n : Nat) (k : ID) (S : Sys G R) (N : Net G R) : Prop where
  started : (S k).started = true
  running : (S k).exited = false
  between : Between n (N.state k)
  outbox : (S k).outbox = []
  pipe : pipe (S k) = (others k ids).map fun j => M n j k

/-- A party that has finished a round. -/
structure Over (ids : List ID) (out : ID → Nat → List (Message G)) (n : Nat) (k : ID) (S : Sys G R) (N : Net G R) : Prop where
  started : (S k).started = true
  running : (S k).exited = false
  prog : prog (N.state k) = n + 1
  between : (N.state k).done = false → Between (n + 1) (N.state k)
  outbox : (S k).outbox = sends ids k (fun _ => .insertion) (out k n)
  empty : pipe (S k) = []

theorem Loaded.keeps {n : Nat} {k : ID} {N' : Net G R} (h : Loaded ids M n k S N) (hk : Keeps k S S' N N') (hp : Chan.pipe (S' k) = Chan.pipe (S k)) :
    Loaded ids M n k S' N' :=
  ⟨hk.started.trans h.started, hk.exited.trans h.running, by rw [hk.state]; exact h.between, hk.outbox.trans h.outbox, hp.trans h.pipe⟩

theorem Over.keeps {n : Nat} {k : ID} {N' : Net G R} (h : Over ids out n k S N) (hk : Keeps k S S' N N') (hp : Chan.pipe (S' k) = Chan.pipe (S k)) :
    Over ids out n k S' N' :=
  ⟨hk.started.trans h.started, hk.exited.trans h.running, by rw [hk.state]; exact h.prog, by rw [hk.state]; exact h.between, hk.outbox.trans h.outbox, hp.trans h.empty⟩

theorem Run.gatherOne (P : Protocol impl ids r₀ coins M out Good tys timeout now init) (r : Run impl ids coins M init S N) (h2 : 2 ≤ ids.length) {n : Nat} (hn : n < 2)
    {b : ID} (hb : b ∈ ids) (h : Loaded ids M (n + 1) b S N) :
    ∃ S' N', Steps impl ids coins S S' ∧ Run impl ids coins M init S' N' ∧ Over ids out (n + 1) b S' N' ∧ ∀ k, k ≠ b → Keeps k S S' N N' ∧ pipe (S' k) = pipe (S k) := by
  have hrec := h.between.received (by omega)
  have hfrom : ∀ j ∈ others b ids, (M (n + 1) j b).header.fromID = j := fun j hj =>
    (M_from P (mem_others.mp hj).1 hb (mem_others.mp hj).2 hn).1
  have hl := others_length P hb
  obtain ⟨S₁, N₁, p1, r1, g1, g2, g3, g4, g5, g6, g7⟩ := r.gather P hb h.started h.running h.outbox h.between.running hn h.between.round h.between.queue h.pipe
    (by
      intro e
      have := congrArg List.length e
      rw [List.length_map, List.length_nil, hl] at this
      omega)
    (by
      intro m hm
      obtain ⟨j, hj, rfl⟩ := List.mem_map.mp hm
      rw [hfrom j hj])
    (by
      rw [List.map_map, show (others b ids).map ((fun m => m.header.fromID) ∘ fun j => M (n + 1) j b) = (others b ids).map id from
        List.map_congr_left fun j hj => hfrom j hj, List.map_id]
      exact P.honest.nodup.filter _)
    (by rw [hrec]; simp)
    (by rw [hrec, List.length_map, hl]; simp)
  exact ⟨S₁, N₁, p1, r1, ⟨g3, g4, g1, g2, g6, g5⟩, g7⟩

theorem Run.gatherAll (P : Protocol impl ids r₀ coins M out Good tys timeout now init) (r : Run impl ids coins M init S N) (h2 : 2 ≤ ids.length) {n : Nat} (hn : n < 2)
    (l : List ID) (hl : ∀ k ∈ l, k ∈ ids) (hnd : l.Nodup) (h : ∀ k ∈ l, Loaded ids M (n + 1) k S N) :
    ∃ S' N', Steps impl ids coins S S' ∧ Run impl ids coins M init S' N' ∧ (∀ k ∈ l, Over ids out (n + 1) k S' N') ∧
      ∀ k, k ∉ l → Keeps k S S' N N' ∧ pipe (S' k) = pipe (S k) := by
  induction l generalizing S N with
  | nil => exact ⟨S, N, .refl S, r, fun k hk => absurd hk List.not_mem_nil, fun _ _ => ⟨⟨rfl, rfl, rfl, rfl, rfl⟩, rfl⟩⟩
  | cons k l ih =>
    obtain ⟨S₁, N₁, p1, r1, g1, g2⟩ := r.gatherOne P h2 hn (hl k List.mem_cons_self) (h k List.mem_cons_self)
    rw [List.nodup_cons] at hnd
    obtain ⟨S₂, N₂, p2, r2, f1, f2⟩ := ih r1 (fun k' hk' => hl k' (List.mem_cons_of_mem _ hk')) hnd.2 (fun k' hk' => by
      have := g2 k' (fun h => hnd.1 (h ▸ hk'))
      exact (h k' (List.mem_cons_of_mem _ hk')).keeps this.1 this.2)
    refine ⟨S₂, N₂, p1.trans p2, r2, ?_, ?_⟩
    · intro k' hk'
      rcases List.mem_cons.mp hk' with rfl | hk'
      · exact g1.keeps (f2 _ hnd.1).1 (f2 _ hnd.1).2
      · exact f1 k' hk'
    · intro k' hk'
      rw [List.mem_cons, not_or] at hk'
      exact ⟨(g2 k' hk'.1).1.trans (f2 k' hk'.2).1, (f2 k' hk'.2).2.trans (g2 k' hk'.1).2⟩

/-- One round of everybody. -/
theorem Run.round (P : Protocol impl ids r₀ coins M out Good tys timeout now init) (r : Run impl ids coins M init S N) (h2 : 2 ≤ ids.length) {n : Nat} (hn : n < 2)
    (h : ∀ k ∈ ids, Ready ids M (n + 1) k S N) :
    ∃ S' N', Steps impl ids coins S S' ∧ Run impl ids coins M init S' N' ∧ ∀ k ∈ ids, Over ids out (n + 1) k S' N' := by
  obtain ⟨S₁, p1, r1, f1, f2, _, f4⟩ := r.flushAll P ids (fun _ h => h) P.honest.nodup
  have hload : ∀ k ∈ ids, Loaded ids M (n + 1) k S₁ N := by
    intro k hk
    refine ⟨(f1 k).1.trans (h k hk).started, (f1 k).2.trans (h k hk).running, (h k hk).between, f2 k hk, ?_⟩
    rw [f4 k, (h k hk).empty, List.nil_append]
    have : ∀ l : List ID, (∀ j ∈ l, j ∈ ids) → (l.flatMap fun i => boxTo (G := G) (S i).outbox k) = (l.filter fun j => decide (j ≠ k)).map fun j => M (n + 1) j k := by
      intro l hl
      induction l with
      | nil => rfl
      | cons j l ih =>
        rw [List.flatMap_cons, ih fun j' hj' => hl j' (List.mem_cons_of_mem _ hj')]
        have hj := hl j List.mem_cons_self
        by_cases hjk : j = k
        · subst hjk
          have e : boxTo (G := G) (S j).outbox j = [] := by
            rw [boxTo, List.filter_eq_nil_iff.mpr]
            · rfl
            · intro p hp h
              exact (mem_others.mp (r.outs j hj p hp).1).2 (of_decide_eq_true h)
          rw [e, List.filter_cons_of_neg (by simp)]
          rfl
        · rw [(h j hj).sending k hk (Ne.symm hjk), List.filter_cons_of_pos (by simpa using hjk)]
          rfl
    exact this ids fun _ h => h
  obtain ⟨S₂, N₂, p2, r2, g1, _⟩ := r1.gatherAll P h2 hn ids (fun _ h => h) P.honest.nodup hload
  exact ⟨S₂, N₂, p1.trans p2, r2, g1⟩

theorem Run.exitAll (r : Run impl ids coins M init S N) (l : List ID) (hl : ∀ k ∈ l, k ∈ ids) (hnd : l.Nodup)
    (h : ∀ k ∈ l, (S k).started = true ∧ (S k).exited = false ∧ (S k).outbox = [] ∧ (S k).state.closed = true) :
    ∃ S', Steps impl ids coins S S' ∧ Run impl ids coins M init S' N ∧ (∀ k ∈ l, (S' k).exited = true) ∧ (∀ k, k ∉ l → S' k = S k) ∧
      ∀ k, (S' k).state = (S k).state := by
  induction l generalizing S with
  | nil => exact ⟨S, .refl S, r, fun k hk => absurd hk List.not_mem_nil, fun _ _ => rfl, fun _ => rfl⟩
  | cons i l ih =>
    rw [List.nodup_cons] at hnd
    obtain ⟨h1, h2, h3, h4⟩ := h i List.mem_cons_self
    have r1 : Run impl ids coins M init (Function.update S i { S i with exited := true }) N := r.shuffle rfl rfl rfl rfl (fun c hc => hc)
    obtain ⟨S₂, p2, r2, g1, g2, g3⟩ := ih r1 (fun k hk => hl k (List.mem_cons_of_mem _ hk)) hnd.2 (fun k hk => by
      rw [Function.update_of_ne (show k ≠ i from fun e => hnd.1 (e ▸ hk))]
      exact h k (List.mem_cons_of_mem _ hk))
    refine ⟨S₂, (Steps.one (.exit (hl i List.mem_cons_self) h1 h2 h3 h4)).trans p2, r2, ?_, ?_, ?_⟩
    · intro k hk
      rcases List.mem_cons.mp hk with rfl | hk
      · rw [g2 k hnd.1, Function.update_self]
      · exact g1 k hk
    · intro k hk
      rw [List.mem_cons, not_or] at hk
      rw [g2 k hk.2, Function.update_of_ne hk.1]
    · intro k
      rw [g3 k]
      exact update_mem (P := fun x : Node G R => x.state = (S k).state) (fun e => by rw [e]) (fun _ => rfl)

/-- There is an execution in which every party finishes. -/
theorem can_finish (P : Protocol impl ids r₀ coins M out Good tys timeout now init) (h2 : 2 ≤ ids.length) :
    ∃ S, Steps impl ids coins (start init) S ∧ ∀ i ∈ ids, (S i).state.done = true ∧ (S i).exited = true := by
  obtain ⟨S₁, N₁, p1, r1, f1, _⟩ := (run_start P).startAll P ids (fun _ h => h) P.honest.nodup (fun _ _ => ⟨rfl, rfl, rfl⟩)
  obtain ⟨S₂, N₂, p2, r2, f2⟩ := r1.round P h2 (n := 0) (by omega) f1
  have hready : ∀ k ∈ ids, Ready ids M 2 k S₂ N₂ := by
    intro k hk
    have h := f2 k hk
    have hd : (N₂.state k).done = false := by
      by_contra hd
      rw [Bool.not_eq_false] at hd
      have := h.prog
      simp [State.prog, hd] at this
    exact ⟨h.started, h.running, h.between hd, h.empty, fun j hj hne => by rw [h.outbox]; exact boxTo_out P hk hj (Ne.symm hne) (by omega) _⟩
  obtain ⟨S₃, N₃, p3, r3, f3⟩ := r2.round P h2 (n := 1) (by omega) hready
  have hdone : ∀ k ∈ ids, (N₃.state k).done = true := by
    intro k hk
    by_contra hd
    rw [Bool.not_eq_true] at hd
    have h1 := (f3 k hk).prog
    have h4 := ((P.netInv r3.path).good k hk hd).1
    simp only [State.prog, hd, Bool.false_eq_true, if_false] at h1
    omega
  obtain ⟨S₄, p4, r4, g1, _, g3⟩ := r3.exitAll ids (fun _ h => h) P.honest.nodup (fun k hk => by
    refine ⟨(f3 k hk).started, (f3 k hk).running, ?_, ?_⟩
    · rw [(f3 k hk).outbox, P.honest.out_last k hk]; rfl
    · rw [r3.state k hk, (inv_hist P.honest.stable ((P.netInv r3.path).hist k hk)).closed, hdone k hk])
  exact ⟨S₄, ((p1.trans p2).trans p3).trans p4, fun i hi => ⟨by rw [g3 i, r3.state i hi]; exact hdone i hi, g1 i hi⟩⟩

/-- With two parties: every message that was read was needed. -/
def Pair (ids : List ID) (S : Sys G R) (N : Net G R) : Prop := ∀ j ∈ ids, (S j).started = true →
  prog (N.state j) = 1 + (given (N.hist j)).length ∧ ((N.state j).done = false → Between (prog (N.state j)) (N.state j))

theorem pair (P : Protocol impl ids r₀ coins M out Good tys timeout now init) (h2 : ids.length = 2) (hp : Steps impl ids coins (start init) S) :
    ∃ N, Run impl ids coins M init S N ∧ Pair ids S N := by
  generalize hS₀ : start init = S₀ at hp
  induction hp with
  | refl => subst hS₀; exact ⟨_, run_start P, fun j hj h => nomatch h⟩
  | @tail S S' hp h ih =>
    obtain ⟨N, r, hpair⟩ := ih
    cases h with
    | @start i ord ords s o hi hs hpr =>
      obtain ⟨h1, h2, h3⟩ := r.fresh i hi hs
      rw [r.state i hi] at hpr
      obtain ⟨s', hpr', hbt⟩ := first_process P r.path hi h3 ord
      have hf : Full impl (N.state i) ∧ (N.state i).done = false := by
        have h0 : (N.state i).done = false := by rw [h3, P.init i hi]; rfl
        refine ⟨?_, h0⟩
        by_contra hf
        have := (processAll_iff impl).mpr (.idle (ord := ord) (coins := coins i) (s := N.state i) (Or.inr hf))
        rw [hpr'] at this
        have e : s' = N.state i := (Prod.mk.inj (Option.some.inj this)).1
        have := hbt.round
        rw [e, h3, P.init i hi] at this
        cases this
      refine ⟨_, Run.process P hi r.path r.flow r.state (fun k hk _ => r.fresh k hk) (fun k hk _ => r.begun k hk) (Or.inr hf) r.outs r.coded r.senders h1 ords
        (fun _ => rfl) hpr, ?_⟩
      intro j hj hsj
      by_cases hji : j = i
      · subst hji
        rw [hpr] at hpr'
        obtain ⟨rfl, rfl⟩ := Prod.mk.inj (Option.some.inj hpr')
        simp only [Net.after, Function.update_self, h2, List.nil_append]
        rw [between_prog hbt]
        exact ⟨rfl, fun _ => hbt⟩
      · simp only [Net.after, Function.update_of_ne hji] at hsj ⊢
        exact hpair j hj hsj
    | @send i j b rest hi ho hj hb =>
      refine ⟨N, r.send hi ho, fun k hk hsk => hpair k hk ?_⟩
      by_cases h1 : k = j
      · subst h1
        simp only [Function.update_self] at hsk
        by_cases h2 : k = i
        · subst h2; simpa using hsk
        · simpa [Function.update_of_ne h2] using hsk
      · simp only [Function.update_of_ne h1] at hsk
        by_cases h2 : k = i
        · subst h2; simpa using hsk
        · simpa [Function.update_of_ne h2] using hsk
    | @take i b rest hi hh hb =>
      obtain ⟨m, hm⟩ := r.coded _ hi _ (by rw [hb]; exact List.mem_cons_self)
      refine ⟨N, r.shuffle rfl rfl rfl (pipe_take hh hb hm) (fun c hc => by rw [hb]; exact List.mem_cons_of_mem _ hc), fun k hk hsk => hpair k hk ?_⟩
      by_cases h2 : k = i
      · subst h2; simpa using hsk
      · simpa [Function.update_of_ne h2] using hsk
    | @put i m hi hh hl =>
      refine ⟨N, r.shuffle rfl rfl rfl (pipe_put hh) (fun c hc => hc), fun k hk hsk => hpair k hk ?_⟩
      by_cases h2 : k = i
      · subst h2; simpa using hsk
      · simpa [Function.update_of_ne h2] using hsk
    | @exit i hi hs he ho hc =>
      refine ⟨N, r.shuffle rfl rfl rfl rfl (fun c hc => hc), fun k hk hsk => hpair k hk ?_⟩
      by_cases h2 : k = i
      · subst h2; simpa using hsk
      · simpa [Function.update_of_ne h2] using hsk
    | @recv i m rest ord ords c s o hi hs he ho hin hpr =>
      refine ⟨_, r.recv P hi hs ho hin hpr, ?_⟩
      intro j hj hsj
      by_cases hji : j = i
      swap
      · simp only [Net.after, Function.update_of_ne hji] at hsj ⊢
        exact hpair j hj hsj
      subst hji
      obtain ⟨e1, e2⟩ := hpair j hj hs
      have hm : m ∈ pipe (S j) := by simp [pipe, hin]
      have harr := r.arrived_length P hj
      rw [List.length_append, h2] at harr
      have hposp := List.length_pos_of_mem hm
      have hd : (N.state j).done = false := by
        by_contra hd
        rw [Bool.not_eq_false] at hd
        have : prog (N.state j) = 3 := by simp [prog, hd]
        omega
      have hbt := e2 hd
      have hprn : prog (N.state j) = (N.state j).roundNumber := by simp [prog, hd]
      -- there is only one other party, so its messages come in order
      obtain ⟨k, hk⟩ : ∃ k, others j ids = [k] := by
        have := others_length P hj
        rw [h2] at this
        exact List.length_eq_one_iff.mp this
      obtain ⟨hk1, hk2⟩ := mem_others.mp (hk ▸ List.mem_singleton.mpr rfl : k ∈ others j ids)
      have hall : ∀ m' ∈ given (N.hist j) ++ pipe (S j), fromParty k m' = true := by
        intro m' hm'
        have := r.senders j hj m' hm'
        rw [hk, List.mem_singleton] at this
        simp [fromParty, this]
      have hflow := r.flow k hk1 j hj hk2
      rw [List.filter_eq_self.mpr hall, show pipe (S j) = m :: (rest ++ (S j).held.toList ++ (S j).bytes.filterMap decode) by simp [pipe, hin]] at hflow
      have hg : (given (N.hist j)).length < 2 := by omega
      have hmM : m = M ((given (N.hist j)).length + 1) k j := by
        have := congrArg (fun l => l[(given (N.hist j)).length]?) hflow
        simp only [List.append_assoc, List.getElem?_append_right (Nat.le_refl _), Nat.sub_self, List.cons_append, List.getElem?_cons_zero] at this
        have h3 : ([M 1 k j, M 2 k j].take (prog (N.state k)))[(given (N.hist j)).length]? = some m := this.symm
        have h4 : [M 1 k j, M 2 k j][(given (N.hist j)).length]? = some m := by
          rw [List.getElem?_take] at h3
          split at h3
          · exact h3
          · cases h3
        match hgl : (given (N.hist j)).length, hg with
        | 0, _ => rw [hgl] at h4; exact (Option.some.inj h4).symm
        | 1, _ => rw [hgl] at h4; exact (Option.some.inj h4).symm
      have hst := store_current P r.path hj hk1 hk2 (n := (given (N.hist j)).length) hg hd (by omega) (by rw [hbt.received (by omega)]; simp)
      rw [← hmM] at hst
      have hsent := (r.sent P hj hm).1
      rw [r.state j hj, hst] at hpr
      simp only [] at hpr
      set s₁ : State G R := { N.state j with timer := (N.state j).timer.ackMessage, received := (N.state j).received ++ [(k, some m)] } with hs₁
      set N₁ := N.after j (.handle m) (.handled none) s₁ with hN₁
      have hpath : Path impl ids coins (Net.start init) N₁ := r.path.tail (op := .handle m) hj hsent (by simp only [State.step, hst])
      have hsti : N₁.state j = s₁ := by simp [N₁, Net.after]
      have hfull : Full impl s₁ := by
        rw [full_iff P r.path hj (s := s₁) rfl, h2]
        simp [s₁, hbt.received (by omega)]
      have g := process_between P hpath hj (by rw [hsti]; exact hd) (by rw [hsti]; exact hbt.queue) (by rw [hsti]; exact hfull) (ord := ord) (c := c)
        (fun h0 => absurd (show (N.state j).roundNumber = 0 by rw [hsti] at h0; exact h0) (r.begun j hj hs)) (by rw [hsti]; exact hpr)
      rw [hsti, show s₁.roundNumber = prog (N.state j) from hprn.symm] at g
      rw [hst]
      simp only [Net.after, Function.update_self, given_append, List.length_append]
      refine ⟨?_, fun hd' => ?_⟩
      · rw [g.2.1]
        simp only [given, List.filterMap_cons, List.filterMap_nil, List.length_cons, List.length_nil] at e1 ⊢
        omega
      · rw [g.2.1]; exact g.2.2 hd'

/-- With two parties every execution that cannot be continued has both finished. -/
theorem two_finish (P : Protocol impl ids r₀ coins M out Good tys timeout now init) (h2 : ids.length = 2) (hp : Steps impl ids coins (start init) S)
    (h : ∀ S', ¬ Step impl ids coins S S') {i : ID} (hi : i ∈ ids) : (S i).state.done = true ∧ (S i).exited = true := by
  obtain ⟨N, r, hpair⟩ := pair P h2 hp
  have hfin := fun {k} (hk : k ∈ ids) => final P hp h hk
  have hle : ∀ j ∈ ids, prog (N.state j) ≤ 3 := by
    intro j hj
    cases hd : (N.state j).done with
    | true => simp [prog, hd]
    | false =>
      have := ((P.netInv r.path).good j hj hd).1
      simp only [prog, hd, Bool.false_eq_true, if_false]
      omega
  have hnext : ∀ j ∈ ids, ∀ k ∈ ids, k ≠ j → min (prog (N.state k)) 2 + 1 ≤ prog (N.state j) := by
    intro j hj k hk hne
    obtain ⟨a1, a2, a3, a4, a5, _⟩ := hfin hj
    have hfl := r.flow k hk j hj hne
    rw [(hfin hk).2.1, show pipe (S j) = [] by simp [pipe, a3, a4, a5]] at hfl
    have hlen := congrArg List.length hfl
    rw [List.length_append, List.length_take, List.append_nil] at hlen
    have h3 := List.length_filter_le (fromParty k) (given (N.hist j))
    have h4 := (hpair j hj a1).1
    simp only [boxTo, List.filter_nil, List.filterMap_nil, List.length_nil, List.length_cons] at hlen
    omega
  have hdone : (S i).state.done = true := by
    obtain ⟨k, hk⟩ : ∃ k, others i ids = [k] := by
      have := others_length P hi
      rw [h2] at this
      exact List.length_eq_one_iff.mp this
    obtain ⟨hk1, hk2⟩ := mem_others.mp (hk ▸ List.mem_singleton.mpr rfl : k ∈ others i ids)
    have h3 := hnext i hi k hk1 hk2
    have h4 := hnext k hk1 i hi (Ne.symm hk2)
    have h5 : prog (N.state i) = 3 := by
      have := hle i hi
      omega
    rw [r.state i hi]
    by_contra hd
    rw [Bool.not_eq_true] at hd
    have := ((P.netInv r.path).good i hi hd).1
    simp only [prog, hd, Bool.false_eq_true, if_false] at h5
    omega
  exact ⟨hdone, by rw [(hfin hi).2.2.2.2.2]; exact hdone⟩

/-- Everything in the channel of bytes can be decoded. -/
theorem Run.decodes (r : Run impl ids coins M init S N) {i : ID} (hi : i ∈ ids) {b : Bytes} (hb : b ∈ (S i).bytes) :
    ∃ m : Message G, Message.unmarshalBinary Message.fresh b = .ok m := by
  obtain ⟨m, hm⟩ := r.coded i hi b hb
  refine ⟨m, ?_⟩
  unfold decode at hm
  split at hm
  · rename_i m' h
    rw [h, Option.some.inj hm]
  · cases hm

/-- Nothing is under way to a party that is done. -/
theorem Run.done_nothing (P : Protocol impl ids r₀ coins M out Good tys timeout now init) (r : Run impl ids coins M init S N) {i : ID} (hi : i ∈ ids)
    (hd : (N.state i).done = true) : (S i).incoming = [] ∧ (S i).held = none ∧ (S i).bytes = [] ∧ ∀ k ∈ ids, ∀ p ∈ (S k).outbox, p.1 ≠ i := by
  obtain ⟨h1, h2⟩ := r.done_empty P hi hd
  rw [pipe, List.append_eq_nil_iff, List.append_eq_nil_iff] at h1
  refine ⟨h1.1.1, ?_, ?_, ?_⟩
  · cases hh : (S i).held with
    | none => rfl
    | some m => rw [hh] at h1; exact absurd h1.1.2 (by simp)
  · cases hb : (S i).bytes with
    | nil => rfl
    | cons b bs =>
      obtain ⟨m, hm⟩ := r.coded i hi b (by rw [hb]; exact List.mem_cons_self)
      rw [hb, List.filterMap_cons, hm] at h1
      exact absurd h1.2 (by simp)
  · intro k hk p hp e
    obtain ⟨h3, m, hm, _⟩ := r.outs k hk p hp
    have hne : k ≠ i := fun h => (mem_others.mp h3).2 (e.trans h.symm)
    have h4 := h2 k (mem_others.mpr ⟨hk, hne⟩)
    have : m ∈ boxTo (G := G) (S k).outbox i := List.mem_filterMap.mpr ⟨p, List.mem_filter.mpr ⟨hp, decide_eq_true e⟩, hm⟩
    rw [h4] at this
    cases this

theorem another (P : Protocol impl ids r₀ coins M out Good tys timeout now init) (h2 : 2 ≤ ids.length) {a : ID} (ha : a ∈ ids) : ∃ b, b ∈ ids ∧ a ≠ b := by
  have h := others_length P ha
  obtain ⟨b, hb⟩ := List.exists_mem_of_ne_nil (others a ids) (by intro e; rw [e, List.length_nil] at h; omega)
  exact ⟨b, (mem_others.mp hb).1, Ne.symm (mem_others.mp hb).2⟩

theorem can_hang (P : Protocol impl ids r₀ coins M out Good tys timeout now init) (hn : 3 ≤ ids.length) {a b : ID} (ha : a ∈ ids) (hb : b ∈ ids) (hab : a ≠ b) :
    ∃ S, Steps impl ids coins (start init) S ∧ ∀ S', Steps impl ids coins S S' → (S' a).state.done = false ∧ (S' a).exited = false := by
  obtain ⟨S, p, h⟩ := can_stick P hn ha hb hab
  refine ⟨S, p, fun S' p' => ⟨h S' p', ?_⟩⟩
  by_contra he
  rw [Bool.not_eq_false] at he
  have := (exited_done P (p.trans p') ha he).2
  rw [h S' p'] at this
  cases this

end

end Verif.Chan
