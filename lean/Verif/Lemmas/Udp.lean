import Verif.Model.Udp
import Verif.Lemmas.Channel
import Verif.Lemmas.NetTime

/-!
Parties connected by UDP: every execution is one of a network with time-outs, and every execution with channels is possible.
-/

namespace Verif.Udp

open State Spec

variable {G R : Type} [RGroup G] {impl : RoundImpl G R} {ids : List ID} {coins : ID → Coins} {init : ID → State G R}

theorem send_bytes {i : ID} {ord : MapOrder} {m : Message G} {p : ID × Bytes} (hp : p ∈ Chan.send ids i ord m) :
    Message.marshalBinary m = .ok p.2 := by
  unfold Chan.send at hp
  split at hp
  · rename_i b hb
    rw [hb]
    split at hp
    · obtain ⟨k, _, rfl⟩ := List.mem_map.mp hp
      rfl
    · split at hp
      · rw [List.mem_singleton] at hp; subst hp; rfl
      · cases hp
  · cases hp

theorem sends_bytes {i : ID} {ords : Nat → MapOrder} {ms : List (Message G)} {p : ID × Bytes} (hp : p ∈ Chan.sends ids i ords ms) :
    ∃ m ∈ ms, Message.marshalBinary m = .ok p.2 := by
  induction ms generalizing ords with
  | nil => cases hp
  | cons m ms ih =>
    rcases List.mem_append.mp hp with hp | hp
    · exact ⟨m, List.mem_cons_self, send_bytes hp⟩
    · obtain ⟨m', h1, h2⟩ := ih hp
      exact ⟨m', List.mem_cons_of_mem _ h1, h2⟩

/-- The message survives a packet. -/
def Fits (ids : List ID) (m : Message G) : Prop :=
  ∃ b, Message.marshalBinary m = .ok b ∧ Message.unmarshalBinary Message.fresh b = .ok m ∧ b.length ≤ bufferSize ids

/-- The packet carries one of the messages and is read completely. -/
def Packet (ids : List ID) (sent : List (Message G)) (b : Bytes) : Prop :=
  b.length ≤ bufferSize ids ∧ ∃ m ∈ sent, Message.unmarshalBinary Message.fresh b = .ok m

theorem Packet.mono {sent sent' : List (Message G)} {b : Bytes} (h : Packet ids sent b) (hs : ∀ m ∈ sent, m ∈ sent') : Packet ids sent' b := by
  obtain ⟨h1, m, h2, h3⟩ := h
  exact ⟨h1, m, hs m h2, h3⟩

theorem Fits.packet {m : Message G} (h : Fits ids m) {b : Bytes} (hb : Message.marshalBinary m = .ok b) {sent : List (Message G)} (hm : m ∈ sent) :
    Packet ids sent b := by
  obtain ⟨b', h1, h2, h3⟩ := h
  rw [hb] at h1
  cases h1
  exact ⟨h3, m, hm, h2⟩

theorem read_eq {b : Bytes} {m : Message G} (hl : b.length ≤ bufferSize ids) (h : Message.unmarshalBinary Message.fresh b = .ok m) : read ids b = m := by
  simp [read, List.take_of_length_le hl, h]

theorem Packet.read {sent : List (Message G)} {b : Bytes} (h : Packet ids sent b) : read ids b ∈ sent := by
  obtain ⟨h1, m, h2, h3⟩ := h
  rwa [read_eq h1 h3]

/-- The message was in a packet sent to `i`. -/
def Arrived (ids : List ID) (S : Sys G R) (i : ID) (m : Message G) : Prop := ∃ b ∈ S.wire i, read ids b = m

/-- What holds of the process together with a network that did the same. -/
structure Run (impl : RoundImpl G R) (ids : List ID) (coins : ID → Coins) (init : ID → State G R) (S : Sys G R) (N : Net G R) : Prop where
  path : PathT impl ids coins (Net.start init) N
  state : ∀ i ∈ ids, (S.node i).state = N.state i
  outs : ∀ i ∈ ids, ∀ p ∈ (S.node i).outbox, Packet ids N.sent p.2
  wire : ∀ i ∈ ids, ∀ b ∈ S.wire i, Packet ids N.sent b
  held : ∀ i ∈ ids, ∀ m, (S.node i).held = some m → Arrived ids S i m
  incoming : ∀ i ∈ ids, ∀ m ∈ (S.node i).incoming, Arrived ids S i m
  hist : ∀ i ∈ ids, Hist impl (init i) (N.hist i) (N.state i)
  given : ∀ i ∈ ids, ∀ m r, (Op.handle m, r) ∈ N.hist i → Arrived ids S i m

omit [RGroup G] in
theorem set_node (S : Sys G R) (i : ID) (nd : Node G R) {P : ID → Node G R → Prop} (hi : P i nd) (h : ∀ j ∈ ids, j ≠ i → P j (S.node j)) (j : ID)
    (hj : j ∈ ids) : P j ((S.set i nd).node j) := by
  by_cases hji : j = i
  · subst hji
    simpa [Sys.set] using hi
  · simpa [Sys.set, Function.update_of_ne hji] using h j hj hji

theorem Run.sent {S : Sys G R} {N : Net G R} (r : Run impl ids coins init S N) {i : ID} (hi : i ∈ ids) {m : Message G} (h : Arrived ids S i m) : m ∈ N.sent := by
  obtain ⟨b, h1, rfl⟩ := h
  exact (r.wire i hi b h1).read

/-- The process and the network after a step of the session of `i`. -/
theorem Run.step {S : Sys G R} {N : Net G R} (r : Run impl ids coins init S N) {i : ID} (hi : i ∈ ids) {op : Op G} {ret : Ret G} {s : State G R}
    (ha : AllowedT coins N i op) (hs : State.step impl (N.state i) op = some (s, ret)) (nd : Node G R) (h1 : nd.state = s)
    (h2 : ∀ p ∈ nd.outbox, Packet ids (N.sent ++ returned ret) p.2) (h3 : ∀ m, nd.held = some m → Arrived ids S i m)
    (h4 : ∀ m ∈ nd.incoming, Arrived ids S i m) (h5 : ∀ m, op = .handle m → Arrived ids S i m) :
    Run impl ids coins init (S.set i nd) (N.after i op ret s) where
  path := r.path.tail hi ha hs
  state := set_node S i nd (P := fun j x => x.state = (N.after i op ret s).state j) (by simpa [Net.after] using h1)
    fun j hj hne => by simpa [Net.after, Function.update_of_ne hne] using r.state j hj
  outs := set_node S i nd (P := fun _ x => ∀ p ∈ x.outbox, Packet ids (N.after i op ret s).sent p.2) h2
    fun j hj _ p hp => (r.outs j hj p hp).mono fun m hm => List.mem_append_left _ hm
  wire j hj b hb := (r.wire j hj b hb).mono fun m hm => List.mem_append_left _ hm
  held := set_node S i nd (P := fun j x => ∀ m, x.held = some m → Arrived ids S j m) h3 fun j hj _ => r.held j hj
  incoming := set_node S i nd (P := fun j x => ∀ m ∈ x.incoming, Arrived ids S j m) h4 fun j hj _ => r.incoming j hj
  hist j hj := by
    by_cases hji : j = i
    · subst hji
      simpa [Net.after] using (r.hist j hj).snoc hs
    · simpa [Net.after, Function.update_of_ne hji] using r.hist j hj
  given j hj m ret' hm := by
    by_cases hji : j = i
    · subst hji
      rw [show (N.after j op ret s).hist j = N.hist j ++ [(op, ret)] by simp [Net.after]] at hm
      rcases List.mem_append.mp hm with hm | hm
      · exact r.given j hj m ret' hm
      · rw [List.mem_singleton] at hm
        exact h5 m (Prod.mk.inj hm).1.symm
    · exact r.given j hj m ret' (by simpa [Net.after, Function.update_of_ne hji] using hm)

/-- The process after a step that leaves the session of `i` alone. -/
theorem Run.quiet {S : Sys G R} {N : Net G R} (r : Run impl ids coins init S N) {i : ID} (nd : Node G R) (h1 : nd.state = N.state i)
    (h2 : ∀ p ∈ nd.outbox, Packet ids N.sent p.2) (h3 : ∀ m, nd.held = some m → Arrived ids S i m) (h4 : ∀ m ∈ nd.incoming, Arrived ids S i m) :
    Run impl ids coins init (S.set i nd) N where
  path := r.path
  state := set_node S i nd (P := fun j x => x.state = N.state j) h1 fun j hj _ => r.state j hj
  outs := set_node S i nd (P := fun _ x => ∀ p ∈ x.outbox, Packet ids N.sent p.2) h2 fun j hj _ => r.outs j hj
  wire := r.wire
  held := set_node S i nd (P := fun j x => ∀ m, x.held = some m → Arrived ids S j m) h3 fun j hj _ => r.held j hj
  incoming := set_node S i nd (P := fun j x => ∀ m ∈ x.incoming, Arrived ids S j m) h4 fun j hj _ => r.incoming j hj
  hist := r.hist
  given := r.given

theorem Run.ofStep (hfit : ∀ N, PathT impl ids coins (Net.start init) N → ∀ m ∈ N.sent, Fits ids m) {S S' : Sys G R} (h : Step impl ids coins S S') {N : Net G R}
    (r : Run impl ids coins init S N) : ∃ N', Run impl ids coins init S' N' := by
  have packets : ∀ {i : ID} {N : Net G R} {ord c} {s : State G R} {out : List (Message G)} (ords : Nat → MapOrder),
      PathT impl ids coins (Net.start init) (N.after i (.processAll ord c) (.messages out) s) →
      ∀ p ∈ Chan.sends ids i ords out, Packet ids (N.sent ++ out) p.2 := by
    intro i N ord c s out ords hp p hm
    obtain ⟨m, h1, h2⟩ := sends_bytes hm
    have hm' : m ∈ N.sent ++ out := List.mem_append_right _ h1
    exact (hfit _ hp m hm').packet h2 hm'
  cases h with
  | @start i ord ords s out hi _ hpr =>
    rw [r.state i hi] at hpr
    have hs : State.step impl (N.state i) (.processAll ord (coins i)) = some (s, .messages out) := by simp [State.step, hpr]
    have ha : AllowedT coins N i (.processAll ord (coins i)) := Or.inr fun _ => rfl
    exact ⟨_, r.step hi ha hs _ rfl (packets ords (r.path.tail hi ha hs)) (r.held i hi) (r.incoming i hi) (fun _ h => nomatch h)⟩
  | @send i j b rest hi ho hj =>
    have hb := r.outs i hi (j, b) (by rw [ho]; exact List.mem_cons_self)
    have r' := r.quiet (i := i) { S.node i with outbox := rest } (r.state i hi)
      (fun p hp => r.outs i hi p (by rw [ho]; exact List.mem_cons_of_mem _ hp)) (r.held i hi) (r.incoming i hi)
    have grow : ∀ k m, Arrived ids (S.set i { S.node i with outbox := rest }) k m →
        Arrived ids { S.set i { S.node i with outbox := rest } with wire := Function.update S.wire j (S.wire j ++ [b]) } k m := by
      rintro k m ⟨c, h1, h2⟩
      refine ⟨c, ?_, h2⟩
      show c ∈ Function.update S.wire j (S.wire j ++ [b]) k
      by_cases hkj : k = j
      · subst hkj
        rw [Function.update_self]
        exact List.mem_append_left _ h1
      · rw [Function.update_of_ne hkj]
        exact h1
    refine ⟨N, r'.path, r'.state, r'.outs, ?_, fun k hk m hm => grow k m (r'.held k hk m hm), fun k hk m hm => grow k m (r'.incoming k hk m hm), r'.hist,
      fun k hk m ret hm => grow k m (r'.given k hk m ret hm)⟩
    intro k hk b' hb'
    replace hb' : b' ∈ Function.update S.wire j (S.wire j ++ [b]) k := hb'
    by_cases hkj : k = j
    · subst hkj
      rw [Function.update_self] at hb'
      rcases List.mem_append.mp hb' with hb' | hb'
      · exact r.wire k hk b' hb'
      · rw [List.mem_singleton] at hb'
        subst hb'
        exact hb
    · rw [Function.update_of_ne hkj] at hb'
      exact r.wire k hk b' hb'
  | @drop i p rest hi ho =>
    exact ⟨N, r.quiet (i := i) { S.node i with outbox := rest } (r.state i hi)
      (fun p hp => r.outs i hi p (by rw [ho]; exact List.mem_cons_of_mem _ hp)) (r.held i hi) (r.incoming i hi)⟩
  | @read i b hi _ hb =>
    refine ⟨N, r.quiet (i := i) _ (r.state i hi) (r.outs i hi) ?_ (r.incoming i hi)⟩
    intro m hm
    cases hm
    exact ⟨b, hb, rfl⟩
  | @put i m hi hh _ =>
    refine ⟨N, r.quiet (i := i) _ (r.state i hi) (r.outs i hi) (fun m hm => nomatch hm) ?_⟩
    intro m' hm'
    rcases List.mem_append.mp hm' with hm' | hm'
    · exact r.incoming i hi m' hm'
    · rw [List.mem_singleton] at hm'
      subst hm'
      exact r.held i hi m' hh
  | @recv i m rest ord ords c s out hi _ _ ho hin hc hpr =>
    rw [r.state i hi] at hpr hc
    have hm := r.incoming i hi m (by rw [hin]; exact List.mem_cons_self)
    have hs1 : State.step impl (N.state i) (.handle m) = some ((handleMessage impl (N.state i) m).1, .handled (handleMessage impl (N.state i) m).2) := rfl
    have r1 := r.step (op := .handle m) hi (Or.inr (r.sent hi hm)) hs1 { S.node i with incoming := rest, state := (handleMessage impl (N.state i) m).1 } rfl
      (fun p hp => by rw [ho] at hp; cases hp) (r.held i hi) (fun m' hm' => r.incoming i hi m' (by rw [hin]; exact List.mem_cons_of_mem _ hm'))
      (fun m' h => by cases h; exact hm)
    generalize hN1 : N.after i (.handle m) (.handled (handleMessage impl (N.state i) m).2) (handleMessage impl (N.state i) m).1 = N1 at r1
    have hN1s : N1.state i = (handleMessage impl (N.state i) m).1 := by rw [← hN1]; simp [Net.after]
    have hs2 : State.step impl (N1.state i) (.processAll ord c) = some (s, .messages out) := by rw [hN1s]; simp [State.step, hpr]
    have ha : AllowedT coins N1 i (.processAll ord c) := Or.inr (by rw [Allowed, hN1s]; exact hc)
    have r2 := r1.step hi ha hs2 { S.node i with incoming := rest, state := s, outbox := Chan.sends ids i ords out } rfl
      (packets ords (r1.path.tail hi ha hs2)) (fun m' hm' => r1.held i hi m' (by simpa [Sys.set] using hm'))
      (fun m' hm' => r1.incoming i hi m' (by simpa [Sys.set] using hm')) (fun _ h => nomatch h)
    exact ⟨N1.after i (.processAll ord c) (.messages out) s, by simpa only [Sys.set, Function.update_idem] using r2⟩
  | @exit i hi _ _ _ _ => exact ⟨N, r.quiet (i := i) _ (r.state i hi) (r.outs i hi) (r.held i hi) (r.incoming i hi)⟩
  | @time i op s hi hop hs =>
    rw [r.state i hi] at hs
    have ha : AllowedT coins N i op := by
      rcases hop with ⟨dt, rfl⟩ | rfl | rfl
      · exact Or.inr trivial
      · exact Or.inr trivial
      · exact Or.inl rfl
    exact ⟨_, r.step hi ha hs _ rfl (fun p hp => (r.outs i hi p hp).mono fun m hm => List.mem_append_left _ hm) (r.held i hi) (r.incoming i hi)
      (fun m h => by subst h; rcases hop with ⟨_, h⟩ | h | h <;> cases h)⟩

/-- Every execution over UDP is one of a network with time-outs. -/
theorem Run.ofSteps (hfit : ∀ N, PathT impl ids coins (Net.start init) N → ∀ m ∈ N.sent, Fits ids m) {S : Sys G R}
    (h : Steps impl ids coins (start init fun _ => []) S) : ∃ N, Run impl ids coins init S N := by
  induction h with
  | refl =>
    refine ⟨Net.start init, .refl _, fun _ _ => rfl, ?_, ?_, ?_, ?_, fun _ _ => .nil, ?_⟩
    · intro i hi m hm; cases hm
    · intro i hi m hm; cases hm
    · intro i hi m hm; cases hm
    · intro i hi m hm; cases hm
    · intro i hi m ret hm; cases hm
  | tail _ hstep ih =>
    obtain ⟨N, r⟩ := ih
    exact r.ofStep hfit hstep

/-- The party of the process that goes with one of the process with channels: the reader does nothing before the handler needs a
message. -/
def shadow (nd : Chan.Node G R) : Node G R := ⟨nd.state, nd.started, nd.outbox, none, [], nd.exited⟩

/-- What an execution over UDP has in common with one with channels that it imitates. -/
structure Like (ids : List ID) (U : Sys G R) (S : Chan.Sys G R) : Prop where
  node : ∀ i ∈ ids, U.node i = shadow (S i)
  outs : ∀ i ∈ ids, ∀ p ∈ (S i).outbox, p.2.length ≤ bufferSize ids
  bytes : ∀ i ∈ ids, ∀ b ∈ (S i).bytes, b ∈ U.wire i ∧ b.length ≤ bufferSize ids
  pending : ∀ i ∈ ids, ∀ m ∈ (S i).held.toList ++ (S i).incoming, ∃ b ∈ U.wire i, b.length ≤ bufferSize ids ∧ Chan.decode b = some m

theorem decode_read {b : Bytes} {m : Message G} (hl : b.length ≤ bufferSize ids) (h : Chan.decode b = some m) : read ids b = m := by
  unfold Chan.decode at h
  split at h
  · rename_i m' hm'
    cases h
    exact read_eq hl hm'
  · cases h

theorem Like.update {U : Sys G R} {S : Chan.Sys G R} (l : Like ids U S) (i : ID) (nd : Chan.Node G R) (h1 : ∀ p ∈ nd.outbox, p.2.length ≤ bufferSize ids)
    (h2 : ∀ b ∈ nd.bytes, b ∈ U.wire i ∧ b.length ≤ bufferSize ids)
    (h3 : ∀ m ∈ nd.held.toList ++ nd.incoming, ∃ b ∈ U.wire i, b.length ≤ bufferSize ids ∧ Chan.decode b = some m) :
    Like ids (U.set i (shadow nd)) (Function.update S i nd) where
  node j hj := by
    by_cases hji : j = i
    · subst hji; simp [Sys.set]
    · simpa [Sys.set, Function.update_of_ne hji] using l.node j hj
  outs j hj := by
    by_cases hji : j = i
    · subst hji; simpa using h1
    · rw [Function.update_of_ne hji]; exact l.outs j hj
  bytes j hj := by
    by_cases hji : j = i
    · subst hji; rw [Function.update_self]; exact h2
    · rw [Function.update_of_ne hji]; exact l.bytes j hj
  pending j hj := by
    by_cases hji : j = i
    · subst hji; rw [Function.update_self]; exact h3
    · rw [Function.update_of_ne hji]; exact l.pending j hj

/-- A step of the reader of the process with channels. -/
theorem Like.stay {U : Sys G R} {S : Chan.Sys G R} (l : Like ids U S) {i : ID} (hi : i ∈ ids) (nd : Chan.Node G R) (h0 : shadow nd = shadow (S i))
    (h2 : ∀ b ∈ nd.bytes, b ∈ U.wire i ∧ b.length ≤ bufferSize ids)
    (h3 : ∀ m ∈ nd.held.toList ++ nd.incoming, ∃ b ∈ U.wire i, b.length ≤ bufferSize ids ∧ Chan.decode b = some m) :
    Like ids U (Function.update S i nd) := by
  have ho : nd.outbox = (S i).outbox := congrArg Node.outbox h0
  have := l.update i nd (by rw [ho]; exact l.outs i hi) h2 h3
  rwa [h0, ← l.node i hi, show U.set i (U.node i) = U by simp [Sys.set]] at this

/-- A packet is sent. -/
theorem Like.grow {U : Sys G R} {S : Chan.Sys G R} (l : Like ids U S) (j : ID) (b : Bytes) :
    Like ids { U with wire := Function.update U.wire j (U.wire j ++ [b]) } S := by
  have h : ∀ k b', b' ∈ U.wire k → b' ∈ Function.update U.wire j (U.wire j ++ [b]) k := by
    intro k b' hb'
    by_cases hk : k = j
    · subst hk; rw [Function.update_self]; exact List.mem_append_left _ hb'
    · rwa [Function.update_of_ne hk]
  refine ⟨l.node, l.outs, fun i hi c hc => ⟨h i c (l.bytes i hi c hc).1, (l.bytes i hi c hc).2⟩, fun i hi m hm => ?_⟩
  obtain ⟨c, h1, h2⟩ := l.pending i hi m hm
  exact ⟨c, h i c h1, h2⟩

theorem Steps.trans {S S' S'' : Sys G R} (h : Steps impl ids coins S S') (h' : Steps impl ids coins S' S'') : Steps impl ids coins S S'' := by
  induction h' with
  | refl => exact h
  | tail _ hs ih => exact ih.tail hs

/-- All that a party is about to send may get lost. -/
theorem dropAll (S : Sys G R) {i : ID} (hi : i ∈ ids) : Steps impl ids coins S (S.set i { S.node i with outbox := [] }) := by
  generalize hl : (S.node i).outbox = l
  induction l generalizing S with
  | nil =>
    rw [← hl, show S.set i { S.node i with outbox := (S.node i).outbox } = S by simp [Sys.set]]
    exact .refl _
  | cons p rest ih =>
    have h1 := Step.drop (impl := impl) (coins := coins) hi hl
    have h2 := ih (S.set i { S.node i with outbox := rest }) (by simp [Sys.set])
    have h3 := (Steps.tail (.refl S) h1).trans h2
    simpa [Sys.set] using h3

section

variable {r₀ : ID → R} {M : Nat → ID → ID → Message G} {out : ID → Nat → List (Message G)} {Good : ID → Nat → R → Prop} {timeout now : ID → Nat}
  {N : Net G R} {tys : List MsgType}

/-- Every execution with channels is possible over UDP. -/
theorem Like.step (P : Chan.Protocol impl ids r₀ coins M out Good tys timeout now init) (hout : ∀ i ∈ ids, ∀ n, n < 2 → ∀ m ∈ out i n, Fits ids m)
    {U : Sys G R} {S S' : Chan.Sys G R} (l : Like ids U S) (r : Chan.Run impl ids coins M init S N) (h : Chan.Step impl ids coins S S') :
    ∃ U', Steps impl ids coins U U' ∧ Like ids U' S' := by
  have sizes : ∀ {i : ID} {N' : Net G R} {o : List (Message G)} (ords : Nat → MapOrder), Path impl ids coins (Net.start init) N' → (∀ m ∈ o, m ∈ N'.sent) →
      ∀ p ∈ Chan.sends ids i ords o, p.2.length ≤ bufferSize ids := by
    intro i N' o ords hp ho p hm
    obtain ⟨m, h1, h2⟩ := sends_bytes hm
    obtain ⟨j, hj, n, hn, hmn⟩ := (P.netInv hp).sentOnly m (ho m h1)
    obtain ⟨b, h3, _, h4⟩ := hout j hj n hn m hmn
    rw [h2] at h3
    cases h3
    exact h4
  cases h with
  | @start i ord ords s o hi hs hp =>
    have hn := l.node i hi
    have hp' := hp
    rw [r.state i hi] at hp'
    have hpath := r.path.tail (op := .processAll ord (coins i)) hi (fun _ => rfl) (show State.step impl _ _ = some (s, .messages o) by simp [State.step, hp'])
    refine ⟨_, .tail (.refl _) (.start (ords := ords) (ord := ord) (s := s) (out := o) hi (by rw [hn]; exact hs) (by rw [hn]; exact hp)), ?_⟩
    rw [hn]
    exact l.update i { S i with started := true, state := s, outbox := Chan.sends ids i ords o }
      (sizes ords hpath fun m hm => List.mem_append_right _ hm) (l.bytes i hi) (l.pending i hi)
  | @send i j b rest hi ho hj hb =>
    have hn := l.node i hi
    refine ⟨_, .tail (.refl _) (.send (b := b) (j := j) (rest := rest) hi (by rw [hn]; exact ho) hj), ?_⟩
    have hlen := l.outs i hi (j, b) (by rw [ho]; exact List.mem_cons_self)
    have l1 := l.update i { S i with outbox := rest } (fun p hp => l.outs i hi p (by rw [ho]; exact List.mem_cons_of_mem _ hp)) (l.bytes i hi) (l.pending i hi)
    have e : ({ U.node i with outbox := rest } : Node G R) = shadow { S i with outbox := rest } := by rw [hn]; rfl
    rw [e]
    have l2 := l1.grow j b
    generalize hS1 : Function.update S i { S i with outbox := rest } = S1 at *
    refine l2.stay hj { S1 j with bytes := (S1 j).bytes ++ [b] } rfl ?_ (l2.pending j hj)
    intro b' hb'
    rcases List.mem_append.mp hb' with hb' | hb'
    · exact l2.bytes j hj b' hb'
    · rw [List.mem_singleton] at hb'
      subst hb'
      exact ⟨by simp, hlen⟩
  | @take i b rest hi hh hb =>
    refine ⟨U, .refl _, l.stay hi { S i with bytes := rest, held := Chan.decode b } rfl
      (fun b' hb' => l.bytes i hi b' (by rw [hb]; exact List.mem_cons_of_mem _ hb')) ?_⟩
    intro m hm
    rcases List.mem_append.mp hm with hm | hm
    · obtain ⟨h1, h2⟩ := l.bytes i hi b (by rw [hb]; exact List.mem_cons_self)
      exact ⟨b, h1, h2, by simpa using hm⟩
    · exact l.pending i hi m (List.mem_append_right _ hm)
  | @put i m hi hh hl =>
    refine ⟨U, .refl _, l.stay hi { S i with held := none, incoming := (S i).incoming ++ [m] } rfl (l.bytes i hi) ?_⟩
    intro m' hm'
    refine l.pending i hi m' ?_
    rw [hh]
    simpa [or_comm] using hm'
  | @recv i m rest ord ords c s o hi hs he ho hin hp =>
    have hn := l.node i hi
    obtain ⟨b, hb, hlen, hdec⟩ := l.pending i hi m (List.mem_append_right _ (by rw [hin]; exact List.mem_cons_self))
    have hread := decode_read hlen hdec
    have hc : (handleMessage impl (S i).state m).1.roundNumber = 0 → c = coins i := by
      intro h0
      refine absurd ?_ (r.begun i hi hs)
      rw [← r.state i hi, ← h0]
      have := handle_cases impl (Prod.mk.eta (p := handleMessage impl (S i).state m)).symm
      generalize (handleMessage impl (S i).state m).1 = t at *
      generalize (handleMessage impl (S i).state m).2 = e at *
      cases this <;> rfl
    have r' := r.recv (ord := ord) (ords := ords) (c := c) P hi hs ho hin hp
    have s1 := Step.read (impl := impl) (coins := coins) (S := U) hi (by rw [hn]; rfl) hb
    rw [hread, hn] at s1
    have s2 := Step.put (impl := impl) (coins := coins) (m := m) (S := U.set i { shadow (S i) with held := some m }) hi (by simp [Sys.set]) (by simp [Sys.set, shadow, room])
    have s3 := Step.recv (impl := impl) (coins := coins) (m := m) (rest := []) (ord := ord) (ords := ords) (c := c) (s := s) (out := o)
      (S := U.set i { shadow (S i) with incoming := [m] }) hi (by simpa [Sys.set, shadow] using hs) (by simpa [Sys.set, shadow] using he)
      (by simpa [Sys.set, shadow] using ho) (by simp [Sys.set]) (by simpa [Sys.set, shadow] using hc) (by simpa [Sys.set, shadow] using hp)
    have e2 : (U.set i { shadow (S i) with held := some m }).set i
        { (U.set i { shadow (S i) with held := some m }).node i with held := none, incoming := ((U.set i { shadow (S i) with held := some m }).node i).incoming ++ [m] } =
        U.set i { shadow (S i) with incoming := [m] } := by
      simp [Sys.set, shadow]
    rw [e2] at s2
    have e3 : (U.set i { shadow (S i) with incoming := [m] }).set i
        { (U.set i { shadow (S i) with incoming := [m] }).node i with incoming := [], state := s, outbox := Chan.sends ids i ords o } =
        U.set i (shadow { S i with incoming := rest, state := s, outbox := Chan.sends ids i ords o }) := by
      simp [Sys.set, shadow]
    rw [e3] at s3
    exact ⟨_, .tail (.tail (.tail (.refl _) s1) s2) s3, l.update i _ (sizes ords r'.path fun m hm => List.mem_append_right _ hm) (l.bytes i hi)
      fun m' hm' => l.pending i hi m' (by
        rcases List.mem_append.mp hm' with hm' | hm'
        · exact List.mem_append_left _ hm'
        · exact List.mem_append_right _ (by rw [hin]; exact List.mem_cons_of_mem _ hm'))⟩
  | @exit i hi hs he ho hc =>
    have hn := l.node i hi
    refine ⟨_, .tail (.refl _) (.exit hi (by rw [hn]; exact hs) (by rw [hn]; exact he) (by rw [hn]; exact ho) (by rw [hn]; exact hc)), ?_⟩
    rw [hn]
    exact l.update i { S i with exited := true } (l.outs i hi) (l.bytes i hi) (l.pending i hi)

theorem like (P : Chan.Protocol impl ids r₀ coins M out Good tys timeout now init) (hout : ∀ i ∈ ids, ∀ n, n < 2 → ∀ m ∈ out i n, Fits ids m)
    {S : Chan.Sys G R} (h : Chan.Steps impl ids coins (Chan.start init) S) :
    ∃ U N, Steps impl ids coins (start init fun _ => []) U ∧ Like ids U S ∧ Chan.Run impl ids coins M init S N := by
  induction h with
  | refl =>
    refine ⟨_, _, .refl _, ⟨fun _ _ => rfl, ?_, ?_, ?_⟩, Chan.run_start P⟩
    all_goals intro i hi m hm; cases hm
  | tail _ hs ih =>
    obtain ⟨U, N, h1, l, r⟩ := ih
    obtain ⟨U', h2, l'⟩ := l.step P hout r hs
    obtain ⟨N', r', _⟩ := r.step P hs
    exact ⟨U', N', h1.trans h2, l', r'⟩

end

end Verif.Udp
