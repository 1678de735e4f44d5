import Verif.Model.Cmd
import Verif.Props.Helpers
import Verif.Lemmas.Net

/-!
The loops of the command line programs drive a network of honest parties in lockstep.
-/

namespace Verif.State

open Spec Cmd Props

variable {G R : Type} [RGroup G]

/-- The messages of an honest run survive encoding, and each party sends each other party exactly one per round. -/
structure Lockstep (ids : IDSlice) (M : Nat → ID → ID → Message G) (out : ID → Nat → List (Message G)) : Prop where
  codec : ∀ i ∈ ids, ∀ n, n < 2 → ∀ m ∈ out i n, ∃ b, Message.marshalBinary m = .ok b ∧ Message.unmarshalBinary Message.fresh b = .ok m
  once : ∀ i ∈ ids, ∀ j ∈ ids, j ≠ i → ∀ n, n < 2 →
    (out j n).filter (fun m => decide (m.header.toID = 0 ∨ m.header.toID = i)) = [M (n + 1) j i]

/-- The messages that `HandleMessage` of `i` does not ignore. -/
def forMe (i : ID) (m : Message G) : Bool := decide (m.header.fromID ≠ i ∧ (m.header.toID = 0 ∨ m.header.toID = i))

omit [RGroup G] in
theorem deliver_some {impl : RoundImpl G R} {ids : IDSlice} {i : ID} (hsorted : ids.Pairwise (· ≤ ·)) {t : MsgType} {ts : List MsgType}
    (ms : List (Message G)) {s : State G R} (hd : s.done = false) (ht : s.acceptedTypes = t :: ts) (h1 : impl.selfID s.round = i)
    (h2 : impl.partyIDs s.round = ids) (hms : ∀ m ∈ ms, m.header.fromID ∈ ids ∧ m.header.type = t)
    (hnd : ((ms.filter (forMe i)).map fun m => m.header.fromID).Nodup) (hn : ∀ m ∈ ms.filter (forMe i), m.header.fromID ∉ s.received.keys) :
    ∃ tm, Hist impl s (Spec.accepted ms)
      { s with timer := tm, received := s.received ++ (ms.filter (forMe i)).map fun m => (m.header.fromID, some m) } := by
  induction ms generalizing s with
  | nil => exact ⟨s.timer, by simpa [Spec.accepted] using Hist.nil⟩
  | cons m ms ih =>
    by_cases hm : forMe i m = true
    · rw [List.filter_cons_of_pos hm] at hnd hn ⊢
      rw [List.map_cons, List.nodup_cons] at hnd
      have hm' := of_decide_eq_true hm
      have hrel : Relevant (impl.selfID s.round) (impl.partyIDs s.round) m := by
        rw [h1, h2]
        exact ⟨hm'.1, hm'.2, IDSlice.contains_complete hsorted (hms m List.mem_cons_self).1⟩
      have g1 := handle_stores hd ht hrel (hn m List.mem_cons_self) (hms m List.mem_cons_self).2
      rw [GoMap.set_of_not_mem _ (hn m List.mem_cons_self)] at g1
      obtain ⟨tm, g2⟩ := ih (s := { s with timer := s.timer.ackMessage, received := s.received ++ [(m.header.fromID, some m)] }) hd ht h1 h2
        (fun m' hm' => hms m' (List.mem_cons_of_mem _ hm')) hnd.2 (by
          intro m' hm'
          simp only [GoMap.keys, List.map_append, List.map_cons, List.map_nil, List.mem_append, List.mem_singleton, not_or]
          exact ⟨hn m' (List.mem_cons_of_mem _ hm'), fun he => hnd.1 (List.mem_map.mpr ⟨m', hm', he⟩)⟩)
      refine ⟨tm, hist_cons.mpr ⟨_, by simp only [step, g1]; rfl, ?_⟩⟩
      simpa [Spec.accepted] using g2
    · have hm' : forMe i m = false := by simpa using hm
      rw [List.filter_cons_of_neg hm] at hnd hn ⊢
      have g1 : handleMessage impl s m = (s, none) := by
        unfold handleMessage
        simp only [hd, Bool.false_eq_true, if_false, ht, h1]
        by_cases hf : m.header.fromID = i
        · rw [if_pos hf]
        · rw [if_neg hf, if_pos]
          have := of_decide_eq_false hm'
          push Not at this
          have h3 := this hf
          exact ⟨by simp [Header.isBroadcast, h3.1], h3.2⟩
      obtain ⟨tm, g2⟩ := ih hd ht h1 h2 (fun m' hm' => hms m' (List.mem_cons_of_mem _ hm')) hnd hn
      exact ⟨tm, hist_cons.mpr ⟨_, by simp only [step, g1], g2⟩⟩

/-- A session between two of the loops. -/
structure Between (n : Nat) (s : State G R) : Prop where
  running : s.done = false
  round : s.roundNumber = n
  queue : s.queue = []
  received : n ≠ 0 → s.received = []

section

variable {impl : RoundImpl G R} {ids : IDSlice} {r₀ : ID → R} {coins : ID → Coins} {M : Nat → ID → ID → Message G}
  {out : ID → Nat → List (Message G)} {Good : ID → Nat → R → Prop} {timeout now : ID → Nat} {N : Net G R} {tys : List MsgType}

omit [RGroup G] in
theorem path_accepted {i : ID} (hi : i ∈ ids) (ms : List (Message G)) (hms : ∀ m ∈ ms, m ∈ N.sent) {s : State G R}
    (hh : Hist impl (N.state i) (Spec.accepted ms) s) :
    ∃ N', Path impl ids coins N N' ∧ N'.state i = s ∧ (∀ j, j ≠ i → N'.state j = N.state j) ∧ N'.sent = N.sent := by
  induction ms generalizing N with
  | nil => exact ⟨N, .refl N, (hist_nil.mp hh).symm, fun _ _ => rfl, rfl⟩
  | cons m ms ih =>
    obtain ⟨s₁, g1, g2⟩ := hist_cons.mp hh
    let N₁ := N.after i (.handle m) (.handled none) s₁
    have e1 : N₁.state i = s₁ := by simp [N₁, Net.after]
    have e2 : N₁.sent = N.sent := by simp [N₁, Net.after, returned]
    obtain ⟨N', g3, g4, g5, g6⟩ := ih (N := N₁) (by rw [e2]; exact fun m' hm' => hms m' (List.mem_cons_of_mem _ hm')) (by rw [e1]; exact g2)
    refine ⟨N', Path.trans ((Path.refl N).tail (op := .handle m) hi (hms m List.mem_cons_self) g1) g3, g4, ?_, g6.trans e2⟩
    intro j hj
    rw [g5 j hj]
    simp [N₁, Net.after, Function.update_of_ne hj]

omit [RGroup G] in
/-- The messages of one round for `i`, sent by everybody in any order. -/
theorem filter_round (H : Honest impl ids r₀ coins M out Good tys) (once : ∀ i ∈ ids, ∀ j ∈ ids, j ≠ i → ∀ n, n < 2 →
    (out j n).filter (fun m => decide (m.header.toID = 0 ∨ m.header.toID = i)) = [M (n + 1) j i]) {i : ID} (hi : i ∈ ids) {n : Nat} (hn : n < 2)
    (js : List ID) (hjs : ∀ j ∈ js, j ∈ ids) :
    (js.flatMap fun j => out j n).filter (forMe i) = (js.filter fun j => decide (j ≠ i)).map fun j => M (n + 1) j i := by
  induction js with
  | nil => rfl
  | cons j js ih =>
    rw [List.flatMap_cons, List.filter_append, ih fun k hk => hjs k (List.mem_cons_of_mem _ hk)]
    have hj := hjs j List.mem_cons_self
    by_cases hji : j = i
    · rw [List.filter_cons_of_neg (by simp [hji]), List.filter_eq_nil_iff.mpr, List.nil_append]
      intro m hm
      have := (H.out_spec j hj n hn m hm).1
      simp [forMe, this, hji]
    · rw [List.filter_cons_of_pos (by simp [hji]), List.map_cons, ← List.singleton_append, ← once i hi j hj hji n hn]
      congr 1
      apply List.filter_congr
      intro m hm
      have := (H.out_spec j hj n hn m hm).1
      simp [forMe, this, hji]

/-- What one party does in one of the loops. -/
theorem NetInv.routine (H : Honest impl ids r₀ coins M out Good tys) (L : Lockstep ids M out) (hN : NetInv impl ids r₀ out Good timeout now N)
    {i : ID} (hi : i ∈ ids) {n : Nat} (hn : n < 3) (hb : Between n (N.state i)) {js : List ID} (hjs : js.Perm ids) {ms : List (Message G)}
    (hms : ms = if n = 0 then [] else js.flatMap fun j => out j (n - 1)) (hsent : ∀ m ∈ ms, m ∈ N.sent) (ord : MapOrder) (c : Coins)
    (hc : n = 0 → c = coins i) :
    ∃ N', Path impl ids coins N N' ∧ (∀ j, j ≠ i → N'.state j = N.state j) ∧ N'.sent = N.sent ++ out i n ∧
      Hist impl (N.state i) (Spec.accepted ms ++ [(.processAll ord c, .messages (out i n))]) (N'.state i) ∧ (N'.state i).err = none ∧
      (n < 2 → Between (n + 1) (N'.state i)) ∧ (n = 2 → (N'.state i).done = true) := by
  have hinv := inv_hist H.stable (hN.hist i hi)
  have hself : impl.selfID (N.state i).round = i := by rw [hinv.self, H.self i hi]
  have hids : impl.partyIDs (N.state i).round = ids := by rw [hinv.ids, H.parties i hi]
  have htypes : (N.state i).acceptedTypes = tys.drop n := by
    rw [hinv.types, H.types i hi, show (N.state i).used = n by simp [used, hb.running, hb.round]]
  obtain ⟨ty, types, hty⟩ : ∃ ty types, (N.state i).acceptedTypes = ty :: types := by
    cases hl : (N.state i).acceptedTypes with
    | cons ty types => exact ⟨ty, types, rfl⟩
    | nil =>
      rw [hl] at htypes
      have := congrArg List.length htypes
      rw [List.length_nil, List.length_drop, H.tys_length] at this
      omega
  -- deliveries
  have hdel : ∃ tm rec', Hist impl (N.state i) (Spec.accepted ms) { N.state i with timer := tm, received := rec' } ∧
      ∀ k ∈ others i ids, k ∈ GoMap.keys rec' := by
    by_cases h0 : n = 0
    · subst h0
      rw [if_pos rfl] at hms
      subst hms
      refine ⟨(N.state i).timer, (N.state i).received, Hist.nil, ?_⟩
      intro k hk
      rw [(hinv.round0 hb.round hb.running).1, H.self i hi, H.parties i hi, mem_initReceived]
      have := mem_others.mp hk
      exact Or.inr ⟨this.1, this.2⟩
    · rw [if_neg h0] at hms
      obtain ⟨n', rfl⟩ : ∃ n', n = n' + 1 := ⟨n - 1, by omega⟩
      rw [Nat.add_sub_cancel] at hms
      have hf := filter_round H L.once hi (show n' < 2 by omega) js (fun j hj => hjs.mem_iff.mp hj)
      rw [← hms] at hf
      have hfrom : ∀ j ∈ js.filter (fun j => decide (j ≠ i)), (M (n' + 1) j i).header.fromID = j := by
        intro j hj
        obtain ⟨hj, hne⟩ := List.mem_filter.mp hj
        have hj := hjs.mem_iff.mp hj
        exact (H.out_spec j hj n' (by omega) _ (H.out_mem j hj i hi (Ne.symm (of_decide_eq_true hne)) n' (by omega)).1).1
      have hmap : ((ms.filter (forMe i)).map fun m => m.header.fromID) = js.filter fun j => decide (j ≠ i) := by
        rw [hf, List.map_map]
        conv_rhs => rw [← List.map_id (js.filter fun j => decide (j ≠ i))]
        exact List.map_congr_left hfrom
      obtain ⟨tm, g⟩ := deliver_some (i := i) H.sorted ms hb.running hty hself hids (by
          intro m hm
          rw [hms] at hm
          obtain ⟨j, hj, hm⟩ := List.mem_flatMap.mp hm
          have hj := hjs.mem_iff.mp hj
          obtain ⟨a1, a2, _⟩ := H.out_spec j hj n' (by omega) m hm
          refine ⟨by rw [a1]; exact hj, ?_⟩
          have : (tys.drop (n' + 1))[0]? = some m.header.type := by rw [List.getElem?_drop]; exact a2
          rw [← htypes, hty] at this
          exact (Option.some.inj this).symm)
        (by rw [hmap]; exact ((hjs.nodup_iff.mpr H.nodup).filter _))
        (by rw [hb.received h0]; simp)
      refine ⟨tm, _, g, ?_⟩
      intro k hk
      have hk := mem_others.mp hk
      rw [hb.received h0, List.nil_append, GoMap.keys, List.map_map]
      show k ∈ (ms.filter (forMe i)).map fun m => m.header.fromID
      rw [hmap, List.mem_filter]
      exact ⟨hjs.mem_iff.mpr hk.1, by simpa using hk.2⟩
  obtain ⟨tm, rec', hdel, hkeys⟩ := hdel
  obtain ⟨N₁, p1, p2, p3, p4⟩ := path_accepted (coins := coins) hi ms hsent hdel
  have hN₁ := hN.path H p1
  have hinv₁ := inv_hist H.stable (hN₁.hist i hi)
  have hfull : Full impl (N₁.state i) := by
    refine full_of_keys hinv₁ ?_ ?_ ?_
    · rw [H.parties i hi]; exact H.nodup
    · rw [H.parties i hi, H.self i hi]; exact hi
    · rw [H.parties i hi, H.self i hi, p2]; exact hkeys
  have hrn : (N₁.state i).roundNumber = n := by rw [p2]; exact hb.round
  have hd₁ : (N₁.state i).done = false := by rw [p2]; exact hb.running
  have hq₁ : (N₁.state i).queue = [] := by rw [p2]; exact hb.queue
  obtain ⟨t, o, h1, h2, h3⟩ := hN₁.process H hi ord c (by rw [hrn]; exact hc)
  have hstep : State.step impl (N₁.state i) (.processAll ord c) = some (t, .messages o) := by simp [State.step, h1]
  rcases h3 with ⟨h3 | h3, _⟩ | ⟨_, rfl, h4, h5⟩
  · rw [hd₁] at h3; cases h3
  · exact absurd hfull h3
  rw [hrn] at h1 hstep h4 h5
  refine ⟨_, p1.tail (op := .processAll ord c) hi (by rw [Allowed, hrn]; exact hc) hstep, ?_, ?_, ?_, ?_, ?_, ?_⟩
  · intro j hj
    simp only [Net.after, Function.update_of_ne hj]
    exact p3 j hj
  · simp only [Net.after, returned, p4]
  · simp only [Net.after, Function.update_self]
    rw [← p2] at hdel
    exact hdel.snoc hstep
  · simp only [Net.after, Function.update_self]
    exact h2
  · intro hn2
    simp only [Net.after, Function.update_self]
    have hd : t.done = false := by
      by_contra hc
      rw [Bool.not_eq_false] at hc
      simp only [prog, hc, if_true] at h4
      omega
    obtain ⟨h6, _, _⟩ := h5 hd
    generalize out i n = o at h1
    cases (processAll_iff impl).mp h1 with
    | idle h => rcases h with h | h
                · rw [hd₁] at h; cases h
                · exact absurd hfull h
    | processErr | generateErr => cases hd
    | last => cases hd
    | next ty' types' =>
      refine ⟨hd, h6, ?_, fun _ => ?_⟩
      · show movedQueue types' (N₁.state i).queue = []
        rw [hq₁]
        unfold movedQueue
        split <;> rfl
      · show movedReceived types' (N₁.state i).queue = []
        rw [hq₁]
        unfold movedReceived
        split <;> rfl
  · intro hn2
    simp only [Net.after, Function.update_self]
    by_contra hc
    rw [Bool.not_eq_true] at hc
    have := (h5 hc).2.1
    have := (h5 hc).1
    omega

theorem decode_of_encode {ms : List (Message G)} {bs : List Bytes}
    (hc : ∀ m ∈ ms, ∃ b, Message.marshalBinary m = .ok b ∧ Message.unmarshalBinary Message.fresh b = .ok m) (h : Spec.Encode ms bs) : Spec.Decode bs ms := by
  induction h with
  | nil => exact .nil
  | @cons m b ms bs h1 _ ih =>
    obtain ⟨b', h3, h4⟩ := hc m List.mem_cons_self
    rw [h1] at h3
    cases h3
    exact .cons h4 (ih fun m' hm' => hc m' (List.mem_cons_of_mem _ hm'))

theorem encode_exists {ms : List (Message G)} (hc : ∀ m ∈ ms, ∃ b, Message.marshalBinary m = .ok b ∧ Message.unmarshalBinary Message.fresh b = .ok m) :
    ∃ bs, Spec.Encode ms bs := by
  induction ms with
  | nil => exact ⟨[], .nil⟩
  | cons m ms ih =>
    obtain ⟨b, h1, _⟩ := hc m List.mem_cons_self
    obtain ⟨bs, h2⟩ := ih fun m' hm' => hc m' (List.mem_cons_of_mem _ hm')
    exact ⟨b :: bs, .cons h1 h2⟩

theorem encode_append {ms ms' : List (Message G)} {bs bs' : List Bytes} (h : Spec.Encode ms bs) (h' : Spec.Encode ms' bs') :
    Spec.Encode (ms ++ ms') (bs ++ bs') := by
  induction h with
  | nil => exact h'
  | cons h1 _ ih => exact .cons h1 ih

/-- The map of sessions of the program is the network. -/
def Shows (ids : IDSlice) (states : GoMap (Option (State G R))) (N : Net G R) : Prop :=
  states.keys.Perm ids ∧ ∀ i ∈ ids, states.get? i = some (some (N.state i))

/-- One of the loops. -/
theorem NetInv.stageLoop (H : Honest impl ids r₀ coins M out Good tys) (L : Lockstep ids M out) (hN : NetInv impl ids r₀ out Good timeout now N)
    {n : Nat} (hn : n < 3) {js : List ID} (hjs : js.Perm ids) {ms : List (Message G)} {ins : List Bytes}
    (hms : ms = if n = 0 then [] else js.flatMap fun j => out j (n - 1)) (hins : Spec.Encode ms ins) (hsent : ∀ m ∈ ms, m ∈ N.sent)
    (ord : ID → MapOrder) (c : ID → Coins) (hc : n = 0 → ∀ i ∈ ids, c i = coins i) (l : List ID) (hl : l.Nodup) (hsub : ∀ i ∈ l, i ∈ ids)
    (hb : ∀ i ∈ l, Between n (N.state i)) (states : GoMap (Option (State G R))) (hst : Shows ids states N) (acc : List Bytes) :
    ∃ N' states' outs, Path impl ids coins N N' ∧ Cmd.stageLoop impl ord c ins l states acc = .done (states', acc ++ outs) ∧
      Spec.Encode (l.flatMap fun i => out i n) outs ∧ Shows ids states' N' ∧ N'.sent = N.sent ++ l.flatMap (fun i => out i n) ∧
      (∀ j, j ∉ l → N'.state j = N.state j) ∧ ∀ i ∈ l, (n < 2 → Between (n + 1) (N'.state i)) ∧ (n = 2 → (N'.state i).done = true) := by
  have hmem : ∀ m ∈ ms, ∃ b, Message.marshalBinary m = .ok b ∧ Message.unmarshalBinary Message.fresh b = .ok m := by
    intro m hm
    by_cases h0 : n = 0
    · rw [hms, if_pos h0] at hm; cases hm
    · rw [hms, if_neg h0] at hm
      obtain ⟨j, hj, hm⟩ := List.mem_flatMap.mp hm
      exact L.codec j (hjs.mem_iff.mp hj) _ (by omega) m hm
  induction l generalizing N states acc with
  | nil => exact ⟨N, states, [], .refl N, by simp [Cmd.stageLoop], .nil, hst, by simp, fun _ _ => rfl, by simp⟩
  | cons i l ih =>
    rw [List.nodup_cons] at hl
    have hi := hsub i List.mem_cons_self
    obtain ⟨N₁, p1, p2, p3, p4, p5, p6, p7⟩ := hN.routine H L hi hn (hb i List.mem_cons_self) hjs hms hsent (ord i) (c i) (fun h => hc h i hi)
    obtain ⟨bs, hbs⟩ : ∃ bs, Spec.Encode (out i n) bs := by
      by_cases h2 : n < 2
      · exact encode_exists fun m hm => L.codec i hi n h2 m hm
      · rw [show n = 2 by omega, H.out_last i hi]; exact ⟨[], .nil⟩
    have hr : partyRoutine impl (ord i) (c i) ins (N.state i) = some (N₁.state i, .ok bs) :=
      (C64_returns_iff (ord i) (c i) ins (N.state i) (N₁.state i) bs).mpr ⟨ms, out i n, decode_of_encode hmem hins, p4, hbs, fun _ => p5⟩
    have hst₁ : Shows ids (states.set i (some (N₁.state i))) N₁ := by
      refine ⟨?_, fun j hj => ?_⟩
      · rw [GoMap.keys_set_of_mem _ (hst.1.mem_iff.mpr hi)]; exact hst.1
      · rw [GoMap.get?_set]
        by_cases hji : j = i
        · rw [if_pos hji, hji]
        · rw [if_neg hji, p2 j hji]; exact hst.2 j hj
    obtain ⟨N₂, st₂, outs, q1, q2, q3, q4, q5, q6, q7⟩ := ih (hN.path H p1) (fun m hm => by rw [p3]; exact List.mem_append_left _ (hsent m hm))
      hl.2 (fun j hj => hsub j (List.mem_cons_of_mem _ hj)) (fun j hj => by
        rw [p2 j (fun h => hl.1 (h ▸ hj))]; exact hb j (List.mem_cons_of_mem _ hj)) _ hst₁ (acc ++ bs)
    refine ⟨N₂, st₂, bs ++ outs, Path.trans p1 q1, ?_, ?_, q4, ?_, ?_, ?_⟩
    · rw [Cmd.stageLoop, hst.2 i hi]
      simp only [Option.join_some, hr]
      rw [q2, List.append_assoc]
    · rw [List.flatMap_cons]; exact encode_append hbs q3
    · rw [q5, p3, List.flatMap_cons, List.append_assoc]
    · intro j hj
      rw [List.mem_cons, not_or] at hj
      rw [q6 j hj.2, p2 j hj.1]
    · intro j hj
      rcases List.mem_cons.mp hj with rfl | hj
      · rw [q6 j hl.1]; exact ⟨p6, p7⟩
      · exact q7 j hj

/-- The three loops together finish all sessions. -/
theorem NetInv.threeStages (H : Honest impl ids r₀ coins M out Good tys) (L : Lockstep ids M out) {init : ID → State G R}
    (hinit : ∀ i ∈ ids, init i = newBaseState impl (r₀ i) (timeout i) (now i)) (env : Cmd.Env) (hc : ∀ i ∈ ids, env.coins 0 i = coins i)
    (states : GoMap (Option (State G R))) (hst : Shows ids states (Net.start init)) :
    ∃ N s₁ s₂ s₃ o₁ o₂ o₃, Path impl ids coins (Net.start init) N ∧ Cmd.stage impl env 0 [] states = .done (s₁, o₁) ∧
      Cmd.stage impl env 1 o₁ s₁ = .done (s₂, o₂) ∧ Cmd.stage impl env 2 o₂ s₂ = .done (s₃, o₃) ∧ Shows ids s₃ N ∧
      ∀ i ∈ ids, (N.state i).done = true := by
  have hord : ∀ k (st : GoMap (Option (State G R))) (N : Net G R), Shows ids st N → (((env.range k).order _ st).keys).Perm ids :=
    fun k st N h => (((env.range k).perm _ st).map Prod.fst).trans h.1
  have hN := NetInv.start (timeout := timeout) (now := now) H hinit
  obtain ⟨N₁, s₁, o₁, p1, p2, p3, p4, p5, p6, p7⟩ := hN.stageLoop H L (n := 0) (by omega) (List.Perm.refl ids) (ms := []) (ins := []) rfl .nil (by simp)
    (env.order 0) (env.coins 0) (fun _ => hc) ((env.range 0).order _ states).keys ((hord 0 _ _ hst).nodup_iff.mpr H.nodup)
    (fun i hi => (hord 0 _ _ hst).mem_iff.mp hi) (by
      intro i hi
      have hi := (hord 0 _ _ hst).mem_iff.mp hi
      show Between 0 (init i)
      rw [hinit i hi]
      exact ⟨rfl, rfl, rfl, fun h => absurd rfl h⟩) states hst []
  have hN₁ := hN.path H p1
  obtain ⟨N₂, s₂, o₂, q1, q2, q3, q4, q5, q6, q7⟩ := hN₁.stageLoop H L (n := 1) (by omega) (hord 0 _ _ hst) (ins := o₁) rfl p3
    (by rw [p5]; intro m hm; exact List.mem_append_right _ hm)
    (env.order 1) (env.coins 1) (fun h => by cases h) ((env.range 1).order _ s₁).keys ((hord 1 _ _ p4).nodup_iff.mpr H.nodup)
    (fun i hi => (hord 1 _ _ p4).mem_iff.mp hi) (fun i hi => (p7 i ((hord 0 _ _ hst).mem_iff.mpr ((hord 1 _ _ p4).mem_iff.mp hi))).1 (by omega)) s₁ p4 []
  have hN₂ := hN₁.path H q1
  obtain ⟨N₃, s₃, o₃, r1, r2, r3, r4, r5, r6, r7⟩ := hN₂.stageLoop H L (n := 2) (by omega) (hord 1 _ _ p4) (ins := o₂) rfl q3
    (by rw [q5]; intro m hm; exact List.mem_append_right _ hm)
    (env.order 2) (env.coins 2) (fun h => by cases h) ((env.range 2).order _ s₂).keys ((hord 2 _ _ q4).nodup_iff.mpr H.nodup)
    (fun i hi => (hord 2 _ _ q4).mem_iff.mp hi) (fun i hi => (q7 i ((hord 1 _ _ p4).mem_iff.mpr ((hord 2 _ _ q4).mem_iff.mp hi))).1 (by omega)) s₂ q4 []
  exact ⟨N₃, s₁, s₂, s₃, o₁, o₂, o₃, Path.trans (Path.trans p1 q1) r1, p2, q2, r2, r4,
    fun i hi => (r7 i ((hord 2 _ _ q4).mem_iff.mpr hi)).2 rfl⟩

end

end Verif.State
