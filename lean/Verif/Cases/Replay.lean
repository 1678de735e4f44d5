import Verif.Cases.Reuse
import Verif.Cases.Keygen
import Verif.Props.Replay

/-!
For each theorem of `Props/Once.lean` and `Props/Replay.lean` that has hypotheses, a concrete case that meets them.
-/

namespace Verif.Cases

open State Props Props.Demo

/-- Whether a session has accepted a message. -/
def took (h : List (Op Toy × Ret Toy)) (m : Message Toy) : Bool := h.any fun x => match x with
  | (.handle m', .handled none) => decide (m' = m)
  | _ => false

theorem took_mem {h : List (Op Toy × Ret Toy)} {m : Message Toy} (ht : took h m = true) : (Op.handle m, Ret.handled none) ∈ h := by
  obtain ⟨x, hx, hm⟩ := List.any_eq_true.mp ht
  split at hm
  · rw [decide_eq_true_eq] at hm
    subst hm
    exact hx
  · cases hm

/-! ### Once.lean -/

/-- `C26_one_per_sender`: the commitments of party 2 in a session that succeeds. -/
example := C26_one_per_sender (Sign.impl_stable sumSha) s4 MsgType.none 3 [4] rfl (by decide) n2 n2 (took_mem (by decide +kernel)) (took_mem (by decide +kernel)) (by decide +kernel)
  (by decide +kernel) rfl rfl rfl

/-- `C26_sign_commitments`: the same session. -/
example : ∃ D E, Spec.Commitments (skey 1).id ids (at1 sops4).1 D E ∧ ∀ D' E', Spec.Commitments (skey 1).id ids (at1 sops4).1 D' E' → ∀ id ∈ ids, D id = D' id ∧ E id = E' id := by
  obtain ⟨_, D, E, h, _⟩ := C45_sent_share_valid (skey 1) key ids [1, 2, 3] 10 0 _ new1 (by decide) (by decide +kernel) s4 (Message.newSign2 1 18190) ⟨18190⟩ (by decide +kernel) rfl
  exact ⟨D, E, h, fun D' E' h' => C26_sign_commitments (skey 1) key ids [1, 2, 3] 10 0 _ new1 (by decide) s4 D E D' E' h h'⟩

/-- `C26_keygen_commitments`: the commitments of party 2 in a key generation. -/
example := C26_keygen_commitments 1 ids 1 10 0 _ (session_ok (by decide) (by decide) (by decide +kernel)) (by decide) hist3 2 [Toy.of 7, Toy.of 8] [Toy.of 7, Toy.of 8]
  ⟨com2, ⟨⟨0, 1⟩, [Toy.of 7, Toy.of 8]⟩, took_mem (by decide +kernel), by decide +kernel, rfl, rfl, rfl, rfl⟩
  ⟨com2, ⟨⟨0, 1⟩, [Toy.of 7, Toy.of 8]⟩, took_mem (by decide +kernel), by decide +kernel, rfl, rfl, rfl, rfl⟩

/-! ### Replay.lean -/

/-- `C97_first_comes`: round 1 of party 1, and any commitments of party 2. -/
example (D E : Toy) := C97_first_comes (impl := SI) (at1 sops1).2 (Message.newSign1 2 D E) (by decide +kernel) (by decide +kernel)
  ⟨(by decide +kernel : (2 : ID) ≠ SI.selfID (at1 sops1).2.round), (by decide +kernel : (2 : ID) ∈ SI.partyIDs (at1 sops1).2.round), Or.inl rfl⟩
  (by show (at1 sops1).2.received.get? 2 = none; decide +kernel) (by show _ = some (3 : MsgType); decide +kernel)

/-- `C97_sign_replay`: what party 2 sent in its session for `[1, 2, 3]` is given to the session of party 1 for `[9, 9, 9]`. -/
example := C97_sign_replay (sha := sumSha) (skey 1) (skey 2) key key ids ids (reMsg 1) [1, 2, 3] 10 0 10 0 _ _ (reNew 1) (by decide) new2 (by decide)
  (shist (s := reStart 1) sops1 (by decide +kernel)) t2 (by decide) (by decide) (by decide +kernel) (by decide +kernel) (by decide +kernel)
  (Message.newSign1 2 (Toy.of 15) (Toy.of 16)) (by decide +kernel) rfl

/-- `C97_share_accepted_iff`: the share of party 2 for these commitments is accepted by party 1 in the session for the same message. -/
example : ∃ r, (Sign.impl sumSha).processMessage (at1 sops2).2.round (some (Message.newSign2 2 (-19298))) = .ok r := by
  obtain ⟨_, D, E, h, _⟩ := C45_sent_share_valid (skey 1) key ids [1, 2, 3] 10 0 _ new1 (by decide) (by decide +kernel) s2 (Message.newSign2 1 18190) ⟨18190⟩ (by decide +kernel) rfl
  obtain ⟨_, D', E', h', _⟩ := C45_sent_share_valid (skey 2) key ids [1, 2, 3] 10 0 _ new2 (by decide) (by decide +kernel) t2 (Message.newSign2 2 (-19298)) ⟨-19298⟩ (by decide +kernel) rfl
  refine (C97_share_accepted_iff (skey 1) (skey 2) key key ids ids [1, 2, 3] [1, 2, 3] 10 0 10 0 _ _ new1 (by decide) new2 (by decide) (by decide +kernel) s2 t2 (by decide)
    (by decide +kernel) (by decide +kernel) (Message.newSign2 2 (-19298)) (by decide +kernel) ⟨-19298⟩ rfl D E D' E' h h' [] _ (.nil _)).1 ?_
  have e := of_inTable (self := 1) (by decide +kernel) h
  have e' := of_inTable (self := 2) (by decide +kernel) h'
  have e'' : ∀ id ∈ ids, D' id = D id ∧ E' id = E id := fun id hid => ⟨(e' id hid).1.trans (e id hid).1.symm, (e' id hid).2.trans (e id hid).2.symm⟩
  rw [Sign.nonce_congr e'' _ (by decide), Sign.chal_congr e'']

/-- Earlier key generations of parties 2 and 3, until they have dealt their shares. -/
def oldSession (k : ID) : List (Op Toy) := [.processAll .insertion (coins [10 * k.val, 6, 7])] ++ (if k = 2 then [.handle com3] else [.handle com2]) ++
  [.handle (Message.newKeyGen1 1 ⟨0, 1⟩ [Toy.of 3, Toy.of 4]), .processAll .insertion (coins [])]

/-- `C97_keygen_replay`: party 1 is given what they sent. -/
example := C97_keygen_replay (sha := toySha) ids (by decide) (by decide) 1 (by decide) 1 (fun _ => 10) (fun _ => 0) sess (fun k => (more (sess k) (oldSession k)).2)
  (fun k => (more (sess k) (oldSession k)).1) (fun k hk _ => session_ok (by decide) (by decide) ((by decide +kernel : ∀ k ∈ ids, IDSlice.contains ids k = true) k hk))
  (fun k hk _ => hist_more _ ((by decide +kernel : ∀ k ∈ ids, (run KI (sess k) (oldSession k)).isSome = true) k hk))
  (by decide +kernel) 10 0 _ (session_ok (by decide) (by decide) (by decide +kernel))

/-- `C97_framed_by_replay`: both orders of the map. -/
example := And.intro (C97_framed_by_replay .insertion (Or.inl rfl)) (C97_framed_by_replay .reversed (Or.inr rfl))

end Verif.Cases
