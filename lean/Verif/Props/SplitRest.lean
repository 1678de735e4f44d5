import Verif.Props.Split
import Verif.Props.SignNet

/-!
C126, continued: what those hold who were not cheated.  Concrete cases are in `Verif/Cases/Split.lean`.
-/

namespace Verif.Props

open Verif State Keygen Outcome Polynomial

variable {G : Type} [RGroup G] {sha : Sha512}

/-- A party that was not cheated and finishes holds what it would hold if nobody had been: a share of the sum of all polynomials, also those
of the cheated parties and of the cheater. -/
theorem C126_rest_key (ids : IDSlice) (hsorted : ids.Pairwise (· < ·)) (t : UInt16) (a : ID) (coins : ID → Coins) (V : List ID)
    (j : ID) (timeout now : Nat) (s₀ : State G (Keygen.Round G)) (hnew : newKeygenState sha j ids t timeout now = .ok s₀)
    {h : List (Op G × Ret G)} {s : State G (Keygen.Round G)} (hh : Hist (impl sha) s₀ h s) (hrun : Spec.SplitRun ids t a coins V j h) (hV : j ∉ V)
    (hd : s.done = true) (he : s.err = none) : Spec.KeygenResult ids t (Spec.jointPoly ids t.toNat coins) j s.round := by
  have hnd : ids.Nodup := hsorted.imp fun {a b} h e => by subst e; exact absurd h (by simp)
  obtain ⟨r₀, hst, rfl⟩ := start_of_new hnew hnd
  have hji : j ∈ ids := IDSlice.contains_sound hst.eq.2.2.2
  obtain ⟨heq, _⟩ := hst.eq
  have e1 : r₀.selfID = j := by rw [heq]
  obtain ⟨f, C, z, h1, h2, h3, h4, h5, pub, h6, h7, h8, h9, h10, h11, _⟩ := finished_spec hst ((running hst hh).2 hd he)
  have hf : f = coinPoly t (coins j) := by
    obtain ⟨ord, c, _, hm⟩ := h2
    have hsent : _ ∈ Spec.emitted h := List.mem_flatMap.mpr ⟨_, hm, List.mem_singleton.mpr rfl⟩
    rw [hrun.sends, List.mem_cons] at hsent
    rcases hsent with h | h
    · have hk : some (_ : KeyGen1 G) = some _ := congrArg Message.keyGen1 h
      have hk := congrArg KeyGen1.commitments (Option.some.inj hk)
      exact ofPoly_injective (G := G) hk
    · obtain ⟨k, _, hk⟩ := List.mem_map.mp h
      cases congrArg Message.keyGen1 hk
  have hC : ∀ id ∈ others j ids, C id = Exponent.ofPoly (coinPoly t (coins id)) := by
    intro id hid
    obtain ⟨⟨m, k, g1, _, g3, g4, g5, g6⟩, _⟩ := h4 id hid
    rcases hrun.gets m _ g1 with ⟨k', _, _, rfl⟩ | ⟨k', _, _, _, rfl⟩ | rfl
    · cases g3
      rw [← g6, ← Option.some.inj g5]
      rfl
    · cases g4
    · cases g4
  have hz : ∀ id ∈ others j ids, z id = Spec.evalAt (coinPoly t (coins id)) j.val := by
    intro id hid
    obtain ⟨_, _, ⟨m, k, g1, g2, g3, g4, g5, g6⟩, _⟩ := h4 id hid
    rcases hrun.gets m _ g1 with ⟨k', _, _, rfl⟩ | ⟨k', _, _, _, rfl⟩ | rfl
    · cases g4
    · cases g3
      rw [← g6, ← Option.some.inj g5]
      rfl
    · cases g3
      rw [← g6, ← Option.some.inj g5, if_neg hV]
      exact add_zero _
  have hF : ∀ x, (Spec.jointPoly ids t.toNat coins).eval x = Spec.evalAt f x + ((others j ids).map fun id => Spec.evalAt (coinPoly t (coins id)) x).sum := by
    intro x
    rw [jointPoly_eval, hf, ← sum_others hnd hji]
    simp only [coinsPoly_eval]
  have hG : ∀ x, (Spec.jointPoly ids t.toNat coins).eval x • (base : G) =
      Spec.evalAt f x • base + ((others j ids).map fun id => if (C id).length = t.toNat + 1 then Spec.evalAt (C id) x else 0).sum := by
    intro x
    rw [hF, add_smul]
    congr 1
    have : ∀ l : List ID, (∀ id ∈ l, C id = Exponent.ofPoly (coinPoly t (coins id))) →
        (l.map fun id => Spec.evalAt (coinPoly t (coins id)) x).sum • (base : G) =
        (l.map fun id => if (C id).length = t.toNat + 1 then Spec.evalAt (C id) x else 0).sum := by
      intro l hl
      induction l with
      | nil => simp
      | cons a l ih =>
        rw [List.map_cons, List.sum_cons, List.map_cons, List.sum_cons, add_smul, ih fun id h => hl id (List.mem_cons_of_mem _ h)]
        rw [hl a List.mem_cons_self, Exponent.ofPoly_evalAt, if_pos (by simp [Exponent.ofPoly, coinPoly_length])]
    exact this _ hC
  refine ⟨?_, pub, h6, h7, h8, ?_, ?_, h11⟩
  · rw [h5]
    have : Spec.evalAt f j.val + ((others j ids).map z).sum = (Spec.jointPoly ids t.toNat coins).eval (j.toNat : Scalar) := by
      rw [hF, List.map_congr_left hz]
      rfl
    rw [this]
    rfl
  · rw [h9, hG]
  · intro k hk
    rw [h10 k hk, ← hG]
    rfl

/-- So more than `t` of them can sign without the cheated ones: their sessions can be started, and C43 applies to them. -/
theorem C126_rest_can_sign (ids : IDSlice) (hsorted : ids.Pairwise (· < ·)) (h0 : (0 : ID) ∉ ids) (t : UInt16) (a : ID) (coins : ID → Coins) (V : List ID)
    (kt kn : ID → Nat) (s₀ s : ID → State G (Keygen.Round G)) (h : ID → List (Op G × Ret G)) (S : IDSlice) (hS : S.Pairwise (· < ·))
    (hsub : ∀ j ∈ S, j ∉ V) (hlen : t.toNat < S.length) (hnew : ∀ j ∈ S, newKeygenState sha j ids t (kt j) (kn j) = .ok (s₀ j))
    (hh : ∀ j ∈ S, Hist (impl sha) (s₀ j) (h j) (s j)) (hrun : ∀ j ∈ S, Spec.SplitRun ids t a coins V j (h j))
    (hd : ∀ j ∈ S, (s j).done = true ∧ (s j).err = none) (message : Bytes) (timeout now : ID → Nat) :
    ∃ (secret : ID → SecretShare G) (pub : ID → Public G) (init : ID → State G (Sign.Round G)),
      (∀ j ∈ S, (s j).round.output.secretKey = some (secret j) ∧ (s j).round.output.pub = some (pub j)) ∧
      Spec.SignSetup sha S t (Spec.jointPoly ids t.toNat coins) message secret pub timeout now init := by
  have hres := fun j hj => C126_rest_key ids hsorted t a coins V j (kt j) (kn j) (s₀ j) (hnew j hj) (hh j hj) (hrun j hj) (hsub j hj) (hd j hj).1 (hd j hj).2
  have hnd : ∀ {l : IDSlice}, l.Pairwise (· < ·) → l.Nodup := fun hl => hl.imp fun {a b} h e => by subst e; exact absurd h (by simp)
  have hin : ∀ j ∈ S, j ∈ ids := fun j hj => by
    obtain ⟨_, hst, _⟩ := start_of_new (hnew j hj) (hnd hsorted)
    exact IDSlice.contains_sound hst.eq.2.2.2
  have hne : ∃ j, j ∈ S := List.exists_mem_of_ne_nil _ (by rintro rfl; cases hlen)
  have hle : ∀ {l : IDSlice}, l.Pairwise (· < ·) → l.Pairwise (· ≤ ·) := fun hl => hl.imp fun h => UInt16.le_of_lt h
  have hex : ∀ j, ∃ (sk : SecretShare G) (p : Public G) (i : State G (Sign.Round G)), j ∈ S →
      (s j).round.output.secretKey = some sk ∧ (s j).round.output.pub = some p ∧ sk.id = j ∧
      sk.secret = (Spec.jointPoly ids t.toNat coins).eval (j.toNat : Scalar) ∧ p.groupKey = (Spec.jointPoly ids t.toNat coins).eval 0 • (base : G) ∧
      (∀ k ∈ ids, p.shares.get? k = some ((Spec.jointPoly ids t.toNat coins).eval (k.toNat : Scalar) • base)) ∧
      Sign.newSignState sha S sk p message (timeout j) (now j) = .ok i := by
    have key : ∀ j ∈ S, ∀ T N, ∃ (sk : SecretShare G) (p : Public G) (i : State G (Sign.Round G)),
        (s j).round.output.secretKey = some sk ∧ (s j).round.output.pub = some p ∧ sk.id = j ∧
        sk.secret = (Spec.jointPoly ids t.toNat coins).eval (j.toNat : Scalar) ∧ p.groupKey = (Spec.jointPoly ids t.toNat coins).eval 0 • (base : G) ∧
        (∀ k ∈ ids, p.shares.get? k = some ((Spec.jointPoly ids t.toNat coins).eval (k.toNat : Scalar) • base)) ∧
        Sign.newSignState sha S sk p message T N = .ok i := by
      intro j hj T N
      obtain ⟨g1, p, g2, g3, _, g4, g5, _⟩ := hres j hj
      obtain ⟨i, hi⟩ := C42_accepts (sha := sha) ⟨j, (Spec.jointPoly ids t.toNat coins).eval (j.toNat : Scalar), _⟩ p S message T N (hle hS) (by rw [g3]; exact hle hsorted) hj
        (fun id hid => ⟨by rw [g3]; exact hin id hid, fun h => h0 (h ▸ hin id hid), by rw [g5 id (hin id hid)]; simp⟩)
      exact ⟨_, p, i, g1, g2, rfl, rfl, g4, g5, hi⟩
    intro j
    by_cases hj : j ∈ S
    · obtain ⟨sk, p, i, g⟩ := key j hj (timeout j) (now j)
      exact ⟨sk, p, i, fun _ => g⟩
    · obtain ⟨k, hk⟩ := hne
      obtain ⟨sk, p, i, _⟩ := key k hk 0 0
      exact ⟨sk, p, i, fun h => absurd h hj⟩
  choose secret pub init hall using hex
  refine ⟨secret, pub, init, fun j hj => ⟨(hall j hj).1, (hall j hj).2.1⟩, hle hS, hnd hS, jointPoly_natDegree .., hlen, fun j hj => (hall j hj).2.2.1,
    fun j hj => (hall j hj).2.2.2.1, fun j hj => (hall j hj).2.2.2.2.1, fun j hj k hk => (hall j hj).2.2.2.2.2.1 k (hin k hk), fun j hj => (hall j hj).2.2.2.2.2.2⟩

end Verif.Props
