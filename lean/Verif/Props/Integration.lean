import Verif.Model.Integration
import Verif.Props.Cmd

/-!
C86: what the integration tests `TestKeygen` and `TestSign` establish, and what they do not.
-/

namespace Verif.Props

open Integration
open Cmd (End Env done_bind bind_eq_done ofRes_eq_done deref_eq_done)
open State (newBaseState)
open scoped Polynomial

variable {G R : Type} [RGroup G] {sha : Sha512}

/-! ### The loops -/

theorem testLoop_eq {impl : RoundImpl G R} {order : ID → MapOrder} {coins : ID → Coins} {ins : List Bytes} (l : List ID)
    {st st' : GoMap (Option (State G R))} {out out' : List Bytes} (ok : Bool) (h : Cmd.stageLoop impl order coins ins l st out = .done (st', out')) :
    testLoop impl order coins ins l st out ok = .done (st', out', ok) := by
  induction l generalizing st out with
  | nil => cases h; rfl
  | cons a l ih =>
    rw [Cmd.stageLoop] at h
    rw [testLoop]
    split at h
    · cases h
    · rename_i s hs
      rw [hs]
      simp only
      split at h
      · cases h
      · cases h
      · rename_i s' msgs hr
        rw [hr]
        exact ih h

theorem testStage_eq {impl : RoundImpl G R} {env : Env} {k : Nat} {ins : List Bytes} {st st' : GoMap (Option (State G R))} {out' : List Bytes} (ok : Bool)
    (h : Cmd.stage impl env k ins st = .done (st', out')) : testStage impl env k ins st ok = .done (st', out', ok) :=
  testLoop_eq _ ok h

theorem testKeygenStates_eq {env : Env} {ids : IDSlice} {t : UInt16} (l : List ID) {st st' : GoMap (Option (State G (Keygen.Round G)))}
    (h : Cmd.keygenStates sha env ids t l st = .done st') : Integration.keygenStates (keygenImpl sha env ids t) l st = .done (some st') := by
  induction l generalizing st with
  | nil => cases h; rfl
  | cons a l ih =>
    rw [Cmd.keygenStates, bind_eq_done] at h
    obtain ⟨s, hs, h⟩ := h
    rw [ofRes_eq_done] at hs
    rw [Integration.keygenStates]
    rw [show (keygenImpl (G := G) sha env ids t).new a = .ok s from hs]
    exact ih h

/-! ### `ValidateSecrets` -/

/-- An entry of the map of secret shares as `ValidateSecrets` wants it. -/
def Spec.EntryValid (shares : Public G) (e : ID × Option (SecretShare G)) : Prop :=
  e.1 ≠ 0 ∧ e.1 ∈ shares.partyIDs ∧ ∃ s, e.2 = some s ∧ shares.shares.get? e.1 = some s.pub

/-- The weighted secret of an entry. -/
def Spec.weighted (ids : List ID) (e : ID × Option (SecretShare G)) : Scalar := Spec.weight e.1 ids * (e.2.map (·.secret)).getD 0

theorem validateLoop_iff (shares : Public G) (l : List (ID × Option (SecretShare G))) (acc full : Scalar) :
    validateLoop shares l acc = .ok (some full) ↔
      (∀ e ∈ l, Spec.EntryValid shares e) ∧ full = acc + (l.map (Spec.weighted shares.partyIDs)).sum := by
  induction l generalizing acc with
  | nil => simp [validateLoop, eq_comm]
  | cons e l ih =>
    obtain ⟨id, s⟩ := e
    rw [validateLoop]
    cases s with
    | none =>
      constructor
      · intro h; cases h
      · rintro ⟨h, _⟩
        obtain ⟨_, _, s, hs, _⟩ := h _ List.mem_cons_self
        cases hs
    | some s =>
      rw [Outcome.deref, Outcome.ok_bind]
      cases hg : shares.shares.get? id with
      | none =>
        constructor
        · intro h; cases h
        · rintro ⟨h, _⟩
          obtain ⟨_, _, s', _, hs⟩ := h _ List.mem_cons_self
          simp only at hs
          rw [hg] at hs
          cases hs
      | some pk2 =>
        simp only
        by_cases hp : s.pub = pk2
        swap
        · rw [if_pos hp]
          constructor
          · intro h; cases h
          · rintro ⟨h, _⟩
            obtain ⟨_, _, s', hs', hs⟩ := h _ List.mem_cons_self
            simp only at hs hs'
            obtain rfl := Option.some.inj hs'
            rw [hg] at hs
            exact absurd (Option.some.inj hs).symm hp
        rw [if_neg (not_not.mpr hp), ID.lagrange_eq]
        have hv : Spec.EntryValid shares (id, some s) ↔ id ≠ 0 ∧ id ∈ shares.partyIDs := by
          constructor
          · rintro ⟨h1, h2, _⟩; exact ⟨h1, h2⟩
          · rintro ⟨h1, h2⟩; exact ⟨h1, h2, s, rfl, by rw [hg, hp]⟩
        rw [List.forall_mem_cons, hv]
        by_cases h0 : id = 0
        · rw [if_pos h0]
          constructor
          · intro h; cases h
          · rintro ⟨⟨⟨h, _⟩, _⟩, _⟩; exact absurd h0 h
        rw [if_neg h0]
        by_cases hm : id ∈ shares.partyIDs
        swap
        · rw [if_neg hm]
          constructor
          · intro h; cases h
          · rintro ⟨⟨⟨_, h⟩, _⟩, _⟩; exact absurd h hm
        rw [if_pos hm]
        simp only
        rw [ih, List.map_cons, List.sum_cons]
        have : Spec.weighted shares.partyIDs (id, some s) = ID.lagrangeVal id shares.partyIDs * s.secret := by
          rw [← weight_eq]; rfl
        rw [this, ← add_assoc, add_comm acc]
        tauto

/-- C86: exactly what `ValidateSecrets` accepts: every secret share belongs to a party with the public share that is written in the secret share, and the
weighted secrets add up to the secret of the group key.  Whether a secret belongs to its public share is not looked at. -/
theorem C86_validate_iff (ord : MapOrder) (secrets : GoMap (Option (SecretShare G))) (groupKey : G) (shares : Public G) :
    validateSecrets ord secrets groupKey shares = .ok true ↔
      (∀ e ∈ secrets, Spec.EntryValid shares e) ∧ groupKey = (secrets.map (Spec.weighted shares.partyIDs)).sum • base := by
  have hperm := ord.perm _ secrets
  unfold validateSecrets
  rw [Outcome.bind_eq_ok]
  constructor
  · rintro ⟨full, h1, h2⟩
    cases full with
    | none => cases h2
    | some full =>
      obtain ⟨g1, g2⟩ := (validateLoop_iff _ _ _ _).mp h1
      refine ⟨fun e he => g1 e (hperm.mem_iff.mpr he), ?_⟩
      rw [zero_add, (hperm.map _).sum_eq] at g2
      have : PublicKey.equal groupKey (full • (base : G)) = true := Outcome.ok.inj h2
      rw [PublicKey.equal, decide_eq_true_eq] at this
      rw [this, g2]
  · rintro ⟨h1, h2⟩
    refine ⟨some (secrets.map (Spec.weighted shares.partyIDs)).sum, (validateLoop_iff _ _ _ _).mpr ⟨fun e he => h1 e (hperm.mem_iff.mp he), ?_⟩, ?_⟩
    · rw [zero_add, (hperm.map _).sum_eq]
    · show Outcome.ok (PublicKey.equal _ _) = _
      rw [PublicKey.equal, h2]
      simp

/-! ### `CompareOutput` -/

theorem compareLoop_self {pub : Public G} (l : List ID) (h : ∀ i ∈ l, ∃ g, pub.shares.get? i = some g) : compareLoop pub pub l l = .ok true := by
  induction l with
  | nil => rfl
  | cons a l ih =>
    obtain ⟨g, hg⟩ := h a List.mem_cons_self
    rw [compareLoop, if_neg (by simp), hg, Outcome.deref, Outcome.ok_bind, Outcome.ok_bind, if_neg (by simp)]
    exact ih fun i hi => h i (List.mem_cons_of_mem _ hi)

theorem compareOutput_true {gk1 gk2 : G} {p1 p2 : Public G} (h : compareOutput gk1 gk2 p1 p2 = .ok true) :
    Public.equal p1 p2 = .ok true ∧ gk1 = p1.groupKey ∧ gk2 = p2.groupKey := by
  unfold compareOutput at h
  rw [Outcome.bind_eq_ok] at h
  obtain ⟨eq, h1, h⟩ := h
  cases eq with
  | false => cases h
  | true =>
    rw [if_neg (by simp)] at h
    split at h
    · cases h
    · rw [Outcome.bind_eq_ok] at h
      obtain ⟨same, _, h⟩ := h
      split at h
      · cases h
      · split at h
        · cases h
        · split at h
          · cases h
          · rename_i h2 h3
            simp only [PublicKey.equal, decide_eq_false_iff_not, not_not] at h2 h3
            exact ⟨h1, h2, h3⟩

theorem compareOutput_self {p : Public G} (hwf : p.shares.WF) (hids : p.partyIDs = IDSlice.new p.shares.keys) :
    compareOutput p.groupKey p.groupKey p p = .ok true := by
  obtain ⟨r, h1, h2⟩ := C55_equal_iff p p hwf hwf hids hids
  have hr : r = true := h2.mpr ⟨rfl, rfl, rfl, fun _ => rfl⟩
  rw [hr] at h1
  have hmem : ∀ i ∈ p.partyIDs, ∃ g, p.shares.get? i = some g := by
    intro i hi
    rw [hids, (IDSlice.new_perm _).mem_iff] at hi
    exact GoMap.mem_keys_iff.mp hi
  unfold compareOutput
  rw [h1, Outcome.ok_bind, if_neg (by simp), if_neg (by simp), compareLoop_self _ hmem, Outcome.ok_bind]
  simp [PublicKey.equal]

/-- C86: the loop of `CompareOutput`, for parties that have shares, tells whether the parties and their shares are the same. -/
theorem C86_compare_loop (p1 p2 : Public G) (l1 l2 : List ID) (hlen : l1.length = l2.length) (h1 : ∀ i ∈ l1, p1.shares.get? i ≠ none)
    (h2 : ∀ i ∈ l2, p2.shares.get? i ≠ none) :
    ∃ r, compareLoop p1 p2 l1 l2 = .ok r ∧ (r = true ↔ l1 = l2 ∧ ∀ i ∈ l1, p1.shares.get? i = p2.shares.get? i) := by
  induction l1 generalizing l2 with
  | nil =>
    cases l2 with
    | nil => exact ⟨true, rfl, by simp⟩
    | cons b l2 => simp at hlen
  | cons a l1 ih =>
    cases l2 with
    | nil => simp at hlen
    | cons b l2 =>
      unfold compareLoop
      by_cases hab : a = b
      · subst hab
        rw [if_neg (by simp)]
        obtain ⟨x, hx⟩ := Option.ne_none_iff_exists'.mp (h1 a List.mem_cons_self)
        obtain ⟨y, hy⟩ := Option.ne_none_iff_exists'.mp (h2 a List.mem_cons_self)
        rw [hx, hy, Outcome.deref, Outcome.deref, Outcome.ok_bind, Outcome.ok_bind]
        by_cases hxy : x = y
        · rw [if_neg (by simpa using hxy)]
          obtain ⟨r, g1, g2⟩ := ih l2 (by simpa using hlen) (fun i hi => h1 i (List.mem_cons_of_mem _ hi)) (fun i hi => h2 i (List.mem_cons_of_mem _ hi))
          refine ⟨r, g1, g2.trans ?_⟩
          simp [hx, hy, hxy]
        · rw [if_pos hxy]
          exact ⟨false, rfl, by simp [hx, hy, hxy]⟩
      · rw [if_pos hab]
        exact ⟨false, rfl, by simp [hab]⟩

/-- C86: `CompareOutput` of well-formed values never panics, and is nil exactly if the two values are equal in all four parts and the group
keys beside them are theirs. -/
theorem C86_compare_output (gk1 gk2 : G) (p1 p2 : Public G) (hw1 : p1.shares.WF) (hw2 : p2.shares.WF) (hi1 : p1.partyIDs = IDSlice.new p1.shares.keys)
    (hi2 : p2.partyIDs = IDSlice.new p2.shares.keys) :
    ∃ r, compareOutput gk1 gk2 p1 p2 = .ok r ∧ (r = true ↔ (p1.partyIDs = p2.partyIDs ∧ p1.threshold = p2.threshold ∧ p1.groupKey = p2.groupKey ∧
      ∀ id, p1.shares.get? id = p2.shares.get? id) ∧ gk1 = p1.groupKey ∧ gk2 = p2.groupKey) := by
  obtain ⟨r, h1, h2⟩ := C55_equal_iff p1 p2 hw1 hw2 hi1 hi2
  unfold compareOutput
  rw [h1, Outcome.ok_bind]
  cases r with
  | false =>
    rw [if_pos rfl]
    exact ⟨false, rfl, by simp only [Bool.false_eq_true, false_iff] at h2; simp only [Bool.false_eq_true, false_iff]; tauto⟩
  | true =>
    have h2 := h2.mp rfl
    have hm : ∀ {p : Public G}, p.partyIDs = IDSlice.new p.shares.keys → ∀ i ∈ p.partyIDs, p.shares.get? i ≠ none := by
      intro p hi i hm
      rw [hi, (IDSlice.new_perm _).mem_iff] at hm
      obtain ⟨v, hv⟩ := GoMap.mem_keys_iff.mp hm
      rw [hv]
      simp
    obtain ⟨r, g1, g2⟩ := C86_compare_loop p1 p2 _ _ (by rw [h2.1]) (hm hi1) (hm hi2)
    rw [if_neg (by simp), if_neg (by simp [h2.1]), g1, Outcome.ok_bind, g2.mpr ⟨h2.1, fun i _ => h2.2.2.2 i⟩, if_neg (by simp)]
    simp only [PublicKey.equal, decide_eq_false_iff_not]
    by_cases e1 : gk1 = p1.groupKey
    · rw [if_neg (by simpa using e1)]
      by_cases e2 : gk2 = p2.groupKey
      · rw [if_neg (by simpa using e2)]
        exact ⟨true, rfl, by simp [h2, e1, e2]⟩
      · rw [if_pos e2]
        exact ⟨false, rfl, by simp [e2]⟩
    · rw [if_pos e1]
      exact ⟨false, rfl, by simp [e1]⟩

/-! ### `TestKeygen` -/

theorem keygenSecrets_get {states : GoMap (Option (State G (Keygen.Round G)))} {pub : Public G} (l : List ID) (hl : l.Nodup) {acc m : GoMap (SecretShare G)}
    (h : Cmd.keygenSecrets states pub l acc = .done m) :
    (∀ i, i ∉ l → m.get? i = acc.get? i) ∧ ∀ i ∈ l, ∃ s, states.get? i = some (some s) ∧ s.round.output.secretKey = m.get? i := by
  induction l generalizing acc with
  | nil => cases h; exact ⟨fun _ _ => rfl, fun _ hi => by cases hi⟩
  | cons a l ih =>
    rw [List.nodup_cons] at hl
    rw [Cmd.keygenSecrets] at h
    simp only [bind_eq_done, deref_eq_done] at h
    obtain ⟨s, hs, _, _, sk, hsk, _, _, h⟩ := h
    obtain ⟨h1, h2⟩ := ih hl.2 h
    refine ⟨fun i hi => ?_, fun i hi => ?_⟩
    · rw [List.mem_cons, not_or] at hi
      rw [h1 i hi.2, GoMap.get?_set, if_neg hi.1]
    · rcases List.mem_cons.mp hi with rfl | hi
      · refine ⟨s, ?_, ?_⟩
        · cases hg : states.get? i with
          | none => rw [hg] at hs; cases hs
          | some o => rw [hg] at hs; exact congrArg some hs
        · rw [h1 i hl.1, GoMap.get?_set, if_pos rfl, hsk]
      · exact h2 i hi

theorem noError_of_wait {s : State G R} (h : Cmd.wait s = .done ()) : noError s = .done true := by
  unfold Cmd.wait at h
  unfold noError
  split at h
  · cases h
  · cases h
  · rename_i hw
    rw [hw]

theorem keygenCompare_ok (P : Impl G R (Keygen.Output G)) {states : GoMap (Option (State G R))} {pub : Public G} (sec : ID → SecretShare G)
    (hpub : compareOutput pub.groupKey pub.groupKey pub pub = .ok true) {l : List ID} (hl : l.Nodup)
    (h : ∀ i ∈ l, ∃ s, states.get? i = some (some s) ∧ noError s = .done true ∧ (P.output s.round).pub = some pub ∧ (P.output s.round).secretKey = some (sec i))
    (acc : GoMap (Option (SecretShare G))) (hd : ∀ i ∈ l, i ∉ acc.keys) (ok : Bool) :
    keygenCompare P states pub l acc ok = .done (acc ++ l.map fun i => (i, some (sec i)), ok) := by
  induction l generalizing acc with
  | nil => simp [keygenCompare]
  | cons a l ih =>
    rw [List.nodup_cons] at hl
    obtain ⟨s, h1, h2, h3, h4⟩ := h a List.mem_cons_self
    rw [keygenCompare, h1, Option.join_some, End.deref, done_bind, h2, done_bind, h3, End.deref, done_bind, hpub, End.ofRes, done_bind, h4,
      Bool.and_true, Bool.and_true, ih hl.2 (fun i hi => h i (List.mem_cons_of_mem _ hi))]
    · rw [GoMap.set_of_not_mem _ (hd a List.mem_cons_self), List.append_assoc, List.map_cons]; rfl
    · intro i hi
      rw [GoMap.mem_keys_set, not_or]
      exact ⟨fun h => hl.1 (h ▸ hi), hd i (List.mem_cons_of_mem _ hi)⟩

/-- C86: `TestKeygen` passes, for all numbers of parties and thresholds that the constructor takes, all coins, and all orders of iteration. -/
theorem C86_keygen_passes (env : Env) (ord : MapOrder) (T N : UInt16) (h1 : 1 ≤ T.toNat) (h2 : T.toNat < N.toNat) (h3 : N.toNat < 65535) :
    testKeygen (G := G) (keygenImpl sha env (Spec.firstIDs N.toNat) T) env ord N = .done true := by
  have hn16 : N.toNat < 65536 := by omega
  have hsorted := firstIDs_sorted hn16
  have hnd := firstIDs_nodup hn16
  have h0 := firstIDs_zero hn16
  have hlen := firstIDs_length N.toNat
  have hset := generateSet_eq h3
  generalize hids : Spec.firstIDs N.toNat = ids at *
  have hne : ids ≠ [] := by rintro rfl; simp at hlen; omega
  obtain ⟨init, hinit, s₁, s₂, s₃, o₁, o₂, o₃, pub, p1, p2, p3, p4, p5, p6⟩ := keygen_done (G := G) (sha := sha) env hsorted hnd h0 h1 (by omega) hne
  have hkeys : pub.shares.keys = ids := by rw [p5]; exact GoMap.keys_map_self _ _
  have hpids : pub.partyIDs = ids := by rw [p5]
  have hself : compareOutput pub.groupKey pub.groupKey pub pub = .ok true :=
    compareOutput_self (by rw [GoMap.WF, hkeys]; exact hnd) (by rw [hkeys, new_of_sorted hsorted, hpids])
  have hstates : ∀ i ∈ ids, ∃ s, s₃.get? i = some (some s) ∧ noError s = .done true ∧ s.round.output.pub = some pub ∧
      s.round.output.secretKey = some (SecretShare.new i ((Spec.jointPoly ids T.toNat (env.coins 0)).eval (i.toNat : Scalar))) := by
    intro i hi
    obtain ⟨s, g1, g2, g3⟩ := p4 i hi
    obtain ⟨s', g4, g5⟩ := (keygenSecrets_get ids hnd p6).2 i hi
    rw [g1] at g4
    obtain rfl := Option.some.inj (Option.some.inj g4)
    exact ⟨s, g1, noError_of_wait g2, g3, by rw [g5, GoMap.get?_map_self _ hi]⟩
  obtain ⟨a, l, hal⟩ := List.exists_cons_of_ne_nil hne
  have ha : a ∈ ids := by rw [hal]; exact List.mem_cons_self
  obtain ⟨s, g1, g2, g3, _⟩ := hstates a ha
  have hval : validateSecrets ord (ids.map fun i => (i, some (SecretShare.new i ((Spec.jointPoly ids T.toNat (env.coins 0)).eval (i.toNat : Scalar)))))
      pub.groupKey pub = .ok true := by
    rw [C86_validate_iff]
    refine ⟨?_, ?_⟩
    · intro e he
      obtain ⟨i, hi, rfl⟩ := List.mem_map.mp he
      refine ⟨fun h => h0 (h ▸ hi), by rw [hpids]; exact hi, _, rfl, ?_⟩
      rw [p5]
      exact GoMap.get?_map_self _ hi
    · rw [List.map_map, hpids]
      have := weight_sum hnd (Spec.jointPoly ids T.toNat (env.coins 0)) (by
        refine lt_of_le_of_lt Polynomial.degree_le_natDegree ?_
        have := jointPoly_natDegree ids T.toNat (env.coins 0)
        exact_mod_cast (by omega : _ < ids.length))
      rw [p5]
      simp only
      rw [← this]
      rfl
  unfold testKeygen
  rw [hset, End.orHang, done_bind, testKeygenStates_eq _ hinit, done_bind]
  simp only
  have e1 := testStage_eq (impl := (keygenImpl (G := G) sha env ids T).impl) true p1
  have e2 := testStage_eq (impl := (keygenImpl (G := G) sha env ids T).impl) true p2
  have e3 := testStage_eq (impl := (keygenImpl (G := G) sha env ids T).impl) true p3
  rw [e1, done_bind]
  simp only [e2, done_bind, e3]
  rw [show ids[0]? = some a by rw [hal]; rfl, End.deref, done_bind, g1, Option.join_some, End.deref, done_bind, g2, done_bind,
    show ((keygenImpl (G := G) sha env ids T).output s.round).pub = some pub from g3, End.deref, done_bind,
    keygenCompare_ok (keygenImpl sha env ids T) _ hself hnd hstates [] (fun _ _ => by simp [GoMap.keys]), done_bind]
  simp only [List.nil_append]
  rw [hval, End.ofRes, done_bind]
  rfl

/-- The parameters of the test: 50 parties, threshold 25. -/
example (env : Env) (ord : MapOrder) : testKeygen (G := Curve.RG) (keygenImpl sha env (Spec.firstIDs 50) 25) env ord 50 = .done true :=
  C86_keygen_passes env ord 25 50 (by decide) (by decide) (by decide)

/-- `ValidateSecrets` on a key of three parties in `Toy`, whose secret is 21, and on one with another group key. -/
example : validateSecrets MapOrder.insertion [(1, some ⟨1, 45, Toy.of 45⟩), (2, some ⟨2, 69, Toy.of 69⟩), (3, some ⟨3, 93, Toy.of 93⟩)] (Toy.of 21)
      ⟨[1, 2, 3], 1, [(1, Toy.of 45), (2, Toy.of 69), (3, Toy.of 93)], Toy.of 21⟩ = .ok true ∧
    validateSecrets MapOrder.insertion [(1, some ⟨1, 45, Toy.of 45⟩), (2, some ⟨2, 69, Toy.of 69⟩), (3, some ⟨3, 93, Toy.of 93⟩)] (Toy.of 22)
      ⟨[1, 2, 3], 1, [(1, Toy.of 45), (2, Toy.of 69), (3, Toy.of 93)], Toy.of 21⟩ = .ok false ∧
    validateSecrets MapOrder.insertion [(1, some ⟨1, 45, Toy.of 46⟩)] (Toy.of 21)
      ⟨[1, 2, 3], 1, [(1, Toy.of 45), (2, Toy.of 69), (3, Toy.of 93)], Toy.of 21⟩ = .ok false := by
  decide +kernel

/-! ### `TestSign` -/

open Curve in
/-- With the shares of a polynomial of degree at most `t`, and non-zero nonces, more than `t` signers finish the three stages with a signature that verifies. -/
theorem sign_done (env : Env) (ids : IDSlice) (hsorted : ids.Pairwise (· ≤ ·)) (hnd : ids.Nodup) (h0 : (0 : ID) ∉ ids) (t : UInt16) (ht : t.toNat < ids.length)
    (F : Scalar[X]) (hF : F.natDegree ≤ t.toNat) (message : Bytes) (hcoins : ∀ i ∈ ids, env.coins 0 i 0 ≠ 0 ∧ env.coins 0 i 1 ≠ 0) (pub : Public RG)
    (hpsorted : pub.partyIDs.Pairwise (· ≤ ·)) (hsub : ∀ i ∈ ids, i ∈ pub.partyIDs) (hgroup : pub.groupKey = F.eval 0 • base)
    (hshares : ∀ i ∈ ids, pub.shares.get? i = some (F.eval (i.toNat : Scalar) • base)) :
    ∃ init : ID → State RG (Sign.Round RG),
      (∀ i ∈ ids, Sign.newSignState sha ids (SecretShare.new i (F.eval (i.toNat : Scalar))) pub message 0 (env.now i) = .ok (init i)) ∧
      ∃ s₁ s₂ s₃ o₁ o₂ o₃ sig, Cmd.stage (Sign.impl sha) env 0 [] (ids.map fun i => (i, some (init i))) = .done (s₁, o₁) ∧
        Cmd.stage (Sign.impl sha) env 1 o₁ s₁ = .done (s₂, o₂) ∧ Cmd.stage (Sign.impl sha) env 2 o₂ s₂ = .done (s₃, o₃) ∧ s₃.keys.Perm ids ∧
        (∀ i ∈ ids, ∃ s, s₃.get? i = some (some s) ∧ noError s = .done true ∧ s.round.output.signature = some sig) ∧
        PublicKey.verify sha pub.groupKey message sig = .ok true := by
  let sec : ID → SecretShare RG := fun i => SecretShare.new i (F.eval (i.toNat : Scalar))
  have hne : ids ≠ [] := by rintro rfl; simp at ht
  have hacc : ∀ i ∈ ids, ∃ s, Sign.newSignState sha ids (sec i) pub message 0 (env.now i) = .ok s := fun i hi =>
    C42_accepts (sec i) pub ids message 0 (env.now i) hsorted hpsorted hi fun k hk =>
      ⟨hsub k hk, fun h => h0 (h ▸ hk), by rw [hshares k hk]; simp⟩
  have hex : ∀ i, ∃ s, i ∈ ids → Sign.newSignState sha ids (sec i) pub message 0 (env.now i) = .ok s := by
    intro i
    by_cases hi : i ∈ ids
    · obtain ⟨s, hs⟩ := hacc i hi
      exact ⟨s, fun _ => hs⟩
    · obtain ⟨j, hj⟩ := List.exists_mem_of_ne_nil _ hne
      obtain ⟨s, _⟩ := hacc j hj
      exact ⟨s, fun h => absurd h hi⟩
  choose init hinit using hex
  have hs : Spec.SignSetup sha ids t F message sec (fun _ => pub) (fun _ => 0) env.now init :=
    ⟨hsorted, hnd, hF, ht, fun _ _ => rfl, fun _ _ => rfl, fun _ _ => hgroup, fun _ _ k hk => hshares k hk, hinit⟩
  obtain ⟨sig, hver, hruns⟩ := C43_honest_sign hs (env.coins 0) hcoins
  have hex : ∀ i, ∃ r₀ : Sign.Round RG, i ∈ ids → Sign.Start r₀ (sec i) pub ids message ∧ init i = newBaseState (Sign.impl sha) r₀ 0 (env.now i) := by
    intro i
    by_cases hi : i ∈ ids
    · obtain ⟨r₀, h1, h2⟩ := sign_start_of_new (hs.start i hi) hs.nodup
      exact ⟨r₀, fun _ => ⟨h1, h2⟩⟩
    · exact ⟨(init i).round, fun h => absurd h hi⟩
  choose r₀ hr₀ using hex
  have H := Sign.honest (sha := sha) hs.sorted hs.nodup (message := message) (F := F) (lt_of_le_of_lt hs.degree hs.enough) r₀ sec (fun _ => pub)
    (fun i hi => ⟨hs.owner i hi, hs.value i hi, hs.group i hi, hs.shares i hi⟩) (fun i hi => (hr₀ i hi).1) (env.coins 0) hcoins
  obtain ⟨N, s₁, s₂, s₃, o₁, o₂, o₃, p1, p2, p3, p4, p5, p6⟩ := State.NetInv.threeStages (timeout := fun _ => 0) (now := env.now) H
    (Sign.lockstep h0 message F (env.coins 0)) (init := init) (fun i hi => (hr₀ i hi).2) env (fun _ _ => rfl) (ids.map fun i => (i, some (init i)))
    ⟨by rw [GoMap.keys_map_self], fun i hi => by rw [GoMap.get?_map_self _ hi]; rfl⟩
  refine ⟨init, hinit, s₁, s₂, s₃, o₁, o₂, o₃, sig, p2, p3, p4, p5.1, fun i hi => ⟨N.state i, p5.2 i hi, ?_, (hruns N p1).2.2.1 i hi (p6 i hi)⟩, by
    rw [hgroup]; exact hver⟩
  simp [noError, State.waitForError, p6 i hi, (hruns N p1).1 i hi]

omit [RGroup G] in
theorem signStates_ok {O : Type} (P : Impl G R O) (init : ID → State G R) {l : List ID} (hl : l.Nodup) (h : ∀ i ∈ l, P.new i = .ok (init i))
    (acc : GoMap (Option (State G R))) (hd : ∀ i ∈ l, i ∉ acc.keys) (ok : Bool) :
    signStates P l acc ok = .done (acc ++ l.map fun i => (i, some (init i)), ok) := by
  induction l generalizing acc with
  | nil => simp [signStates]
  | cons a l ih =>
    rw [List.nodup_cons] at hl
    rw [signStates, h a List.mem_cons_self]
    simp only
    rw [ih hl.2 fun i hi => h i (List.mem_cons_of_mem _ hi)]
    · rw [GoMap.set_of_not_mem _ (hd a List.mem_cons_self), List.append_assoc, List.map_cons]; rfl
    · intro i hi
      rw [GoMap.mem_keys_set, not_or]
      exact ⟨fun h => hl.1 (h ▸ hi), hd i (List.mem_cons_of_mem _ hi)⟩

theorem signCompare_ok (P : Impl G R (Sign.Output G)) {states : GoMap (Option (State G R))} {sig : Signature G} (l : List ID)
    (h : ∀ i ∈ l, ∃ s, states.get? i = some (some s) ∧ noError s = .done true ∧ (P.output s.round).signature = some sig) (ok : Bool) :
    signCompare P states sig l ok = .done ok := by
  induction l with
  | nil => rfl
  | cons a l ih =>
    obtain ⟨s, h1, h2, h3⟩ := h a List.mem_cons_self
    rw [signCompare, h1, Option.join_some, End.deref, done_bind, h2, done_bind, h3, End.deref, done_bind, decide_eq_true rfl, Bool.and_true, Bool.and_true]
    exact ih fun i hi => h i (List.mem_cons_of_mem _ hi)

theorem firstIDs_take (n k : Nat) (h : k ≤ n) : (Spec.firstIDs n).take k = Spec.firstIDs k := by
  unfold Spec.firstIDs
  rw [← List.map_take]
  congr 1
  obtain ⟨m, rfl⟩ := Nat.exists_eq_add_of_le h
  rw [← List.range'_append_1, List.take_append_of_le_length (by simp), List.take_of_length_le (by simp)]

/-- What `setupParties` gives: the shares of a polynomial of degree at most `T`. -/
theorem setup_done (ord : MapOrder) (coins : Coins) (T N : UInt16) (h1 : T.toNat < N.toNat) (h2 : N.toNat < 65535) :
    ∃ (shares : GoMap (SecretShare G)) (pub : Public G) (F : Scalar[X]),
      setupParties ord coins T N = .done (Spec.firstIDs (T.toNat + 1), shares, pub) ∧ F.natDegree ≤ T.toNat ∧
      pub.partyIDs = Spec.firstIDs N.toNat ∧ pub.groupKey = F.eval 0 • base ∧
      (∀ i ∈ Spec.firstIDs (T.toNat + 1), i ∈ Spec.firstIDs N.toNat) ∧
      (∀ i ∈ Spec.firstIDs N.toNat, shares.get? i = some (SecretShare.new i (F.eval (i.toNat : Scalar)))) ∧
      ∀ i ∈ Spec.firstIDs N.toNat, pub.shares.get? i = some (F.eval (i.toNat : Scalar) • base) := by
  have hn16 : N.toNat < 65536 := by omega
  have hT : (T + 1).toNat = T.toNat + 1 := by rw [UInt16.toNat_add]; show (T.toNat + 1) % 65536 = _; omega
  have hsorted := firstIDs_sorted hn16
  have hnd := firstIDs_nodup hn16
  have h0 := firstIDs_zero hn16
  have hlen := firstIDs_length N.toNat
  obtain ⟨shares, pub, g1, g2, g3, g4, g5, g6, g7⟩ := C14_public_consistent (G := G) ord (Spec.firstIDs N.toNat) hnd h0 T (by omega) coins
  set poly : Poly := coins 0 :: (List.range T.toNat).map fun i => coins (i + 1) with hpoly
  have hgen : generateSecrets (G := G) (Spec.firstIDs N.toNat) T coins =
      .ok (coins 0, (Spec.firstIDs N.toNat).map fun i => (i, SecretShare.new i (Spec.evalAt poly i.val))) := by
    have hTne : T ≠ 65535 := by rintro rfl; have : (65535 : UInt16).toNat = 65535 := rfl; omega
    unfold generateSecrets
    rw [if_neg (by rw [ge_iff_le, UInt16.le_iff_toNat_le, N_toNat hnd h0]; omega)]
    simp only [Poly.new_eq hTne, Outcome.ok_bind]
    rw [generateSecretsLoop_eq _ _ hnd h0 _ (by simp), Outcome.ok_bind, List.nil_append]
    rfl
  have hshares : shares = (Spec.firstIDs N.toNat).map fun i => (i, SecretShare.new i (Spec.evalAt poly i.val)) := by
    rw [hgen] at g1
    exact (congrArg Prod.snd (Outcome.ok.inj g1)).symm
  have hF : (Spec.toPoly poly).natDegree ≤ T.toNat := by
    have := toPoly_degree_lt poly
    rw [show poly.length = T.toNat + 1 by simp [hpoly]] at this
    exact Polynomial.natDegree_le_iff_degree_le.mpr (Order.le_of_lt_succ (by exact_mod_cast this))
  have hF0 : (Spec.toPoly poly).eval 0 = coins 0 := by
    rw [hpoly]
    exact toPoly_zero_eval _ _
  have hsec : ∀ i ∈ Spec.firstIDs N.toNat, shares.get? i = some (SecretShare.new i ((Spec.toPoly poly).eval (i.toNat : Scalar))) := by
    intro i hi
    rw [hshares, GoMap.get?_map_self _ hi, toPoly_eval]
    rfl
  refine ⟨shares, pub, Spec.toPoly poly, ?_, hF, by rw [g5, new_of_sorted hsorted], by rw [g3, hF0], ?_, hsec, fun i hi => g7 i _ (hsec i hi)⟩
  · unfold setupParties
    rw [generateSet_eq h2, End.orHang, done_bind, g1, End.ofRes, done_bind]
    simp only
    rw [g2, End.ofRes, done_bind, if_pos (by rw [hlen, hT]; omega), hT, firstIDs_take _ _ (by omega)]
  · intro i hi
    rw [← firstIDs_take N.toNat (T.toNat + 1) (by omega)] at hi
    exact List.mem_of_mem_take hi

theorem one_mem_firstIDs (n : Nat) : (1 : ID) ∈ Spec.firstIDs (n + 1) := by
  unfold Spec.firstIDs
  exact List.mem_map.mpr ⟨1, by simp, rfl⟩

open Curve in
/-- C86: `TestSign` passes, for all numbers of parties `N` and thresholds `T < N`, all keys, messages and orders of iteration, and all non-zero nonces. -/
theorem C86_sign_passes (env : Env) (ord ord' : MapOrder) (coins : Coins) (T N : UInt16) (message : Bytes) (h1 : T.toNat < N.toNat) (h2 : N.toNat < 65535)
    (hcoins : ∀ i ∈ Spec.firstIDs (T.toNat + 1), env.coins 0 i 0 ≠ 0 ∧ env.coins 0 i 1 ≠ 0) :
    testSign (G := RG) sha env ord ord' coins T N message = .done true := by
  obtain ⟨shares, pub, F, hset, hF, hids, hgk, hmem, hsec, hpub⟩ := setup_done (G := RG) ord coins T N h1 h2
  have hT16 : T.toNat + 1 < 65536 := by omega
  obtain ⟨init, hinit, s₁, s₂, s₃, o₁, o₂, o₃, sig, p1, p2, p3, p4, p5, p6⟩ := sign_done (sha := sha) env (Spec.firstIDs (T.toNat + 1)) (firstIDs_sorted hT16)
    (firstIDs_nodup hT16) (firstIDs_zero hT16) T (by rw [firstIDs_length]; omega) F hF message hcoins pub
    (by rw [hids]; exact firstIDs_sorted (by omega)) (fun i hi => by rw [hids]; exact hmem i hi) hgk (fun i hi => hpub i (hmem i hi))
  unfold testSign
  rw [hset, done_bind]
  simp only
  set P := signImpl (G := RG) sha env (Spec.firstIDs (T.toNat + 1)) shares pub message with hP
  have hnew : ∀ i ∈ Spec.firstIDs (T.toNat + 1), P.new i = .ok (init i) := by
    intro i hi
    rw [hP]
    unfold signImpl
    simp only [hsec i (hmem i hi)]
    exact hinit i hi
  have e1 := testStage_eq (impl := P.impl) true p1
  have e2 := testStage_eq (impl := P.impl) true p2
  have e3 := testStage_eq (impl := P.impl) true p3
  unfold testSignWith
  rw [signStates_ok P init (firstIDs_nodup hT16) hnew [] (fun _ _ => by simp [GoMap.keys]), done_bind]
  simp only [List.nil_append, e1, done_bind, e2, e3]
  obtain ⟨s, q1, q2, q3⟩ := p5 1 (one_mem_firstIDs _)
  rw [q1, Option.join_some, End.deref, done_bind, show (P.output s.round).signature = some sig from q3]
  simp only
  rw [C51_crypto_ed25519, p6, End.ofRes, done_bind, done_bind]
  refine signCompare_ok P _ ?_ _
  intro i hi
  exact p5 i (p4.mem_iff.mp ((((ord'.perm _ s₃).map Prod.fst).mem_iff).mp hi))

open Curve in
/-- The parameters of the test: 50 parties, threshold 49, the message "Hello Everybody". -/
example (env : Env) (ord ord' : MapOrder) (coins : Coins) (h : ∀ i ∈ Spec.firstIDs 50, env.coins 0 i 0 ≠ 0 ∧ env.coins 0 i 1 ≠ 0) :
    testSign (G := RG) sha env ord ord' coins 49 50 "Hello Everybody".toUTF8.toList = .done true :=
  C86_sign_passes env ord ord' coins 49 50 _ (by decide) (by decide) h

/-! ### What a passed test establishes -/

theorem testLoop_true {impl : RoundImpl G R} {order : ID → MapOrder} {coins : ID → Coins} {ins : List Bytes} (l : List ID)
    {st st' : GoMap (Option (State G R))} {out out' : List Bytes} {ok : Bool} (h : testLoop impl order coins ins l st out ok = .done (st', out', true)) :
    ok = true ∧ Cmd.stageLoop impl order coins ins l st out = .done (st', out') := by
  induction l generalizing st out ok with
  | nil => cases h; exact ⟨rfl, rfl⟩
  | cons a l ih =>
    rw [testLoop] at h
    rw [Cmd.stageLoop]
    split at h
    · cases h
    · rename_i s hs
      rw [hs]
      simp only
      split at h
      · cases h
      · cases (ih h).1
      · rename_i s' msgs hr
        rw [hr]
        exact ih h

theorem noError_true {s : State G R} {b : Bool} (h : noError s = .done b) (hb : b = true) : s.waitForError = some none := by
  subst hb
  unfold noError at h
  split at h
  · cases h
  · cases h
  · assumption

theorem join_some {α : Type} {o : Option (Option α)} {s : α} (h : o.join = some s) : o = some (some s) := by
  cases o with
  | none => cases h
  | some o => exact congrArg some h

/-- The three stages of a test, none of which returned an error. -/
def Spec.Stages (impl : RoundImpl G R) (env : Env) (init final : GoMap (Option (State G R))) : Prop :=
  ∃ s₁ s₂ o₁ o₂ o₃, Cmd.stage impl env 0 [] init = .done (s₁, o₁) ∧ Cmd.stage impl env 1 o₁ s₁ = .done (s₂, o₂) ∧
    Cmd.stage impl env 2 o₂ s₂ = .done (final, o₃)

theorem keygenCompare_true (P : Impl G R (Keygen.Output G)) (s₀ : State G R) {states : GoMap (Option (State G R))} {pub1 : Public G} {l : List ID} (hl : l.Nodup)
    {acc m : GoMap (Option (SecretShare G))} {ok : Bool} (hd : ∀ i ∈ l, i ∉ acc.keys) (h : keygenCompare P states pub1 l acc ok = .done (m, true)) :
    ok = true ∧ ∃ sess : ID → State G R, m = acc ++ l.map (fun i => (i, (P.output (sess i).round).secretKey)) ∧
      ∀ i ∈ l, states.get? i = some (some (sess i)) ∧ (sess i).waitForError = some none ∧
        ∃ pub2, (P.output (sess i).round).pub = some pub2 ∧ Public.equal pub1 pub2 = .ok true := by
  induction l generalizing acc ok with
  | nil =>
    cases h
    exact ⟨rfl, fun _ => s₀, by simp, fun _ hi => by cases hi⟩
  | cons a l ih =>
    rw [List.nodup_cons] at hl
    rw [keygenCompare] at h
    simp only [bind_eq_done, deref_eq_done, ofRes_eq_done] at h
    obtain ⟨s, h1, b, h2, pub2, h3, c, h4, h⟩ := h
    obtain ⟨g1, sess, g2, g3⟩ := ih hl.2 (by
      intro i hi
      rw [GoMap.mem_keys_set, not_or]
      exact ⟨fun h => hl.1 (h ▸ hi), hd i (List.mem_cons_of_mem _ hi)⟩) h
    simp only [Bool.and_eq_true] at g1
    obtain ⟨⟨hok, hb⟩, hc⟩ := g1
    subst hc
    refine ⟨hok, Function.update sess a s, ?_, ?_⟩
    · rw [g2, GoMap.set_of_not_mem _ (hd a List.mem_cons_self), List.append_assoc, List.map_cons, Function.update_self]
      congr 1
      rw [List.singleton_append]
      congr 1
      apply List.map_congr_left
      intro i hi
      rw [Function.update_of_ne (fun hh : i = a => hl.1 (hh ▸ hi))]
    · intro i hi
      by_cases hia : i = a
      · subst hia
        rw [Function.update_self]
        exact ⟨join_some h1, noError_true h2 hb, pub2, h3, (compareOutput_true h4).1⟩
      · rw [Function.update_of_ne hia]
        exact g3 i ((List.mem_cons.mp hi).resolve_left hia)

/-- C86: what it means that `TestKeygen` passes, for whatever implementation `P`: the stages return no error, every session has finished without error,
the public data of all parties are `Equal` to those of party 1, the secret shares have in them the public shares of the public data, and the weighted
secrets add up to the secret of the group key. -/
theorem C86_keygen_verdict (P : Impl G R (Keygen.Output G)) (env : Env) (ord : MapOrder) (N : UInt16) (hN : N.toNat < 65535)
    (h : testKeygen P env ord N = .done true) :
    ∃ (init final : GoMap (Option (State G R))) (sess : ID → State G R) (sec : ID → SecretShare G) (pub1 : Public G),
      Integration.keygenStates P (Spec.firstIDs N.toNat) [] = .done (some init) ∧ Spec.Stages P.impl env init final ∧
      (P.output (sess 1).round).pub = some pub1 ∧
      (∀ i ∈ Spec.firstIDs N.toNat, final.get? i = some (some (sess i)) ∧ (sess i).waitForError = some none ∧
        (∃ pub2, (P.output (sess i).round).pub = some pub2 ∧ Public.equal pub1 pub2 = .ok true) ∧
        (P.output (sess i).round).secretKey = some (sec i) ∧ pub1.shares.get? i = some (sec i).pub ∧ i ∈ pub1.partyIDs) ∧
      pub1.groupKey = ((Spec.firstIDs N.toNat).map fun i => Spec.weight i pub1.partyIDs * (sec i).secret).sum • base := by
  have hn16 : N.toNat < 65536 := by omega
  unfold testKeygen at h
  rw [generateSet_eq hN, End.orHang, done_bind, bind_eq_done] at h
  obtain ⟨init, hinit, h⟩ := h
  cases init with
  | none => cases h
  | some init =>
    simp only [bind_eq_done] at h
    obtain ⟨⟨s₁, o₁, k₁⟩, p1, ⟨s₂, o₂, k₂⟩, p2, ⟨s₃, o₃, k₃⟩, p3, id1, q1, s, q2, b, q3, pub1, q4, ⟨m, k⟩, q5, v, q6, h⟩ := h
    have hkv : (k && v) = true := End.done.inj h
    rw [Bool.and_eq_true] at hkv
    obtain ⟨rfl, rfl⟩ := hkv
    simp only [deref_eq_done, ofRes_eq_done] at q1 q2 q4 q6
    obtain ⟨g1, sess, g2, g3⟩ := keygenCompare_true P s (firstIDs_nodup hn16) (fun _ _ => by simp [GoMap.keys]) q5
    rw [Bool.and_eq_true] at g1
    obtain ⟨rfl, hb⟩ := g1
    obtain ⟨rfl, p3⟩ := testLoop_true _ p3
    obtain ⟨rfl, p2⟩ := testLoop_true _ p2
    obtain ⟨_, p1⟩ := testLoop_true _ p1
    rw [List.nil_append] at g2
    subst g2
    obtain ⟨g4, g5⟩ := (C86_validate_iff _ _ _ _).mp q6
    have hid1 : id1 ∈ Spec.firstIDs N.toNat := List.mem_of_getElem? q1
    obtain rfl : id1 = 1 := by
      unfold Spec.firstIDs at q1
      rw [List.getElem?_map] at q1
      cases hN : N.toNat with
      | zero => rw [hN] at q1; cases q1
      | succ n => rw [hN] at q1; exact (Option.some.inj q1).symm
    have hs : s = sess 1 := by
      have := (g3 1 hid1).1
      rw [join_some q2] at this
      exact Option.some.inj (Option.some.inj this)
    have hg4 : ∀ i, ∃ s : SecretShare G, i ∈ Spec.firstIDs N.toNat → i ∈ pub1.partyIDs ∧ (P.output (sess i).round).secretKey = some s ∧ pub1.shares.get? i = some s.pub := by
      intro i
      by_cases hi : i ∈ Spec.firstIDs N.toNat
      · obtain ⟨_, e2, s, e3, e4⟩ := g4 _ (List.mem_map.mpr ⟨i, hi, rfl⟩)
        exact ⟨s, fun _ => ⟨e2, e3, e4⟩⟩
      · exact ⟨SecretShare.new i 0, fun h => absurd h hi⟩
    choose sec hsec using hg4
    refine ⟨init, s₃, sess, sec, pub1, hinit, ⟨s₁, s₂, o₁, o₂, o₃, p1, p2, p3⟩, hs ▸ q4, fun i hi => ?_, ?_⟩
    · obtain ⟨e1, e2, e3⟩ := g3 i hi
      obtain ⟨e4, e5, e6⟩ := hsec i hi
      exact ⟨e1, e2, e3, e5, e6, e4⟩
    · rw [g5, List.map_map]
      congr 2
      apply List.map_congr_left
      intro i hi
      show Spec.weighted _ (i, _) = _
      unfold Spec.weighted
      rw [(hsec i hi).2.1]
      rfl

/-- The verdict applies to the code. -/
example (env : Env) (ord : MapOrder) : ∃ pub1 : Public Curve.RG, ∃ sec : ID → SecretShare Curve.RG,
    pub1.groupKey = ((Spec.firstIDs 50).map fun i => Spec.weight i pub1.partyIDs * (sec i).secret).sum • base := by
  obtain ⟨_, _, _, sec, pub1, _, _, _, _, h⟩ := C86_keygen_verdict (keygenImpl (G := Curve.RG) sha env (Spec.firstIDs 50) 25) env ord 50 (by decide)
    (C86_keygen_passes env ord 25 50 (by decide) (by decide) (by decide))
  exact ⟨pub1, sec, h⟩

omit [RGroup G] in
theorem signStates_true {O : Type} (P : Impl G R O) (l : List ID) {acc m : GoMap (Option (State G R))} {ok : Bool}
    (h : signStates P l acc ok = .done (m, true)) : ok = true ∧ ∀ i ∈ l, ∃ s, P.new i = .ok s := by
  induction l generalizing acc ok with
  | nil => cases h; exact ⟨rfl, fun _ hi => by cases hi⟩
  | cons a l ih =>
    rw [signStates] at h
    split at h
    · cases h
    · cases (ih h).1
    · rename_i s hs
      obtain ⟨h1, h2⟩ := ih h
      exact ⟨h1, fun i hi => (List.mem_cons.mp hi).elim (fun e => ⟨s, e ▸ hs⟩) (h2 i)⟩

theorem signCompare_true (P : Impl G R (Sign.Output G)) {states : GoMap (Option (State G R))} {sig : Signature G} (l : List ID) {ok : Bool} :
    signCompare P states sig l ok = .done true → ok = true ∧
      ∀ i ∈ l, ∃ s sig', states.get? i = some (some s) ∧ s.waitForError = some none ∧ (P.output s.round).signature = some sig' ∧
        sig'.marshalBinary = sig.marshalBinary := by
  intro h
  induction l generalizing ok with
  | nil => cases h; exact ⟨rfl, fun _ hi => by cases hi⟩
  | cons a l ih =>
    rw [signCompare] at h
    simp only [bind_eq_done, deref_eq_done] at h
    obtain ⟨s, h1, b, h2, sig', h3, h⟩ := h
    obtain ⟨g1, g2⟩ := ih h
    simp only [Bool.and_eq_true, decide_eq_true_eq] at g1
    obtain ⟨⟨hok, hb⟩, hc⟩ := g1
    refine ⟨hok, fun i hi => (List.mem_cons.mp hi).elim (fun e => ?_) (g2 i)⟩
    subst e
    exact ⟨s, sig', join_some h1, noError_true h2 hb, h3, hc.symm⟩

/-- C86: what it means that `TestSign` passes, for whatever implementation `P`: all sessions were made, the stages return no error, and either party 1 has no
signature, or its signature verifies both ways and every session has finished without error with the same signature. -/
theorem C86_sign_verdict (P : Impl G R (Sign.Output G)) (env : Env) (ord : MapOrder) (signSet : IDSlice) (pk : G) (message : Bytes)
    (h : testSignWith sha P env ord signSet pk message = .done true) :
    (∀ i ∈ signSet, ∃ s, P.new i = .ok s) ∧
    ∃ (init final : GoMap (Option (State G R))) (s1 : State G R), signStates P signSet [] true = .done (init, true) ∧ Spec.Stages P.impl env init final ∧
      final.get? 1 = some (some s1) ∧ ((P.output s1.round).signature = none ∨
        ∃ sig, (P.output s1.round).signature = some sig ∧ Ed25519.verify sha (PublicKey.toEd25519 pk) message (Signature.toEd25519 sig) = .ok true ∧
          PublicKey.verify sha pk message sig = .ok true ∧
          ∀ i ∈ final.keys, ∃ s sig', final.get? i = some (some s) ∧ s.waitForError = some none ∧ (P.output s.round).signature = some sig' ∧
            sig'.marshalBinary = sig.marshalBinary) := by
  unfold testSignWith at h
  simp only [bind_eq_done, deref_eq_done] at h
  obtain ⟨⟨init, k₀⟩, hinit, ⟨s₁, o₁, k₁⟩, p1, ⟨s₂, o₂, k₂⟩, p2, ⟨s₃, o₃, k₃⟩, p3, s1, q1, h⟩ := h
  have main : k₃ = true ∧ ((P.output s1.round).signature = none ∨
        ∃ sig, (P.output s1.round).signature = some sig ∧ Ed25519.verify sha (PublicKey.toEd25519 pk) message (Signature.toEd25519 sig) = .ok true ∧
          PublicKey.verify sha pk message sig = .ok true ∧
          ∀ i ∈ s₃.keys, ∃ s sig', s₃.get? i = some (some s) ∧ s.waitForError = some none ∧ (P.output s.round).signature = some sig' ∧
            sig'.marshalBinary = sig.marshalBinary) := by
    cases hsig : (P.output s1.round).signature with
    | none =>
      rw [hsig] at h
      exact ⟨End.done.inj h, .inl rfl⟩
    | some sig =>
      rw [hsig] at h
      simp only [bind_eq_done, ofRes_eq_done] at h
      obtain ⟨b1, v1, b2, v2, h⟩ := h
      obtain ⟨g1, g2⟩ := signCompare_true P _ h
      simp only [Bool.and_eq_true] at g1
      obtain ⟨⟨hk, rfl⟩, rfl⟩ := g1
      exact ⟨hk, .inr ⟨sig, rfl, v1, v2, fun i hi => g2 i (((ord.perm _ s₃).map Prod.fst).mem_iff.mpr hi)⟩⟩
  obtain ⟨rfl, main⟩ := main
  obtain ⟨rfl, p3⟩ := testLoop_true _ p3
  obtain ⟨rfl, p2⟩ := testLoop_true _ p2
  obtain ⟨rfl, p1⟩ := testLoop_true _ p1
  exact ⟨(signStates_true P _ hinit).2, init, s₃, s1, hinit, ⟨s₁, s₂, o₁, o₂, o₃, p1, p2, p3⟩, join_some q1, main⟩

/-! ### What the tests do not see -/

/-- The rounds of the signing protocol, except that they compute nothing and send nothing. -/
def Spec.mute (sha : Sha512) : RoundImpl G (Sign.Round G) := { Sign.impl sha with generateMessages := fun _ _ r => .ok (r, []) }

/-- A session that waits for messages and has no signature. -/
def Spec.Quiet (s : State G (Sign.Round G)) : Prop :=
  s.done = false ∧ s.queue = [] ∧ s.round.output.signature = none ∧ (IDSlice.N s.round.partyIDs - 1).toNat ≠ 0 ∧
    ((s.round.stage = .r0 ∧ s.acceptedTypes = Sign.acceptedMessageTypes) ∨ s.received = [])

theorem processLoop_r0 (l : List (ID × Option (Message G))) {r : Sign.Round G} (h : r.stage = .r0) : State.processLoop (Spec.mute sha) l r = .ok r := by
  induction l with
  | nil => rfl
  | cons a l ih =>
    obtain ⟨i, m⟩ := a
    rw [State.processLoop]
    have : (Spec.mute sha).processMessage r m = .ok r := by
      unfold Spec.mute Sign.impl
      simp only [h]
    rw [this]
    exact ih

theorem quiet_routine (ord : MapOrder) (coins : Coins) {s : State G (Sign.Round G)} (h : Spec.Quiet s) :
    ∃ s', partyRoutine (Spec.mute sha) ord coins [] s = some (s', .ok []) ∧ Spec.Quiet s' := by
  obtain ⟨h1, h2, h3, h4, h5⟩ := h
  have key : ∃ s', State.processAll (Spec.mute sha) ord coins s = some (s', []) ∧ Spec.Quiet s' := by
    unfold State.processAll
    rw [if_neg (by simp [h1])]
    by_cases hl : s.received.length = (IDSlice.N ((Spec.mute sha).partyIDs s.round) - 1).toNat
    swap
    · rw [if_pos hl]
      exact ⟨s, rfl, h1, h2, h3, h4, h5⟩
    · rw [if_neg (not_not.mpr hl)]
      rcases h5 with ⟨h5, h6⟩ | h5
      swap
      · rw [h5] at hl
        exact absurd hl.symm h4
      · rw [processLoop_r0 _ h5]
        have hnext : (Spec.mute sha).nextRound s.round = some { s.round with stage := .r1 } := by
          unfold Spec.mute Sign.impl
          simp only [h5]
        have hgen : ∀ r : Sign.Round G, (Spec.mute sha).generateMessages ord coins r = .ok (r, []) := fun _ => rfl
        simp only [hgen, h6, h2, Sign.acceptedMessageTypes, State.dequeueLoop, hnext]
        exact ⟨_, rfl, h1, rfl, h3, h4, .inr rfl⟩
  obtain ⟨s', g1, g2⟩ := key
  refine ⟨s', ?_, g2⟩
  unfold partyRoutine
  rw [show routineInputs (Spec.mute sha) [] s = some (s, none) from rfl]
  simp only
  rw [g1]
  simp only
  rw [show routineOutputs ([] : List (Message G)) [] = .ok [] from rfl]
  simp only
  rw [State.isFinished, g2.1]
  rfl

theorem quiet_loop (order : ID → MapOrder) (coins : ID → Coins) (ids : List ID) (l : List ID) (hl : ∀ i ∈ l, i ∈ ids) {st : GoMap (Option (State G (Sign.Round G)))}
    (h : ∀ i ∈ ids, ∃ s, st.get? i = some (some s) ∧ Spec.Quiet s) (hk : ∀ i, i ∈ st.keys ↔ i ∈ ids) (ok : Bool) :
    ∃ st', testLoop (Spec.mute sha) order coins [] l st [] ok = .done (st', [], ok) ∧ (∀ i ∈ ids, ∃ s, st'.get? i = some (some s) ∧ Spec.Quiet s) ∧
      ∀ i, i ∈ st'.keys ↔ i ∈ ids := by
  induction l generalizing st with
  | nil => exact ⟨st, rfl, h, hk⟩
  | cons a l ih =>
    obtain ⟨s, h1, h2⟩ := h a (hl a List.mem_cons_self)
    obtain ⟨s', h3, h4⟩ := quiet_routine (sha := sha) (order a) (coins a) h2
    rw [testLoop, h1, Option.join_some]
    simp only [h3]
    refine ih (fun i hi => hl i (List.mem_cons_of_mem _ hi)) ?_ ?_
    · intro i hi
      rw [GoMap.get?_set]
      by_cases hia : i = a
      · rw [if_pos hia]; exact ⟨s', rfl, h4⟩
      · rw [if_neg hia]; exact h i hi
    · intro i
      rw [GoMap.mem_keys_set, hk]
      exact ⟨fun hh => hh.elim (fun e => e ▸ hl a List.mem_cons_self) id, .inr⟩

/-- C86, refuted: `TestSign` passes for an implementation that sends nothing, computes nothing and never signs, for all `1 ≤ T < N`: no session has finished,
and the test ends without an error because party 1 has no signature (test/sign_test.go:70-72). -/
theorem C86_sign_silent (env : Env) (ord ord' : MapOrder) (coins : Coins) (T N : UInt16) (message : Bytes) (h0 : 1 ≤ T.toNat) (h1 : T.toNat < N.toNat)
    (h2 : N.toNat < 65535) :
    ∃ (signSet : IDSlice) (shares : GoMap (SecretShare G)) (pub : Public G), setupParties ord coins T N = .done (signSet, shares, pub) ∧
      testSignWith sha { signImpl sha env signSet shares pub message with impl := Spec.mute sha } env ord' signSet pub.groupKey message = .done true := by
  obtain ⟨shares, pub, F, hset, hF, hids, hgk, hmem, hsec, hpub⟩ := setup_done (G := G) ord coins T N h1 h2
  refine ⟨_, shares, pub, hset, ?_⟩
  have hT16 : T.toNat + 1 < 65536 := by omega
  have hlen := firstIDs_length (T.toNat + 1)
  have hnd := firstIDs_nodup hT16
  have hz := firstIDs_zero hT16
  have hone := one_mem_firstIDs T.toNat
  have hso := firstIDs_sorted hT16
  generalize hS : Spec.firstIDs (T.toNat + 1) = S at *
  have hex : ∀ i, ∃ s : State G (Sign.Round G), i ∈ S →
      Sign.newSignState sha S (SecretShare.new i (F.eval (i.toNat : Scalar))) pub message 0 (env.now i) = .ok s := by
    intro i
    have acc : ∀ i ∈ S, ∃ s : State G (Sign.Round G), Sign.newSignState sha S (SecretShare.new i (F.eval (i.toNat : Scalar))) pub message 0 (env.now i) = .ok s := fun i hi =>
      C42_accepts _ pub S message 0 (env.now i) hso (by rw [hids]; exact firstIDs_sorted (by omega)) hi fun k hk =>
        ⟨hids ▸ hmem k hk, fun h => hz (h ▸ hk), by rw [hpub k (hmem k hk)]; simp⟩
    by_cases hi : i ∈ S
    · obtain ⟨s, hs⟩ := acc i hi
      exact ⟨s, fun _ => hs⟩
    · obtain ⟨s, _⟩ := acc 1 hone
      exact ⟨s, fun h => absurd h hi⟩
  choose init hinit using hex
  have hquiet : ∀ i ∈ S, Spec.Quiet (init i) := by
    intro i hi
    obtain ⟨r₀, g1, g2⟩ := sign_start_of_new (hinit i hi) hnd
    obtain ⟨_, _, parties, _, g3⟩ := Sign.newRound_ok.mp g1.new
    rw [g2, g3]
    refine ⟨rfl, rfl, rfl, ?_, .inl ⟨rfl, rfl⟩⟩
    have := N_toNat hnd hz
    show (IDSlice.N S - 1).toNat ≠ 0
    rw [UInt16.toNat_sub_of_le _ _ (by rw [UInt16.le_iff_toNat_le, this, hlen]; show 1 ≤ _; omega), this, hlen]
    show T.toNat + 1 - 1 ≠ 0
    omega
  set P : Impl G (Sign.Round G) (Sign.Output G) := { signImpl sha env S shares pub message with impl := Spec.mute sha } with hP
  have hnew : ∀ i ∈ S, P.new i = .ok (init i) := by
    intro i hi
    rw [hP]
    unfold signImpl
    simp only [hsec i (hmem i hi)]
    exact hinit i hi
  have hperm : ∀ (k : Nat) (st : GoMap (Option (State G (Sign.Round G)))), (∀ i, i ∈ st.keys ↔ i ∈ S) → ∀ i ∈ ((env.range k).order _ st).keys, i ∈ S :=
    fun k st h i hi => (h i).mp ((((env.range k).perm _ st).map Prod.fst).mem_iff.mp hi)
  have k0 : ∀ i, i ∈ GoMap.keys (S.map fun i => (i, some (init i))) ↔ i ∈ S := fun i => by rw [GoMap.keys_map_self]
  obtain ⟨s₁, p1, q1, k1⟩ := quiet_loop (sha := sha) (env.order 0) (env.coins 0) S _ (hperm 0 _ k0)
    (fun i hi => ⟨init i, GoMap.get?_map_self _ hi, hquiet i hi⟩) k0 true
  obtain ⟨s₂, p2, q2, k2⟩ := quiet_loop (sha := sha) (env.order 1) (env.coins 1) S _ (hperm 1 _ k1) q1 k1 true
  obtain ⟨s₃, p3, q3, k3⟩ := quiet_loop (sha := sha) (env.order 2) (env.coins 2) S _ (hperm 2 _ k2) q2 k2 true
  have e1 : testStage P.impl env 0 [] (S.map fun i => (i, some (init i))) true = .done (s₁, [], true) := p1
  have e2 : testStage P.impl env 1 [] s₁ true = .done (s₂, [], true) := p2
  have e3 : testStage P.impl env 2 [] s₂ true = .done (s₃, [], true) := p3
  unfold testSignWith
  rw [signStates_ok P init hnd hnew [] (fun _ _ => by simp [GoMap.keys]), done_bind]
  simp only [List.nil_append, e1, done_bind, e2, e3]
  obtain ⟨s, r1, r2⟩ := q3 1 hone
  rw [r1, Option.join_some, End.deref, done_bind, show (P.output s.round).signature = none from r2.2.2.1]

/-- With the parameters of the test. -/
example (env : Env) (ord ord' : MapOrder) (coins : Coins) (message : Bytes) :
    ∃ (signSet : IDSlice) (shares : GoMap (SecretShare Curve.RG)) (pub : Public Curve.RG), setupParties ord coins 49 50 = .done (signSet, shares, pub) ∧
      testSignWith sha { signImpl sha env signSet shares pub message with impl := Spec.mute sha } env ord' signSet pub.groupKey message = .done true :=
  C86_sign_silent env ord ord' coins 49 50 message (by decide) (by decide) (by decide)

/-- C86: `ValidateSecrets` sees the secrets only through their weighted sum: any secrets with the same sum get the same verdict, whatever public
shares they stand beside. -/
theorem C86_validate_blind (ord : MapOrder) (ids : List ID) (pubOf : ID → G) (sec sec' : ID → Scalar) (groupKey : G) (shares : Public G)
    (hsum : (ids.map fun i => Spec.weight i shares.partyIDs * sec i).sum = (ids.map fun i => Spec.weight i shares.partyIDs * sec' i).sum) :
    validateSecrets ord (ids.map fun i => (i, some ⟨i, sec i, pubOf i⟩)) groupKey shares = .ok true ↔
      validateSecrets ord (ids.map fun i => (i, some ⟨i, sec' i, pubOf i⟩)) groupKey shares = .ok true := by
  have key : ∀ sec : ID → Scalar, (ids.map fun i => ((i, some ⟨i, sec i, pubOf i⟩) : ID × Option (SecretShare G))).map (Spec.weighted shares.partyIDs) =
      ids.map fun i => Spec.weight i shares.partyIDs * sec i := by
    intro sec
    rw [List.map_map]
    rfl
  have key2 : ∀ sec : ID → Scalar, (∀ e ∈ (ids.map fun i => ((i, some ⟨i, sec i, pubOf i⟩) : ID × Option (SecretShare G))), Spec.EntryValid shares e) ↔
      ∀ i ∈ ids, i ≠ 0 ∧ i ∈ shares.partyIDs ∧ shares.shares.get? i = some (pubOf i) := by
    intro sec
    rw [List.forall_mem_map]
    constructor
    · intro h i hi
      obtain ⟨h1, h2, s, h3, h4⟩ := h i hi
      obtain rfl := Option.some.inj h3
      exact ⟨h1, h2, h4⟩
    · intro h i hi
      obtain ⟨h1, h2, h3⟩ := h i hi
      exact ⟨h1, h2, _, rfl, h3⟩
  rw [C86_validate_iff, C86_validate_iff, key, key, key2, key2, hsum]

theorem weight_ne_zero {ids : List ID} (a : ID) (h0 : (0 : ID) ∉ ids) : Spec.weight a ids ≠ 0 := by
  rw [weight_eq]
  unfold ID.lagrangeVal
  refine mul_ne_zero ?_ (inv_ne_zero (ID.lagrange_denum_ne_zero a ids))
  rw [ne_eq, List.prod_eq_zero_iff]
  intro h
  obtain ⟨j, hj, hz⟩ := List.mem_map.mp h
  rw [ID.val_eq_zero.mp hz] at hj
  exact h0 (List.mem_of_mem_filter hj)

/-- C86, refuted: for every key of at least two parties that `ValidateSecrets` accepts, it also accepts one in which the secrets of two parties are not those
of their public shares. -/
theorem C86_validate_wrong (ord : MapOrder) (ids : List ID) (hnd : ids.Nodup) (h0 : (0 : ID) ∉ ids) (sec : ID → Scalar) (shares : Public G)
    (hids : shares.partyIDs = ids) (a b : ID) (ha : a ∈ ids) (hb : b ∈ ids) (hab : a ≠ b)
    (hok : validateSecrets ord (ids.map fun i => (i, some ⟨i, sec i, sec i • base⟩)) shares.groupKey shares = .ok true) :
    ∃ sec' : ID → Scalar, sec' a • (base : G) ≠ sec a • base ∧ sec' b • (base : G) ≠ sec b • base ∧
      validateSecrets ord (ids.map fun i => (i, some ⟨i, sec' i, sec i • base⟩)) shares.groupKey shares = .ok true := by
  have hla := weight_ne_zero a h0
  have hlb := weight_ne_zero b h0
  refine ⟨fun i => sec i + ((if i = a then Spec.weight b ids else 0) - (if i = b then Spec.weight a ids else 0)), ?_, ?_, ?_⟩
  · intro h
    have := smul_base_injective h
    dsimp only at this
    rw [if_pos rfl, if_neg hab, sub_zero] at this
    exact hlb (add_eq_left.mp this)
  · intro h
    have := smul_base_injective h
    dsimp only at this
    rw [if_pos rfl, if_neg hab.symm, zero_sub] at this
    exact hla (neg_eq_zero.mp (add_eq_left.mp this))
  · refine (C86_validate_blind ord ids (fun i => sec i • base) sec _ shares.groupKey shares ?_).mp hok
    rw [hids, ← List.sum_toFinset _ hnd, ← List.sum_toFinset _ hnd]
    simp only [mul_add, mul_sub, Finset.sum_add_distrib, Finset.sum_sub_distrib, mul_ite, mul_zero, Finset.sum_ite_eq', List.mem_toFinset, ha, hb, if_true]
    ring

/-- The key of three parties above, with the secrets of parties 1 and 2 changed by the weights of the other: 45 - 3 and 69 - 3. -/
example : validateSecrets MapOrder.insertion [(1, some ⟨1, 42, Toy.of 45⟩), (2, some ⟨2, 66, Toy.of 69⟩), (3, some ⟨3, 93, Toy.of 93⟩)] (Toy.of 21)
      ⟨[1, 2, 3], 1, [(1, Toy.of 45), (2, Toy.of 69), (3, Toy.of 93)], Toy.of 21⟩ = .ok true := by
  decide +kernel

/-- C86, refuted: `ValidateSecrets` does not look at the threshold: it accepts the shares of a polynomial of too high a degree, for which `t + 1` parties
do not have the secret of the group key. -/
theorem C86_degree_blind (ord : MapOrder) (n : Nat) (hn : n < 65536) (t : UInt16) (ht : t.toNat + 1 < n) (c : Scalar) :
    ∃ F : Scalar[X], F.eval 0 ≠ c ∧
      validateSecrets (G := G) ord ((Spec.firstIDs n).map fun i => (i, some (SecretShare.new i (F.eval (i.toNat : Scalar))))) (F.eval 0 • base)
        ⟨Spec.firstIDs n, t, (Spec.firstIDs n).map fun i => (i, F.eval (i.toNat : Scalar) • base), F.eval 0 • base⟩ = .ok true ∧
      ((Spec.firstIDs (t.toNat + 1)).map fun i => Spec.weight i (Spec.firstIDs (t.toNat + 1)) * F.eval (i.toNat : Scalar)).sum = c := by
  have ht16 : t.toNat + 1 < 65536 := by omega
  set S := Spec.firstIDs (t.toNat + 1) with hS
  have hSlen : S.length = t.toNat + 1 := firstIDs_length _
  have hSnd : S.Nodup := firstIDs_nodup ht16
  have hS0 : (0 : ID) ∉ S := firstIDs_zero ht16
  have hnd := firstIDs_nodup hn
  have h0 := firstIDs_zero hn
  have hlen := firstIDs_length n
  set Q : Scalar[X] := (S.map fun i => Polynomial.X - Polynomial.C (i.val)).prod with hQ
  have hdeg : Q.natDegree ≤ S.length := by
    refine (Polynomial.natDegree_list_prod_le _).trans ?_
    rw [List.map_map]
    refine (List.sum_le_card_nsmul _ 1 ?_).trans (by simp)
    intro x hx
    obtain ⟨i, _, rfl⟩ := List.mem_map.mp hx
    exact Polynomial.natDegree_X_sub_C_le _
  have hzero : ∀ i ∈ S, Q.eval i.val = 0 := by
    intro i hi
    rw [hQ, Polynomial.eval_list_prod, List.prod_eq_zero_iff, List.map_map]
    exact List.mem_map.mpr ⟨i, hi, by simp⟩
  have hne : Q.eval 0 ≠ 0 := by
    rw [hQ, Polynomial.eval_list_prod, ne_eq, List.prod_eq_zero_iff, List.map_map]
    intro h
    obtain ⟨i, hi, hz⟩ := List.mem_map.mp h
    simp only [Function.comp_apply, Polynomial.eval_sub, Polynomial.eval_X, Polynomial.eval_C, zero_sub, neg_eq_zero] at hz
    exact hS0 (ID.val_eq_zero.mp hz ▸ hi)
  refine ⟨Polynomial.C c + Q, ?_, ?_, ?_⟩
  · rw [Polynomial.eval_add, Polynomial.eval_C]
    exact fun h => hne (add_eq_left.mp h)
  · rw [C86_validate_iff]
    refine ⟨?_, ?_⟩
    · intro e he
      obtain ⟨i, hi, rfl⟩ := List.mem_map.mp he
      exact ⟨fun h => h0 (h ▸ hi), hi, _, rfl, GoMap.get?_map_self _ hi⟩
    · have := weight_sum hnd (Polynomial.C c + Q) (by
        refine lt_of_le_of_lt Polynomial.degree_le_natDegree ?_
        have : (Polynomial.C c + Q).natDegree ≤ S.length := (Polynomial.natDegree_add_le _ _).trans (by simp [hdeg])
        rw [hlen]
        exact_mod_cast (by omega : _ < n))
      rw [List.map_map]
      simp only
      rw [← this]
      rfl
  · have := weight_sum hSnd (Polynomial.C c) (by
      refine lt_of_le_of_lt Polynomial.degree_C_le ?_
      exact_mod_cast (by omega : 0 < S.length))
    rw [Polynomial.eval_C] at this
    refine Eq.trans ?_ this
    congr 1
    apply List.map_congr_left
    intro i hi
    rw [Polynomial.eval_add, show ((i.toNat : Nat) : Scalar) = ID.val i from rfl, hzero i hi, add_zero, Polynomial.eval_C]

/-- Threshold 1, three parties. -/
example : ∃ F : Scalar[X], F.eval 0 ≠ 7 ∧
      validateSecrets (G := Toy) MapOrder.insertion ((Spec.firstIDs 3).map fun i => (i, some (SecretShare.new i (F.eval (i.toNat : Scalar))))) (F.eval 0 • base)
        ⟨Spec.firstIDs 3, 1, (Spec.firstIDs 3).map fun i => (i, F.eval (i.toNat : Scalar) • base), F.eval 0 • base⟩ = .ok true ∧
      ((Spec.firstIDs 2).map fun i => Spec.weight i (Spec.firstIDs 2) * F.eval (i.toNat : Scalar)).sum = 7 :=
  C86_degree_blind _ 3 (by decide) 1 (by decide) 7

end Verif.Props
