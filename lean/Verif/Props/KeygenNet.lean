import Verif.Lemmas.Net
import Verif.Lemmas.StateOrder
import Verif.Props.KeygenOut
import Verif.Props.Sign

/-!
Key generation among honest parties (C35, C36, C37).
-/

namespace Verif.Keygen

open State Spec

variable {G : Type} [RGroup G] {sha : Sha512}

/-- What `i` sends to `j` for round `n`. -/
def honestMsg (t : UInt16) (coins : ID → Coins) (n : Nat) (i j : ID) : Message G :=
  if n = 1 then Message.newKeyGen1 i ⟨0, coins i (t.toNat + 1)⟩ (Exponent.ofPoly (coinPoly t (coins i)))
  else Message.newKeyGen2 i j (Spec.evalAt (coinPoly t (coins i)) j.val)

/-- What `i` sends at the end of round `n`. -/
def honestOut (ids : IDSlice) (t : UInt16) (coins : ID → Coins) (i : ID) (n : Nat) : List (Message G) :=
  match n with
  | 0 => [Message.newKeyGen1 i ⟨0, coins i (t.toNat + 1)⟩ (Exponent.ofPoly (coinPoly t (coins i)))]
  | 1 => dealt i (coinPoly t (coins i)) ids
  | _ => []

/-- The round object in an honest run. -/
def HonestGood (ids : IDSlice) (t : UInt16) (coins : ID → Coins) (r₀ : ID → Round G) (i : ID) (n : Nat) (r : Round G) : Prop :=
  match n with
  | 0 => r = r₀ i
  | 1 => r = round1 (r₀ i) (coinPoly t (coins i))
  | 2 => ∃ l₁, (l₁.map Prod.fst).Perm (others i ids) ∧ (∀ k v, (k, v) ∈ l₁ → v = some (honestMsg t coins 1 k i)) ∧
      r = round2 (r₀ i) (coinPoly t (coins i)) l₁
  | _ => False

theorem threshold_ne {r₀ : Round G} {i : ID} {ids : IDSlice} {t : UInt16} (hs : Start r₀ i ids t) (h0 : (0 : ID) ∉ ids) : t ≠ 65535 := by
  obtain ⟨_, _, htn, hc⟩ := hs.eq
  intro h
  subst h
  have hlen : (0 :: ids).length ≤ 65536 := Props.nodup_ids_length (List.nodup_cons.mpr ⟨h0, hs.nodup⟩)
  have hne : ids ≠ [] := List.ne_nil_of_mem (IDSlice.contains_sound hc)
  rw [UInt16.le_iff_toNat_le, Props.N_pred_eq hne (Props.nodup_ids_length hs.nodup)] at htn
  rw [List.length_cons] at hlen
  have : (65535 : UInt16).toNat = 65535 := rfl
  omega

theorem honest {ids : IDSlice} {t : UInt16} (hsorted : ids.Pairwise (· ≤ ·)) (hnd : ids.Nodup) (h0 : (0 : ID) ∉ ids) (r₀ : ID → Round G)
    (hs : ∀ i ∈ ids, Start (r₀ i) i ids t) (coins : ID → Coins) :
    Honest (impl sha) ids r₀ coins (honestMsg t coins) (honestOut ids t coins) (HonestGood ids t coins r₀) [0, 1, 2] where
  stable := impl_stable sha
  tys_nodup := by decide
  tys_length := rfl
  sorted := hsorted
  nodup := hnd
  self i hi := by rw [(hs i hi).eq.1]; rfl
  parties i hi := by rw [(hs i hi).eq.1]; rfl
  types i hi := rfl
  out_spec := by
    intro i hi n hn m hm
    match n, hn with
    | 0, _ =>
      simp only [honestOut, List.mem_singleton] at hm
      subst hm
      exact ⟨rfl, rfl, fun j _ _ _ => rfl⟩
    | 1, _ =>
      simp only [honestOut, dealt] at hm
      obtain ⟨k, hk, rfl⟩ := List.mem_map.mp hm
      refine ⟨rfl, rfl, fun j hj _ hto => ?_⟩
      rcases hto with hto | hto
      · have hto : k = 0 := hto
        rw [List.mem_filter] at hk
        exact absurd (hto ▸ hk.1) h0
      · have hto : k = j := hto
        rw [hto]; rfl
  out_mem := by
    intro i hi j hj hne n hn
    match n, hn with
    | 0, _ => exact ⟨List.mem_singleton.mpr rfl, Or.inl rfl⟩
    | 1, _ => exact ⟨List.mem_map.mpr ⟨j, List.mem_filter.mpr ⟨hj, by simpa using hne⟩, rfl⟩, Or.inr rfl⟩
  out_last i _ := rfl
  good0 i _ := rfl
  step := by
    intro i hi n r hn hgood l hk hfirst hlater ord c hc
    obtain ⟨heq, _⟩ := (hs i hi).eq
    have e1 : (r₀ i).selfID = i := by rw [heq]
    have e2 : (r₀ i).partyIDs = ids := by rw [heq]
    have e3 : (r₀ i).threshold = t := by rw [heq]
    have e4 : (r₀ i).stage = .r0 := by rw [heq]
    have hi0 : i ≠ 0 := fun h => h0 (h ▸ hi)
    have hndo : (l.map Prod.fst).Nodup := hk.nodup_iff.mpr (hnd.filter _)
    match n, hgood with
    | 0, hgood =>
      have hgood : r = r₀ i := hgood
      subst hgood
      rw [hc rfl]
      refine ⟨r₀ i, _, loop0 e4, gen0 e4 (generate0_ok.mpr ⟨by rw [e3]; exact threshold_ne (hs i hi) h0, by rw [e1]; exact hi0, rfl, ?_⟩), ?_, ?_⟩
      · rw [e1, e3]; rfl
      · intro _
        refine ⟨round1 (r₀ i) (coinPoly t (coins i)), ?_, rfl⟩
        simp only [impl, e4, round1, e1, e3]
      · intro h; cases h
    | 1, hgood =>
      have hgood : r = round1 (r₀ i) (coinPoly t (coins i)) := hgood
      subst hgood
      have hl := hlater (by omega)
      have hloop := (loop1 (sha := sha) (l := l) (r := round1 (r₀ i) (coinPoly t (coins i))) (sum := Exponent.ofPoly (coinPoly t (coins i))) rfl rfl
        (by
          intro k v hkv
          rw [hl k v hkv]
          exact ⟨_, rfl, rfl⟩)).mpr ⟨by
          intro k v hkv
          rw [hl k v hkv]
          exact ⟨_, _, rfl, rfl, by simp [Exponent.ofPoly, coinPoly], rfl⟩, rfl⟩
      refine ⟨_, _, hloop, gen1 rfl (generate1_ok.mpr ⟨coinPoly t (coins i), rfl, ?_, rfl, ?_⟩), ?_, ?_⟩
      · intro id hid _ h
        have hid : id ∈ (r₀ i).partyIDs := hid
        rw [e2] at hid
        exact h0 (h ▸ hid)
      · show dealt i (coinPoly t (coins i)) ids = dealt (r₀ i).selfID _ (r₀ i).partyIDs
        rw [e1, e2]
      · intro _
        refine ⟨round2 (r₀ i) (coinPoly t (coins i)) l, ?_, l, hk, hl, rfl⟩
        show some _ = some _
        congr 1
        simp only [round2, round1, sum2, comms2]
        rw [heq]
      · intro h; cases h
    | 2, ⟨l₁, hk₁, hl₁, hgood⟩ =>
      subst hgood
      have hl := hlater (by omega)
      have hnd1 : (l₁.map Prod.fst).Nodup := hk₁.nodup_iff.mpr (hnd.filter _)
      have hcomms : ∀ k ∈ others i ids, (comms2 l₁).get? k = some (Exponent.ofPoly (coinPoly t (coins k))) := by
        intro k hk
        obtain ⟨⟨k', v⟩, hkv, rfl⟩ := List.mem_map.mp (hk₁.mem_iff.mpr hk)
        have := hl₁ k' v hkv
        subst this
        unfold comms2
        rw [get?_foldl_set commOf l₁ [] hnd1, find?_of_mem hnd1 hkv]
        rfl
      have hloop := (loop2 (sha := sha) (l := l) (r := round2 (r₀ i) (coinPoly t (coins i)) l₁) rfl (by show (r₀ i).selfID ≠ 0; rw [e1]; exact hi0)
        (by
          intro k v hkv
          rw [hl k v hkv]
          exact ⟨_, rfl, rfl⟩)).mpr ⟨by
          intro k v hkv
          rw [hl k v hkv]
          refine ⟨_, _, _, rfl, rfl, hcomms k (hk.mem_iff.mp (List.mem_map.mpr ⟨_, hkv, rfl⟩)), ?_⟩
          show _ = Spec.evalAt _ (r₀ i).selfID.val
          rw [e1, Exponent.ofPoly_evalAt], rfl⟩
      obtain ⟨shares, hsh, _⟩ := Props.evaluateMulti_eq (sum2 (coinPoly t (coins i)) l₁) ids h0 []
      have hlen : (sum2 (coinPoly t (coins i)) l₁).length = t.toNat + 1 := by
        unfold sum2
        rw [foldl_addOrKeep_length (fun e : ID × Option (Message G) => commOf e.2)]
        simp [Exponent.ofPoly, coinPoly_length]
      obtain ⟨gk, hgk⟩ := getElem?_zero_iff.mpr (show sum2 (coinPoly t (coins i)) l₁ ≠ [] by intro h; rw [h] at hlen; simp at hlen)
      refine ⟨_, _, hloop, gen2 rfl (generate2_ok.mpr ⟨_, shares, gk, rfl, by show (0 : ID) ∉ (r₀ i).partyIDs; rw [e2]; exact h0,
        by show Exponent.evaluateMulti _ (r₀ i).partyIDs [] = _; rw [e2]; exact hsh, hgk, by show (r₀ i).hasOutput = true; rw [heq], rfl, rfl⟩), ?_, ?_⟩
      · intro h; omega
      · intro _
        exact ⟨rfl, _, reset_eq.mpr ⟨_, _, rfl, rfl, rfl⟩⟩

section

variable {ids : IDSlice} {t : UInt16} {r₀ : ID → Round G} {coins : ID → Coins} {timeout now : ID → Nat} {N : Net G (Round G)}

theorem sent1 (hN : NetInv (impl sha) ids r₀ (honestOut ids t coins) (HonestGood ids t coins r₀) timeout now N) {m : Message G}
    (hm : m ∈ N.sent) (hty : m.header.type = 1) :
    m = Message.newKeyGen1 m.header.fromID ⟨0, coins m.header.fromID (t.toNat + 1)⟩ (Exponent.ofPoly (coinPoly t (coins m.header.fromID))) := by
  obtain ⟨i, _, n, hn, hmo⟩ := hN.sentOnly m hm
  match n, hn with
  | 0, _ =>
    simp only [honestOut, List.mem_singleton] at hmo
    subst hmo
    rfl
  | 1, _ =>
    simp only [honestOut, dealt] at hmo
    obtain ⟨k, _, rfl⟩ := List.mem_map.mp hmo
    cases hty

theorem sent2 (hN : NetInv (impl sha) ids r₀ (honestOut ids t coins) (HonestGood ids t coins r₀) timeout now N) {m : Message G}
    (hm : m ∈ N.sent) (hty : m.header.type = 2) :
    m.header.toID ∈ ids ∧
      m = Message.newKeyGen2 m.header.fromID m.header.toID (Spec.evalAt (coinPoly t (coins m.header.fromID)) m.header.toID.val) := by
  obtain ⟨i, _, n, hn, hmo⟩ := hN.sentOnly m hm
  match n, hn with
  | 0, _ =>
    simp only [honestOut, List.mem_singleton] at hmo
    subst hmo
    cases hty
  | 1, _ =>
    simp only [honestOut, dealt] at hmo
    obtain ⟨k, hk, rfl⟩ := List.mem_map.mp hmo
    exact ⟨(List.mem_filter.mp hk).1, rfl⟩

theorem ofPoly_injective {f g : Poly} (h : (Exponent.ofPoly f : Exponent G) = Exponent.ofPoly g) : f = g := by
  unfold Exponent.ofPoly at h
  exact List.map_injective_iff.mpr (fun a b hab => smul_base_injective hab) h

end

end Verif.Keygen

namespace Verif.Props

open State Keygen Polynomial

variable {G : Type} [RGroup G] {sha : Sha512}

/-- The polynomial whose coefficients are the first `t + 1` coins. -/
noncomputable def Spec.coinsPoly (t : Nat) (c : Coins) : Scalar[X] := ∑ k ∈ Finset.range (t + 1), C (c k) * X ^ k

/-- The sum of the polynomials of all parties. -/
noncomputable def Spec.jointPoly (ids : List ID) (t : Nat) (coins : ID → Coins) : Scalar[X] := (ids.map fun i => Spec.coinsPoly t (coins i)).sum

theorem coinsPoly_eval (t : UInt16) (c : Coins) (x : Scalar) : (Spec.coinsPoly t.toNat c).eval x = Spec.evalAt (coinPoly t c) x := by
  rw [← toPoly_eval]
  congr 1
  ext n
  rw [toPoly_coeff]
  simp only [Spec.coinsPoly, finset_sum_coeff, coeff_C_mul, coeff_X_pow, mul_ite, mul_one, mul_zero, Finset.sum_ite_eq, Finset.mem_range]
  cases n with
  | zero => simp [coinPoly]
  | succ n =>
    by_cases h : n < t.toNat
    · simp [coinPoly, h]
    · simp [coinPoly, h]

theorem jointPoly_natDegree (ids : List ID) (t : Nat) (coins : ID → Coins) : (Spec.jointPoly ids t coins).natDegree ≤ t := by
  unfold Spec.jointPoly
  induction ids with
  | nil => simp
  | cons i ids ih =>
    rw [List.map_cons, List.sum_cons]
    refine (natDegree_add_le _ _).trans (max_le ?_ ih)
    refine natDegree_sum_le_of_forall_le _ _ fun k hk => ?_
    refine (natDegree_C_mul_X_pow_le _ _).trans ?_
    rw [Finset.mem_range] at hk
    omega

theorem jointPoly_eval (ids : List ID) (t : Nat) (coins : ID → Coins) (x : Scalar) :
    (Spec.jointPoly ids t coins).eval x = (ids.map fun i => (Spec.coinsPoly t (coins i)).eval x).sum := by
  unfold Spec.jointPoly
  induction ids with
  | nil => simp
  | cons i ids ih => rw [List.map_cons, List.sum_cons, eval_add, ih, List.map_cons, List.sum_cons]

theorem jointPoly_zero (ids : List ID) (t : Nat) (coins : ID → Coins) : (Spec.jointPoly ids t coins).eval 0 = (ids.map fun i => coins i 0).sum := by
  rw [jointPoly_eval]
  congr 1
  apply List.map_congr_left
  intro i _
  unfold Spec.coinsPoly
  rw [Finset.sum_range_succ', eval_add, eval_finset_sum]
  simp

/-- The parties with their sessions, as the constructor made them. -/
structure Spec.KeygenSetup (sha : Sha512) (ids : IDSlice) (t : UInt16) (timeout now : ID → Nat) (init : ID → State G (Keygen.Round G)) : Prop where
  sorted : ids.Pairwise (· ≤ ·)
  nodup : ids.Nodup
  zero : (0 : ID) ∉ ids
  start : ∀ i ∈ ids, newKeygenState sha i ids t (timeout i) (now i) = .ok (init i)

/-- What a party of an honest key generation ends up with, if the sum of the polynomials is `F`. -/
def Spec.KeygenResult (ids : List ID) (t : UInt16) (F : Scalar[X]) (i : ID) (r : Keygen.Round G) : Prop :=
  r.output.secretKey = some ⟨i, F.eval (i.toNat : Scalar), F.eval (i.toNat : Scalar) • base⟩ ∧
  ∃ pub, r.output.pub = some pub ∧ pub.partyIDs = ids ∧ pub.threshold = t ∧ pub.groupKey = F.eval 0 • (base : G) ∧
    (∀ k ∈ ids, pub.shares.get? k = some (F.eval (k.toNat : Scalar) • base)) ∧ ∀ k, k ∉ ids → pub.shares.get? k = none

section

variable {ids : IDSlice} {t : UInt16} {timeout now : ID → Nat} {init : ID → State G (Keygen.Round G)}

theorem netInv (hs : Spec.KeygenSetup sha ids t timeout now init) (coins : ID → Coins) :
    ∃ r₀ : ID → Keygen.Round G, (∀ i ∈ ids, Start (r₀ i) i ids t) ∧
      Honest (impl sha) ids r₀ coins (honestMsg t coins) (honestOut ids t coins) (HonestGood ids t coins r₀) [0, 1, 2] ∧
      ∀ N, Spec.Path (impl sha) ids coins (Spec.Net.start init) N →
        NetInv (impl sha) ids r₀ (honestOut ids t coins) (HonestGood ids t coins r₀) timeout now N := by
  have hex : ∀ i, ∃ r₀ : Keygen.Round G, i ∈ ids → Start r₀ i ids t ∧ init i = newBaseState (impl sha) r₀ (timeout i) (now i) := by
    intro i
    by_cases hi : i ∈ ids
    · obtain ⟨r₀, h1, h2⟩ := start_of_new (hs.start i hi) hs.nodup
      exact ⟨r₀, fun _ => ⟨h1, h2⟩⟩
    · exact ⟨(init i).round, fun h => absurd h hi⟩
  choose r₀ hr₀ using hex
  have H := honest (sha := sha) hs.sorted hs.nodup hs.zero r₀ (fun i hi => (hr₀ i hi).1) coins
  exact ⟨r₀, fun i hi => (hr₀ i hi).1, H, fun N hp => NetInv.path H (NetInv.start H fun i hi => (hr₀ i hi).2) hp⟩

theorem sum_others {i : ID} {ids : List ID} (hnd : ids.Nodup) (hi : i ∈ ids) {A : Type} [AddCommMonoid A] (g : ID → A) :
    g i + ((others i ids).map g).sum = (ids.map g).sum := by
  have hp : (i :: others i ids).Perm ids := by
    refine (List.perm_ext_iff_of_nodup (List.nodup_cons.mpr ⟨fun h => (mem_others.mp h).2 rfl, hnd.filter _⟩) hnd).mpr fun k => ?_
    rw [List.mem_cons, mem_others]
    constructor
    · rintro (rfl | h)
      · exact hi
      · exact h.1
    · intro h
      by_cases hk : k = i
      · exact Or.inl hk
      · exact Or.inr ⟨h, hk⟩
  rw [← (hp.map g).sum_eq, List.map_cons, List.sum_cons]

/-- C35: among honest parties nobody ever has an error and no call crashes, whatever the schedule; and everybody who finishes has the
same group key, parties, threshold and public shares, with the share of one polynomial of degree at most `t` whose constant term is the
sum of all contributed secrets. -/
theorem C35_honest_keygen (hs : Spec.KeygenSetup sha ids t timeout now init) (coins : ID → Coins) (N : Spec.Net G (Keygen.Round G))
    (hp : Spec.Path (impl sha) ids coins (Spec.Net.start init) N) :
    (∀ i ∈ ids, (N.state i).err = none) ∧
    (∀ i ∈ ids, ∀ op, Spec.Allowed coins N i op → ∃ s ret, State.step (impl sha) (N.state i) op = some (s, ret)) ∧
    (Spec.jointPoly ids t.toNat coins).natDegree ≤ t.toNat ∧
    (Spec.jointPoly ids t.toNat coins).eval 0 = (ids.map fun i => coins i 0).sum ∧
    ∀ i ∈ ids, (N.state i).done = true → Spec.KeygenResult ids t (Spec.jointPoly ids t.toNat coins) i (N.state i).round := by
  obtain ⟨r₀, hr₀, H, hN⟩ := netInv hs coins
  have hN := hN N hp
  refine ⟨hN.err, fun i hi op ha => hN.no_crash H hi ha, jointPoly_natDegree .., jointPoly_zero .., ?_⟩
  intro i hi hd
  have hst := hr₀ i hi
  obtain ⟨heq, _⟩ := hst.eq
  have e1 : (r₀ i).selfID = i := by rw [heq]
  have e3 : (r₀ i).threshold = t := by rw [heq]
  obtain ⟨f, C, z, h1, h2, h3, h4, h5, pub, h6, h7, h8, h9, h10, h11, _⟩ := finished_spec hst ((running hst (hN.hist i hi)).2 hd (hN.err i hi))
  have hf : f = coinPoly t (coins i) := by
    obtain ⟨ord, c, _, hm⟩ := h2
    have hsent := hN.emitted i hi _ _ hm _ (List.mem_singleton.mpr rfl)
    have := sent1 hN hsent rfl
    rw [e1] at this
    have hk := congrArg Message.keyGen1 this
    have hk : some (_ : KeyGen1 G) = some _ := hk
    have hk := congrArg KeyGen1.commitments (Option.some.inj hk)
    exact ofPoly_injective (G := G) hk
  have hC : ∀ id ∈ others i ids, C id = Exponent.ofPoly (coinPoly t (coins id)) := by
    intro id hid
    obtain ⟨⟨m, k, g1, _, g3, g4, g5, g6⟩, _⟩ := h4 id hid
    have := sent1 hN (hN.handled i hi m none g1) g4
    rw [this] at g5
    rw [← g6, ← Option.some.inj g5, g3]
  have hz : ∀ id ∈ others i ids, z id = Spec.evalAt (coinPoly t (coins id)) i.val := by
    intro id hid
    obtain ⟨_, _, ⟨m, k, g1, g2, g3, g4, g5, g6⟩, _⟩ := h4 id hid
    obtain ⟨hto, this⟩ := sent2 hN (hN.handled i hi m none g1) g4
    have hto' : m.header.toID = i := by
      rcases g2.2.2 with h | h
      · exact absurd (h ▸ hto) hs.zero
      · exact h
    rw [this] at g5
    rw [← g6, ← Option.some.inj g5, g3, hto']
  have hF : ∀ x, (Spec.jointPoly ids t.toNat coins).eval x = Spec.evalAt f x + ((others i ids).map fun id => Spec.evalAt (coinPoly t (coins id)) x).sum := by
    intro x
    rw [jointPoly_eval, hf, ← sum_others hs.nodup hi]
    simp only [coinsPoly_eval]
  have hG : ∀ x, (Spec.jointPoly ids t.toNat coins).eval x • (base : G) =
      Spec.evalAt f x • base + ((others i ids).map fun id => if (C id).length = t.toNat + 1 then Spec.evalAt (C id) x else 0).sum := by
    intro x
    rw [hF, add_smul]
    congr 1
    have : ∀ l : List ID, (∀ id ∈ l, C id = Exponent.ofPoly (coinPoly t (coins id))) →
        (l.map fun id => Spec.evalAt (coinPoly t (coins id)) x).sum • (base : G) =
        (l.map fun id => if (C id).length = t.toNat + 1 then Spec.evalAt (C id) x else 0).sum := by
      intro l hl
      induction l with
      | nil => simp
      | cons a l ih =>
        rw [List.map_cons, List.sum_cons, List.map_cons, List.sum_cons, add_smul, ih fun id h => hl id (List.mem_cons_of_mem _ h)]
        rw [hl a List.mem_cons_self, Exponent.ofPoly_evalAt, if_pos (by simp [Exponent.ofPoly, coinPoly_length])]
    exact this _ hC
  refine ⟨?_, pub, h6, h7, h8, ?_, ?_, h11⟩
  · rw [h5]
    have : Spec.evalAt f i.val + ((others i ids).map z).sum = (Spec.jointPoly ids t.toNat coins).eval (i.toNat : Scalar) := by
      rw [hF, List.map_congr_left hz]
      rfl
    rw [this]
    rfl
  · rw [h9, hG]
  · intro k hk
    rw [h10 k hk, ← hG]
    rfl

/-- C36: from every reachable state of the network everybody can still finish, with the result of `C35_honest_keygen`. -/
theorem C36_honest_keygen_completes (hs : Spec.KeygenSetup sha ids t timeout now init) (coins : ID → Coins) (N : Spec.Net G (Keygen.Round G))
    (hp : Spec.Path (impl sha) ids coins (Spec.Net.start init) N) :
    ∃ N', Spec.Path (impl sha) ids coins N N' ∧ ∀ i ∈ ids, (N'.state i).done = true ∧ (N'.state i).err = none ∧
      Spec.KeygenResult ids t (Spec.jointPoly ids t.toNat coins) i (N'.state i).round := by
  obtain ⟨r₀, _, H, hN⟩ := netInv hs coins
  obtain ⟨N', h1, h2⟩ := (hN N hp).finish H
  have hp' := State.Path.trans hp h1
  obtain ⟨h3, _, _, _, h4⟩ := C35_honest_keygen hs coins N' hp'
  exact ⟨N', h1, fun i hi => ⟨h2 i hi, h3 i hi, h4 i hi (h2 i hi)⟩⟩

/-- C37: the secret shares that any `t + 1` or more parties end up with interpolate to the discrete logarithm of everybody's group
key. -/
theorem C37_shares_interpolate (hs : Spec.KeygenSetup sha ids t timeout now init) (coins : ID → Coins) (N : Spec.Net G (Keygen.Round G))
    (hp : Spec.Path (impl sha) ids coins (Spec.Net.start init) N) (S : List ID) (hS : S.Nodup) (hsub : ∀ i ∈ S, i ∈ ids)
    (hlen : t.toNat < S.length) (hdone : ∀ i ∈ S, (N.state i).done = true) (secret : ID → SecretShare G)
    (hsec : ∀ i ∈ S, (N.state i).round.output.secretKey = some (secret i)) (k : ID) (hk : k ∈ ids) (hkd : (N.state k).done = true)
    (pub : Public G) (hpub : (N.state k).round.output.pub = some pub) :
    pub.groupKey = (S.map fun i => Spec.weight i S * (secret i).secret).sum • (base : G) := by
  obtain ⟨_, _, hdeg, _, hres⟩ := C35_honest_keygen hs coins N hp
  obtain ⟨_, pub', h1, _, _, h2, _⟩ := hres k hk hkd
  rw [h1] at hpub
  rw [← Option.some.inj hpub, h2, ← ID.lagrangeVal_sum hS _ (lt_of_le_of_lt (degree_le_of_natDegree_le hdeg) (by exact_mod_cast hlen))]
  congr 2
  apply List.map_congr_left
  intro i hi
  obtain ⟨h3, _⟩ := hres i (hsub i hi) (hdone i hi)
  rw [hsec i hi] at h3
  rw [weight_eq, Option.some.inj h3]
  rfl

/-- C37: the shares of `t` or fewer parties say nothing about the secret: for every candidate there is a polynomial of degree at most
`t` with that constant term and the same shares. -/
theorem C37_few_shares (t : UInt16) (ids : List ID) (coins : ID → Coins) (T : List ID) (hT : T.length ≤ t.toNat) (h0 : (0 : ID) ∉ T) (candidate : Scalar) :
    ∃ F : Scalar[X], F.natDegree ≤ t.toNat ∧ F.eval 0 = candidate ∧
      ∀ i ∈ T, F.eval (i.toNat : Scalar) = (Spec.jointPoly ids t.toNat coins).eval (i.toNat : Scalar) := by
  let Z : Scalar[X] := (T.map fun i => X - C (i.val)).prod
  have hZ0 : Z.eval 0 ≠ 0 := by
    show ((T.map fun i => X - C (i.val)).prod : Scalar[X]).eval 0 ≠ 0
    clear hT
    induction T with
    | nil => simp
    | cons a T ih =>
      rw [List.map_cons, List.prod_cons, eval_mul]
      refine mul_ne_zero ?_ (ih fun h => h0 (List.mem_cons_of_mem _ h))
      rw [eval_sub, eval_X, eval_C, zero_sub, neg_ne_zero]
      intro h
      refine h0 ?_
      have : a = 0 := ID.val_injective (h.trans (by simp [ID.val]))
      rw [← this]
      exact List.mem_cons_self
  have hZT : ∀ i ∈ T, Z.eval i.val = 0 := by
    intro i hi
    show ((T.map fun i => X - C (i.val)).prod : Scalar[X]).eval i.val = 0
    clear hT hZ0
    induction T with
    | nil => cases hi
    | cons a T ih =>
      rw [List.map_cons, List.prod_cons, eval_mul]
      rcases List.mem_cons.mp hi with rfl | hi
      · simp
      · rw [ih (fun h => h0 (List.mem_cons_of_mem _ h)) hi, mul_zero]
  have hZd : Z.natDegree ≤ T.length := by
    refine (natDegree_list_prod_le _).trans ?_
    rw [List.map_map]
    clear hT hZ0 hZT h0
    induction T with
    | nil => simp
    | cons a T ih => simp only [List.map_cons, List.sum_cons, Function.comp, natDegree_X_sub_C, List.length_cons]; simp only [Function.comp, natDegree_X_sub_C] at ih; omega
  let c : Scalar := (candidate - (Spec.jointPoly ids t.toNat coins).eval 0) / Z.eval 0
  refine ⟨Spec.jointPoly ids t.toNat coins + C c * Z, ?_, ?_, ?_⟩
  · exact (natDegree_add_le _ _).trans (max_le (jointPoly_natDegree ..) ((natDegree_C_mul_le _ _).trans (hZd.trans hT)))
  · rw [eval_add, eval_mul, eval_C, div_mul_cancel₀ _ hZ0]
    ring
  · intro i hi
    have := hZT i hi
    rw [eval_add, eval_mul, show (i.toNat : Scalar) = i.val from rfl, this, mul_zero, add_zero]

end

end Verif.Props
