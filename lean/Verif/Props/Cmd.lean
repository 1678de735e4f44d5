import Verif.Lemmas.Cmd
import Verif.Props.Ristretto

/-!
C70, C71: the command line programs.
-/

namespace Verif.Props

open State Cmd Polynomial

variable {G : Type} [RGroup G] {sha : Sha512}

/-- The file for the shares of the polynomial `F`: for each party its ID and its secret share, the threshold, the group key, and each
party's public share. -/
noncomputable def Spec.keyFile (ids : List ID) (t : UInt16) (F : Scalar[X]) : File G where
  secrets := ids.map fun i => (i, some ⟨i.toNat, (F.eval (i.toNat : Scalar)).bytes⟩)
  shares := some ⟨t.toNat, some (F.eval 0 • base), ids.map fun i => (i, some (F.eval (i.toNat : Scalar) • base))⟩

theorem size_toNat (n : Int) : (size n).toNat = (n % 65536).toNat := by
  unfold size
  rw [UInt16.toNat_ofNat']
  omega

/-- The public shares of a finished session are listed in the order of the parties. -/
theorem keygen_shares {ids : IDSlice} {t : UInt16} {timeout now : ID → Nat} {init : ID → State G (Keygen.Round G)}
    (hs : Spec.KeygenSetup sha ids t timeout now init) (coins : ID → Coins) (N : Spec.Net G (Keygen.Round G))
    (hp : Spec.Path (Keygen.impl sha) ids coins (Spec.Net.start init) N) {i : ID} (hi : i ∈ ids) (hd : (N.state i).done = true)
    {pub : Public G} (hpub : (N.state i).round.output.pub = some pub) :
    pub.shares = ids.map fun k => (k, (Spec.jointPoly ids t.toNat coins).eval (k.toNat : Scalar) • (base : G)) := by
  obtain ⟨_, _, _, _, hres⟩ := C35_honest_keygen hs coins N hp
  obtain ⟨_, p, h1, _, _, _, h5, _⟩ := hres i hi hd
  rw [hpub] at h1
  obtain rfl := Option.some.inj h1
  obtain ⟨r₀, hr₀, H, hN⟩ := netInv hs coins
  have hN := hN N hp
  obtain ⟨f, l₁, l₂, shares, gk, _, _, _, _, _, _, _, h8, _, h10, _⟩ := (Keygen.running (hr₀ i hi) (hN.hist i hi)).2 hd (hN.err i hi)
  rw [h10] at hpub
  have hsh : pub.shares = shares := by rw [← Option.some.inj hpub]
  have hids : (r₀ i).partyIDs = ids := by rw [(hr₀ i hi).eq.1]
  rw [hids] at h8
  have hk := evaluateMulti_keys _ hs.nodup (fun _ _ => by simp [GoMap.keys]) h8
  rw [GoMap.keys_nil, List.nil_append] at hk
  exact GoMap.eq_map_self (by rw [hsh]; unfold GoMap.WF; rw [hk]; exact hs.nodup) (by rw [hsh]; exact hk) _ h5

/-- The run of `cmd/keygen` once the sessions exist. -/
theorem keygen_done {ids : IDSlice} {t : UInt16} (env : Env) (hsorted : ids.Pairwise (· ≤ ·)) (hnd : ids.Nodup) (h0 : (0 : ID) ∉ ids)
    (h1 : 1 ≤ t.toNat) (h2 : t.toNat ≤ ids.length - 1) (hne : ids ≠ []) :
    ∃ init : GoMap (Option (State G (Keygen.Round G))), keygenStates sha env ids t ids [] = .done init ∧
    ∃ s₁ s₂ s₃ o₁ o₂ o₃ pub, Cmd.stage (Keygen.impl sha) env 0 [] init = .done (s₁, o₁) ∧ Cmd.stage (Keygen.impl sha) env 1 o₁ s₁ = .done (s₂, o₂) ∧
      Cmd.stage (Keygen.impl sha) env 2 o₂ s₂ = .done (s₃, o₃) ∧
      (∀ i ∈ ids, ∃ s, s₃.get? i = some (some s) ∧ Cmd.wait s = .done () ∧ s.round.output.pub = some pub) ∧
      pub = ⟨ids, t, ids.map fun k => (k, (Spec.jointPoly ids t.toNat (env.coins 0)).eval (k.toNat : Scalar) • (base : G)),
        (Spec.jointPoly ids t.toNat (env.coins 0)).eval 0 • base⟩ ∧
      keygenSecrets s₃ pub ids [] = .done (ids.map fun i => (i, SecretShare.new i ((Spec.jointPoly ids t.toNat (env.coins 0)).eval (i.toNat : Scalar)))) := by
  have hex : ∀ i, ∃ s : State G (Keygen.Round G), i ∈ ids → Keygen.newKeygenState sha i ids t 0 (env.now i) = .ok s := by
    intro i
    by_cases hi : i ∈ ids
    · obtain ⟨s, hs⟩ := C34_accepts (G := G) (sha := sha) i ids t 0 (env.now i) hsorted hnd hi h1 h2
      exact ⟨s, fun _ => hs⟩
    · obtain ⟨j, hj⟩ := List.exists_mem_of_ne_nil _ hne
      obtain ⟨s, hs⟩ := C34_accepts (G := G) (sha := sha) j ids t 0 (env.now j) hsorted hnd hj h1 h2
      exact ⟨s, fun h => absurd h hi⟩
  choose init hinit using hex
  have hs : Spec.KeygenSetup sha ids t (fun _ => 0) env.now init := ⟨hsorted, hnd, h0, hinit⟩
  have hex : ∀ i, ∃ r₀ : Keygen.Round G, i ∈ ids → Keygen.Start r₀ i ids t ∧ init i = newBaseState (Keygen.impl sha) r₀ 0 (env.now i) := by
    intro i
    by_cases hi : i ∈ ids
    · obtain ⟨r₀, h1, h2⟩ := start_of_new (hs.start i hi) hs.nodup
      exact ⟨r₀, fun _ => ⟨h1, h2⟩⟩
    · exact ⟨(init i).round, fun h => absurd h hi⟩
  choose r₀ hr₀ using hex
  have H := Keygen.honest (sha := sha) hs.sorted hs.nodup hs.zero r₀ (fun i hi => (hr₀ i hi).1) (env.coins 0)
  obtain ⟨j, hj⟩ := List.exists_mem_of_ne_nil _ hne
  have ht : t ≠ 65535 := Keygen.threshold_ne (hr₀ j hj).1 h0
  refine ⟨_, (keygenStates_ok (sha := sha) env ids t init hnd hinit [] (fun _ _ => by simp [GoMap.keys])).trans (by rw [List.nil_append]), ?_⟩
  obtain ⟨N, s₁, s₂, s₃, o₁, o₂, o₃, p1, p2, p3, p4, p5, p6⟩ := NetInv.threeStages (timeout := fun _ => 0) (now := env.now) H
    (Keygen.lockstep hnd h0 ht (env.coins 0)) (init := init) (fun i hi => (hr₀ i hi).2) env (fun _ _ => rfl) (ids.map fun i => (i, some (init i)))
    ⟨by rw [GoMap.keys_map_self], fun i hi => by rw [GoMap.get?_map_self _ hi]; rfl⟩
  obtain ⟨herr, _, _, _, hres⟩ := C35_honest_keygen hs (env.coins 0) N p1
  refine ⟨s₁, s₂, s₃, o₁, o₂, o₃, _, p2, p3, p4, ?_, rfl, ?_⟩
  · intro i hi
    refine ⟨N.state i, p5.2 i hi, by simp [Cmd.wait, State.waitForError, p6 i hi, herr i hi], ?_⟩
    obtain ⟨_, ⟨pi, pt, ps, pk⟩, g1, g2, g3, g4, _⟩ := hres i hi (p6 i hi)
    have := keygen_shares hs (env.coins 0) N p1 hi (p6 i hi) g1
    rw [g1]
    simp only at g2 g3 g4 this
    rw [g2, g3, g4, this]
  · rw [keygenSecrets_ok s₃ _ N.state _ hnd p5.2 (fun i hi => ⟨p6 i hi, herr i hi⟩) (fun i hi => (hres i hi (p6 i hi)).1)
      (fun i hi => ⟨_, GoMap.get?_map_self _ hi⟩) [] (fun _ _ => by simp [GoMap.keys])]
    rfl

/-- C70: exactly how `cmd/keygen` ends, for two arguments that are numbers `t` and `n`, whatever the run-time chooses.  In the last
case the file holds the shares of the sum of the polynomials of the parties `1, …, n`. -/
theorem C70_outcome (env : Env) (a₁ a₂ : Bytes) (t n : Int) (ha₁ : atoi a₁ = some t) (ha₂ : atoi a₂ = some n) :
    keygen (G := G) sha env [a₁, a₂] =
      if 100 < n ∨ n ≤ t then .usage
      else if n % 65536 = 65535 then .hang
      else if n % 65536 = 0 then .crash
      else if t % 65536 = 0 ∨ n % 65536 ≤ t % 65536 then .failed .error
      else if n < 0 then .crash
      else .done (Spec.keyFile (Spec.firstIDs n.toNat) (size t)
        (Spec.jointPoly (Spec.firstIDs n.toNat) (t % 65536).toNat (env.coins 0))) := by
  unfold keygen
  simp only [ha₁, ha₂, gt_iff_lt, ge_iff_le]
  by_cases hu : 100 < n ∨ n ≤ t
  · rw [if_pos hu, if_pos hu]
  rw [if_neg hu, if_neg hu]
  unfold keygenRun
  by_cases hh : n % 65536 = 65535
  · rw [if_pos hh, show size n = 65535 by rw [← UInt16.toNat_inj, size_toNat, hh]; rfl, generateSet_diverges]
    rfl
  rw [if_neg hh, generateSet_eq (by rw [size_toNat]; omega), size_toNat, End.orHang, done_bind]
  generalize hm : (n % 65536).toNat = m
  have hm16 : m < 65536 := by omega
  by_cases hz : n % 65536 = 0
  · rw [if_pos hz]
    have : m = 0 := by omega
    subst this
    rw [show Spec.firstIDs 0 = [] from rfl, keygenStates, done_bind]
    by_cases hneg : n < 0
    · rw [if_pos hneg]
    · rw [if_neg hneg]
      have : ∀ k ins, Cmd.stage (G := G) (Keygen.impl sha) env k ins [] = .done ([], []) := by
        intro k ins
        have := (env.range k).perm _ ([] : GoMap (Option (State G (Keygen.Round G))))
        unfold Cmd.stage
        rw [List.Perm.eq_nil this]
        rfl
      rw [this, done_bind]
      simp only [this, done_bind]
      rfl
  rw [if_neg hz]
  have hne : Spec.firstIDs m ≠ [] := fun h => by
    have := firstIDs_length m
    rw [h] at this
    simp at this
    omega
  by_cases ht : t % 65536 = 0 ∨ n % 65536 ≤ t % 65536
  · rw [if_pos ht]
    obtain ⟨a, l, hal⟩ := List.exists_cons_of_ne_nil hne
    obtain ⟨e, he⟩ := C34_refused (G := G) (sha := sha) a (Spec.firstIDs m) (size t) 0 (env.now a) (by
      right
      rcases ht with ht | ht
      · left; rw [← UInt16.toNat_inj, size_toNat, ht]; rfl
      · right; rw [size_toNat, firstIDs_length]; omega)
    rw [hal] at he ⊢
    rw [keygenStates_err env _ _ he, failed_bind]
  rw [if_neg ht]
  push Not at ht
  obtain ⟨init, q1, s₁, s₂, s₃, o₁, o₂, o₃, pub, q2, q3, q4, q5, q6, q7⟩ := keygen_done (G := G) (sha := sha) (t := size t) env
    (firstIDs_sorted hm16) (firstIDs_nodup hm16) (firstIDs_zero hm16) (by rw [size_toNat]; omega) (by rw [size_toNat, firstIDs_length]; omega) hne
  rw [q1, done_bind]
  by_cases hneg : n < 0
  · rw [if_pos hneg, if_pos hneg]
  rw [if_neg hneg, if_neg hneg, q2, done_bind]
  simp only [q3, done_bind, q4]
  obtain ⟨a, l, hal⟩ := List.exists_cons_of_ne_nil hne
  obtain ⟨s, g1, g2, g3⟩ := q5 a (by rw [hal]; exact List.mem_cons_self)
  rw [show (Spec.firstIDs m)[0]? = some a by rw [hal]; rfl, End.deref, done_bind, g1, Option.join_some, End.deref, done_bind, g2, done_bind,
    g3, End.deref, done_bind, q7, done_bind]
  rw [show n.toNat = m by omega, ← size_toNat]
  show End.done _ = End.done _
  congr 1
  rw [q6]
  unfold Spec.keyFile Public.marshalJSON SecretShare.marshalJSON
  simp only [List.map_map]
  congr 1

/-- Everything else gives the usage text. -/
theorem C70_usage (env : Env) (args : List Bytes) :
    keygen (G := G) sha env args = .usage ↔
      ¬∃ a₁ a₂ t n, args = [a₁, a₂] ∧ atoi a₁ = some t ∧ atoi a₂ = some n ∧ n ≤ 100 ∧ t < n := by
  constructor
  · rintro h ⟨a₁, a₂, t, n, rfl, h1, h2, h3, h4⟩
    rw [C70_outcome env a₁ a₂ t n h1 h2, if_neg (by omega)] at h
    split_ifs at h
  · intro h
    unfold keygen
    split
    · rename_i a₁ a₂
      cases h1 : atoi a₁ with
      | none => rfl
      | some t =>
        cases h2 : atoi a₂ with
        | none => rfl
        | some n =>
          simp only
          by_cases hc : n > 100 ∨ t ≥ n
          · rw [if_pos hc]
          · exact absurd ⟨a₁, a₂, t, n, rfl, h1, h2, by omega, by omega⟩ h
    · rfl

/-- C70: with the arguments the usage text asks for, `cmd/keygen` writes the shares of a polynomial of degree at most `t` whose
constant is the sum of the secrets of the parties. -/
theorem C70_valid (env : Env) (a₁ a₂ : Bytes) (t n : Nat) (ha₁ : atoi a₁ = some (t : Int)) (ha₂ : atoi a₂ = some (n : Int))
    (h0 : 0 < t) (h1 : t < n) (h2 : n ≤ 100) :
    ∃ F : Scalar[X], F.natDegree ≤ t ∧ F.eval 0 = ((Spec.firstIDs n).map fun i => env.coins 0 i 0).sum ∧
      keygen (G := G) sha env [a₁, a₂] = .done (Spec.keyFile (Spec.firstIDs n) (UInt16.ofNat t) F) := by
  refine ⟨Spec.jointPoly (Spec.firstIDs n) t (env.coins 0), jointPoly_natDegree .., jointPoly_zero .., ?_⟩
  rw [C70_outcome env a₁ a₂ t n ha₁ ha₂, if_neg (by omega), if_neg (by omega), if_neg (by omega), if_neg (by omega), if_neg (by omega)]
  have e : ((t : Int) % 65536).toNat = t := by omega
  rw [Int.toNat_natCast, e]
  congr 2
  unfold size
  rw [e]

theorem digits_eq (ds : List Nat) (h : ∀ d ∈ ds, d < 10) (acc : Nat) :
    Cmd.digits (ds.map fun d => UInt8.ofNat (48 + d)) acc = some (ds.foldl (fun n d => n * 10 + d) acc) := by
  induction ds generalizing acc with
  | nil => rfl
  | cons d ds ih =>
    have hd := h d List.mem_cons_self
    have e : (UInt8.ofNat (48 + d)).toNat = 48 + d := by rw [UInt8.toNat_ofNat']; omega
    rw [List.map_cons, Cmd.digits, e, if_pos (by omega), ih (fun d hd => h d (List.mem_cons_of_mem _ hd)), List.foldl_cons]
    congr 3
    omega

theorem foldl_digits (n : Nat) : (Nat.digits 10 n).reverse.foldl (fun n d => n * 10 + d) 0 = n := by
  rw [List.foldl_reverse]
  conv_rhs => rw [← Nat.ofDigits_digits 10 n]
  generalize Nat.digits 10 n = l
  induction l with
  | nil => rfl
  | cons d l ih => rw [List.foldr_cons, ih, Nat.ofDigits_cons]; ring

/-- The text of a number in decimal, as ASCII. -/
def Spec.decimal (n : Nat) : Bytes := if n = 0 then [48] else (Nat.digits 10 n).reverse.map fun d => UInt8.ofNat (48 + d)

/-- C70: the arguments are read as decimal numbers. -/
theorem C70_atoi (n : Nat) (hn : n < 2 ^ 63) :
    atoi (Spec.decimal n) = some (n : Int) ∧ atoi (43 :: Spec.decimal n) = some (n : Int) ∧ atoi (45 :: Spec.decimal n) = some (-(n : Int)) := by
  have hd : Cmd.digits (Spec.decimal n) 0 = some n := by
    unfold Spec.decimal
    by_cases h : n = 0
    · subst h; rfl
    · rw [if_neg h, digits_eq _ (fun d hd => Nat.digits_lt_base (by omega) (List.mem_reverse.mp hd)), foldl_digits]
  obtain ⟨c, cs, hcs, hc⟩ : ∃ c cs, Spec.decimal n = c :: cs ∧ 48 ≤ c.toNat := by
    unfold Spec.decimal
    by_cases h : n = 0
    · rw [if_pos h]; exact ⟨48, [], rfl, by decide⟩
    · rw [if_neg h]
      cases hl : (Nat.digits 10 n).reverse with
      | nil => exact absurd (List.reverse_eq_nil_iff.mp hl) (Nat.digits_ne_nil_iff_ne_zero.mpr h)
      | cons d ds =>
        have : d < 10 := Nat.digits_lt_base (b := 10) (by omega) (List.mem_reverse.mp (by rw [hl]; exact List.mem_cons_self))
        exact ⟨_, _, rfl, by rw [UInt8.toNat_ofNat']; omega⟩
  have h1 : c ≠ 45 := by rintro rfl; exact absurd hc (by decide)
  have h2 : c ≠ 43 := by rintro rfl; exact absurd hc (by decide)
  rw [hcs] at hd ⊢
  refine ⟨?_, ?_, ?_⟩
  · simp only [atoi, h1, h2, if_false, List.isEmpty_cons, Bool.false_eq_true, hd]
    rw [if_pos (by omega)]
  · simp [atoi, hd]
    omega
  · simp [atoi, hd]
    omega

/-- C70, refuted beyond the usage text's `0 < t < n`: `keygen -1 0` crashes after key generation, `keygen -2 -1` never returns, and
`keygen -65535 3` makes a key of threshold 1. -/
theorem C70_zero_crashes (env : Env) : keygen (G := G) sha env [[45, 49], [48]] = .crash := by
  rw [C70_outcome env _ _ (-1) 0 (by decide) (by decide)]
  rfl

theorem C70_negative_hangs (env : Env) : keygen (G := G) sha env [[45, 50], [45, 49]] = .hang := by
  rw [C70_outcome env _ _ (-2) (-1) (by decide) (by decide)]
  rfl

theorem C70_negative_threshold (env : Env) :
    keygen (G := G) sha env [[45, 54, 53, 53, 51, 53], [51]] =
      .done (Spec.keyFile (Spec.firstIDs 3) 1 (Spec.jointPoly (Spec.firstIDs 3) 1 (env.coins 0))) := by
  rw [C70_outcome env _ _ (-65535) 3 (by decide) (by decide)]
  rfl

example : Spec.firstIDs 3 = [1, 2, 3] := by decide

example (env : Env) : ∃ F : Scalar[X], F.natDegree ≤ 2 ∧ F.eval 0 = ((Spec.firstIDs 3).map fun i => env.coins 0 i 0).sum ∧
    keygen (G := Curve.RG) sha env [[50], [51]] = .done (Spec.keyFile (Spec.firstIDs 3) 2 F) :=
  C70_valid env [50] [51] 2 3 (by decide) (by decide) (by decide) (by decide) (by decide)

/-! ### C71 -/

theorem keyFile_public {ids : List ID} (hlt : ids.Pairwise (· < ·)) (h0 : (0 : ID) ∉ ids) {t : UInt16} (ht : t.toNat < ids.length) {F : Scalar[X]}
    (hF : F.natDegree ≤ t.toNat) (ord : MapOrder) :
    Public.unmarshalJSON ord (⟨t.toNat, some (F.eval 0 • base), ids.map fun i => (i, some (F.eval (i.toNat : Scalar) • base))⟩ : Public.Json G) =
      .ok ⟨ids, t, ids.map fun i => (i, F.eval (i.toNat : Scalar) • base), F.eval 0 • base⟩ := by
  have hnd : ids.Nodup := hlt.imp fun h => by rintro rfl; exact UInt16.lt_irrefl _ h
  have hs : ids.Pairwise (· ≤ ·) := hlt.imp fun h => UInt16.le_of_lt h
  have := C55_roundtrip_consistent ord (⟨ids, t, ids.map fun i => (i, F.eval (i.toNat : Scalar) • base), F.eval 0 • base⟩ : Public G)
    (by unfold GoMap.WF; rw [GoMap.keys_map_self]; exact hnd) (by rw [GoMap.keys_map_self]; exact h0)
    (by rw [GoMap.keys_map_self, new_of_sorted hs]) (by simp; omega) (by
      rw [interpolate_eq]
      unfold interp
      rw [GoMap.keys_map_self, List.map_map]
      rw [← ID.lagrangeVal_sum hnd F (lt_of_le_of_lt degree_le_natDegree (by exact_mod_cast lt_of_le_of_lt hF ht)), ← sum_smul_base]
      show (ids.map fun i => (ID.lagrangeVal i ids * F.eval i.val) • (base : G)).sum = _
      congr 1
      apply List.map_congr_left
      intro i _
      rw [mul_smul]
      rfl)
  rw [← this]
  unfold Public.marshalJSON
  rw [List.map_map]
  rfl

/-- The file lists the secret shares as `MarshalJSON` writes them. -/
theorem keyFile_secrets {ids : List ID} (hnd : ids.Nodup) (F : Scalar[X]) :
    readSecrets (G := G) (ids.map fun i => (i, some ⟨i.toNat, (F.eval (i.toNat : Scalar)).bytes⟩)) [] =
      .done (ids.map fun i => (i, some (SecretShare.new i (F.eval (i.toNat : Scalar))))) := by
  exact readSecrets_ok _ (fun i => SecretShare.new i (F.eval (i.toNat : Scalar))) hnd (fun i _ => C53_json_roundtrip i _) [] (fun _ _ => by simp [GoMap.keys])

open Curve in
/-- With the shares of a polynomial of degree at most `t` for parties `1, …, n`, in whatever order the maps list them, and non-zero
nonces, `cmd/signer` prints a signature that RFC 8032 accepts under the group key. -/
theorem signerMain_signs (env : Env) (n : Nat) (hn : n < 65535) (t : UInt16) (ht : t.toNat < n) (F : Scalar[X]) (hF : F.natDegree ≤ t.toNat)
    (message : Bytes) (hcoins : ∀ i ∈ Spec.firstIDs n, env.coins 0 i 0 ≠ 0 ∧ env.coins 0 i 1 ≠ 0)
    (secrets : GoMap (Option (SecretShare RG))) (pub : Public RG)
    (hsec : ∀ i ∈ Spec.firstIDs n, secrets.get? i = some (some (SecretShare.new i (F.eval (i.toNat : Scalar)))))
    (hids' : pub.partyIDs = Spec.firstIDs n) (hgroup : pub.groupKey = F.eval 0 • base)
    (hshares : ∀ i ∈ Spec.firstIDs n, pub.shares.get? i = some (F.eval (i.toNat : Scalar) • base)) :
    ∃ sig : Signature RG, signerMain sha env secrets pub message = .done sig ∧
      Spec.Ed25519.Accepts 8 sha.sum (PublicKey.toEd25519 (F.eval 0 • (base : RG))) message (Signature.toEd25519 sig) := by
  have hn16 : n < 65536 := by omega
  have hlt := firstIDs_lt hn16
  have hsorted := firstIDs_sorted hn16
  have hnd := firstIDs_nodup hn16
  have h0 := firstIDs_zero hn16
  have hlen := firstIDs_length n
  have hN : IDSlice.N (Spec.firstIDs n) = UInt16.ofNat n := by unfold IDSlice.N; rw [hlen]
  have hN' : (UInt16.ofNat n).toNat = n := by rw [UInt16.toNat_ofNat']; omega
  generalize hids : Spec.firstIDs n = ids at *
  let sec : ID → SecretShare RG := fun i => SecretShare.new i (F.eval (i.toNat : Scalar))
  have hne : ids ≠ [] := by rintro rfl; simp at hlen; omega
  have hacc : ∀ i ∈ ids, ∃ s, Sign.newSignState sha ids (sec i) pub message 0 (env.now i) = .ok s := fun i hi =>
    C42_accepts (sec i) pub ids message 0 (env.now i) hsorted (hids' ▸ hsorted) hi fun k hk =>
      ⟨hids' ▸ hk, fun h => h0 (h ▸ hk), by rw [hshares k hk]; simp⟩
  have hex : ∀ i, ∃ s, i ∈ ids → Sign.newSignState sha ids (sec i) pub message 0 (env.now i) = .ok s := by
    intro i
    by_cases hi : i ∈ ids
    · obtain ⟨s, hs⟩ := hacc i hi
      exact ⟨s, fun _ => hs⟩
    · obtain ⟨j, hj⟩ := List.exists_mem_of_ne_nil _ hne
      obtain ⟨s, _⟩ := hacc j hj
      exact ⟨s, fun h => absurd h hi⟩
  choose init hinit using hex
  have hs : Spec.SignSetup sha ids t F message sec (fun _ => pub) (fun _ => 0) env.now init :=
    ⟨hsorted, hnd, hF, by rw [hlen]; exact ht, fun _ _ => rfl, fun _ _ => rfl, fun _ _ => hgroup, fun _ _ k hk => hshares k hk, hinit⟩
  obtain ⟨sig, hver, hruns⟩ := C43_honest_sign hs (env.coins 0) hcoins
  have hex : ∀ i, ∃ r₀ : Sign.Round RG, i ∈ ids → Sign.Start r₀ (sec i) pub ids message ∧ init i = newBaseState (Sign.impl sha) r₀ 0 (env.now i) := by
    intro i
    by_cases hi : i ∈ ids
    · obtain ⟨r₀, h1, h2⟩ := sign_start_of_new (hs.start i hi) hs.nodup
      exact ⟨r₀, fun _ => ⟨h1, h2⟩⟩
    · exact ⟨(init i).round, fun h => absurd h hi⟩
  choose r₀ hr₀ using hex
  have H := Sign.honest (sha := sha) hs.sorted hs.nodup (message := message) (F := F) (lt_of_le_of_lt hs.degree hs.enough) r₀ sec (fun _ => pub)
    (fun i hi => ⟨hs.owner i hi, hs.value i hi, hs.group i hi, hs.shares i hi⟩) (fun i hi => (hr₀ i hi).1) (env.coins 0) hcoins
  obtain ⟨N, s₁, s₂, s₃, o₁, o₂, o₃, p1, p2, p3, p4, p5, p6⟩ := NetInv.threeStages (timeout := fun _ => 0) (now := env.now) H
    (Sign.lockstep h0 message F (env.coins 0)) (init := init) (fun i hi => (hr₀ i hi).2) env (fun _ _ => rfl) (ids.map fun i => (i, some (init i)))
    ⟨by rw [GoMap.keys_map_self], fun i hi => by rw [GoMap.get?_map_self _ hi]; rfl⟩
  refine ⟨sig, ?_, (C51_rfc8032 sha _ message sig).2.1 hver⟩
  unfold signerMain
  rw [hids', hN, generateSet_eq (by rw [hN']; exact hn), hN', hids, End.orHang, done_bind]
  have hst : signerStates sha env ids secrets pub message ids [] = .done (ids.map fun i => (i, some (init i))) := by
    rw [signerStates_ok env ids _ pub message sec init hnd hsec hinit [] (fun _ _ => by simp [GoMap.keys])]
    rfl
  rw [hst, done_bind, p2, done_bind]
  simp only [p3, done_bind, p4]
  obtain ⟨a, l, hal⟩ := List.exists_cons_of_ne_nil hne
  have ha : a ∈ ids := by rw [hal]; exact List.mem_cons_self
  rw [show ids[0]? = some a by rw [hal]; rfl, End.deref, done_bind, p5.2 a ha, Option.join_some, End.deref, done_bind,
    (hruns N p1).2.2.1 a ha (p6 a ha)]
  simp only
  rw [hgroup, C51_crypto_ed25519, hver]
  simp only [End.ofRes, done_bind, Bool.true_eq_false, if_false]
  rfl

open Curve in
/-- C71: for every file with the shares of a polynomial of degree at most `t` for parties `1, …, n`, `0 ≤ t < n < 65535`, every
message, and non-zero nonces, `cmd/signer` prints a signature that RFC 8032 accepts under the group key. -/
theorem C71_signs (env : Env) (ord : MapOrder) (n : Nat) (hn : n < 65535) (t : UInt16) (ht : t.toNat < n) (F : Scalar[X]) (hF : F.natDegree ≤ t.toNat)
    (message : Bytes) (hcoins : ∀ i ∈ Spec.firstIDs n, env.coins 0 i 0 ≠ 0 ∧ env.coins 0 i 1 ≠ 0) :
    ∃ sig : Signature RG, signerRun sha env ord (Spec.keyFile (Spec.firstIDs n) t F) message = .done sig ∧
      Spec.Ed25519.Accepts 8 sha.sum (PublicKey.toEd25519 (F.eval 0 • (base : RG))) message (Signature.toEd25519 sig) := by
  have hn16 : n < 65536 := by omega
  unfold signerRun Spec.keyFile
  simp only
  rw [keyFile_secrets (firstIDs_nodup hn16), done_bind, keyFile_public (firstIDs_lt hn16) (firstIDs_zero hn16) (by rw [firstIDs_length]; exact ht) hF,
    End.ofRes, done_bind]
  exact signerMain_signs env n hn t ht F hF message hcoins _ _ (fun i hi => GoMap.get?_map_self _ hi) rfl rfl (fun i hi => GoMap.get?_map_self _ hi)

open Curve in
/-- C71: what `cmd/keygen` wrote, `cmd/signer` signs with; the arguments are those the usage text of `cmd/keygen` asks for, and the two
programs draw from independent randomness, the nonces not being zero. -/
theorem C71_after_keygen (kenv env : Env) (ord : MapOrder) (a₁ a₂ : Bytes) (t n : Nat) (ha₁ : atoi a₁ = some (t : Int)) (ha₂ : atoi a₂ = some (n : Int))
    (h0 : 0 < t) (h1 : t < n) (h2 : n ≤ 100) (filename message : Bytes) (read : Bytes → Option (File RG))
    (hread : ∀ file, keygen sha kenv [a₁, a₂] = .done file → read filename = some file)
    (hcoins : ∀ i ∈ Spec.firstIDs n, env.coins 0 i 0 ≠ 0 ∧ env.coins 0 i 1 ≠ 0) :
    ∃ (file : File RG) (key : RG) (sig : Signature RG), keygen sha kenv [a₁, a₂] = .done file ∧ (file.shares.bind Public.Json.groupKey) = some key ∧
      key = ((Spec.firstIDs n).map fun i => kenv.coins 0 i 0).sum • base ∧
      signer sha env ord read [filename, message] = .done sig ∧
      Spec.Ed25519.Accepts 8 sha.sum (PublicKey.toEd25519 key) message (Signature.toEd25519 sig) := by
  obtain ⟨F, f1, f2, f3⟩ := C70_valid (G := RG) (sha := sha) kenv a₁ a₂ t n ha₁ ha₂ h0 h1 h2
  have e : (UInt16.ofNat t).toNat = t := by rw [UInt16.toNat_ofNat']; omega
  obtain ⟨sig, g1, g2⟩ := C71_signs (sha := sha) env ord n (by omega) (UInt16.ofNat t) (by omega) F (by omega) message hcoins
  refine ⟨_, _, sig, f3, rfl, by rw [f2], ?_, g2⟩
  unfold signer
  simp only [hread _ f3]
  exact g1

/-- Whatever was read from the file, a signature that is printed has passed both verifications. -/
theorem signerMain_printed (env : Env) (secrets : GoMap (Option (SecretShare G))) (pub : Public G) (message : Bytes) (sig : Signature G)
    (h : signerMain sha env secrets pub message = .done sig) :
    Ed25519.verify sha (PublicKey.toEd25519 pub.groupKey) message (Signature.toEd25519 sig) = .ok true ∧
      PublicKey.verify sha pub.groupKey message sig = .ok true := by
  unfold signerMain at h
  simp only [bind_eq_done] at h
  obtain ⟨_, _, _, _, _, _, _, _, _, _, _, _, s0, _, h⟩ := h
  cases hsig : s0.round.output.signature with
  | none => rw [hsig] at h; cases h
  | some sig' =>
    rw [hsig] at h
    simp only [bind_eq_done, ofRes_eq_done] at h
    obtain ⟨b, hb, h⟩ := h
    cases b with
    | false => cases h
    | true =>
      simp only [Bool.true_eq_false, if_false, bind_eq_done, ofRes_eq_done] at h
      obtain ⟨b, hb', h⟩ := h
      cases b with
      | false => cases h
      | true =>
        have h : End.done sig' = End.done sig := h
        injection h with h
        subst h
        exact ⟨hb, hb'⟩

/-- C71: whatever the file contains, if `cmd/signer` prints a signature then the file has a group key, and both verifications accept
the signature for the message under this key. -/
theorem C71_printed_is_valid (env : Env) (ord : MapOrder) (file : File G) (message : Bytes) (sig : Signature G)
    (h : signerRun sha env ord file message = .done sig) :
    ∃ key, file.shares.bind Public.Json.groupKey = some key ∧
      Ed25519.verify sha (PublicKey.toEd25519 key) message (Signature.toEd25519 sig) = .ok true ∧ PublicKey.verify sha key message sig = .ok true := by
  obtain ⟨secrets, shares⟩ := file
  unfold signerRun at h
  cases shares with
  | none =>
    rw [bind_eq_done] at h
    obtain ⟨_, _, h⟩ := h
    cases h
  | some j =>
    simp only [bind_eq_done, ofRes_eq_done] at h
    obtain ⟨_, _, pub, hpub, h⟩ := h
    have h := signerMain_printed env _ pub message sig h
    unfold Public.unmarshalJSON at hpub
    simp only [Outcome.bind_eq_ok, Outcome.deref_eq_ok, Outcome.failIf_eq_ok, Outcome.pure_def, Outcome.ok.injEq] at hpub
    obtain ⟨newS, hn, k', hk', key, hkey, _, heq, rfl⟩ := hpub
    unfold newPublic at hn
    simp only [Outcome.bind_eq_ok, Outcome.failIf_eq_ok, Outcome.pure_def, Outcome.ok.injEq] at hn
    obtain ⟨gk, hgk, _, _, hnew⟩ := hn
    rw [← hnew] at hk'
    simp only at hk'
    rw [hgk] at hk'
    obtain rfl := Outcome.ok.inj hk'
    have : newS.groupKey = key := by
      rw [← hnew]
      simpa [PublicKey.equal] using heq
    rw [this] at h
    exact ⟨key, hkey, h⟩

/-- C71, refuted for keys of other parties: `cmd/signer` always signs as parties `1, …, n`; with a key whose `n` parties have other IDs
it crashes, although the key is good. -/
theorem C71_other_ids_crash (env : Env) (ord : MapOrder) (ids : List ID) (hlt : ids.Pairwise (· < ·)) (h0 : (0 : ID) ∉ ids) (t : UInt16)
    (ht : t.toNat < ids.length) (F : Scalar[X]) (hF : F.natDegree ≤ t.toNat) (hother : ids ≠ Spec.firstIDs ids.length) (message : Bytes) :
    signerRun (G := G) sha env ord (Spec.keyFile ids t F) message = .crash := by
  have hnd : ids.Nodup := hlt.imp fun h => by rintro rfl; exact UInt16.lt_irrefl _ h
  have hs : ids.Pairwise (· ≤ ·) := hlt.imp fun h => UInt16.le_of_lt h
  have hlen : ids.length < 65536 := by
    have : (0 :: ids).length ≤ 65536 := nodup_ids_length (List.nodup_cons.mpr ⟨h0, hnd⟩)
    rw [List.length_cons] at this
    omega
  obtain ⟨miss, hm1, hm2⟩ : ∃ i ∈ Spec.firstIDs ids.length, i ∉ ids := by
    by_contra hc
    push Not at hc
    have hp : (Spec.firstIDs ids.length).Perm ids :=
      (List.subperm_of_subset (firstIDs_nodup hlen) hc).perm_of_length_le (by rw [firstIDs_length])
    exact hother (List.Perm.eq_of_pairwise (fun _ _ _ _ h1 h2 => UInt16.le_antisymm h1 h2) hs (firstIDs_sorted hlen) hp.symm)
  have hlen' : ids.length < 65535 := by
    by_contra hc
    have hmem := (List.subperm_of_subset hnd (fun i hi => (mem_firstIDs hlen).mpr ⟨?_, ?_⟩ : ids ⊆ Spec.firstIDs ids.length)).perm_of_length_le
      (by rw [firstIDs_length])
    · exact hm2 (hmem.mem_iff.mpr hm1)
    · have : i ≠ 0 := fun h => h0 (h ▸ hi)
      have : i.toNat ≠ 0 := fun h => this (UInt16.toNat_inj.mp h)
      omega
    · have := i.toNat_lt
      omega
  unfold signerRun signerMain Spec.keyFile
  simp only
  rw [keyFile_secrets hnd, done_bind, keyFile_public hlt h0 ht hF, End.ofRes, done_bind]
  have hN : (IDSlice.N ids).toNat = ids.length := by unfold IDSlice.N; rw [UInt16.toNat_ofNat']; omega
  rw [generateSet_eq (by rw [hN]; exact hlen'), hN, End.orHang, done_bind]
  have hloop : ∀ (l : List ID) acc, miss ∈ l → signerStates (G := G) sha env (Spec.firstIDs ids.length)
      (ids.map fun i => (i, some (SecretShare.new i (F.eval (i.toNat : Scalar)))))
      ⟨ids, t, ids.map fun i => (i, F.eval (i.toNat : Scalar) • base), F.eval 0 • base⟩ message l acc = .crash := by
    intro l
    induction l with
    | nil => intro _ h; cases h
    | cons a l ih =>
      intro acc hl
      rw [signerStates]
      by_cases ha : a ∈ ids
      · rw [GoMap.get?_map_self _ ha, Option.join_some, End.deref, done_bind]
        have hl' : miss ∈ l := (List.mem_cons.mp hl).resolve_left fun h => hm2 (h ▸ ha)
        cases hnew : Sign.newSignState (G := G) sha (Spec.firstIDs ids.length) (SecretShare.new a (F.eval (a.toNat : Scalar)))
            ⟨ids, t, ids.map fun i => (i, F.eval (i.toNat : Scalar) • base), F.eval 0 • base⟩ message 0 (env.now a) with
        | panic => rfl
        | err e => exact ih _ hl'
        | ok s => exact ih _ hl'
      · have : GoMap.get? (ids.map fun i => (i, some (SecretShare.new i (F.eval (i.toNat : Scalar)) : SecretShare G))) a = none := by
          rw [GoMap.get?_eq_none, GoMap.keys_map_self]; exact ha
        rw [this]
        rfl
  rw [hloop _ _ hm1, crash_bind]

example : ([1, 2, 4] : List ID).Pairwise (· < ·) ∧ (0 : ID) ∉ ([1, 2, 4] : List ID) ∧ ([1, 2, 4] : List ID) ≠ Spec.firstIDs 3 := by decide

/-- C71: a file without shares crashes it. -/
theorem C71_null_shares_crash (env : Env) (ord : MapOrder) (message : Bytes) :
    signerRun (G := G) sha env ord ⟨[], none⟩ message = .crash := rfl

open Curve in
example (env : Env) (h : ∀ i ∈ Spec.firstIDs 3, env.coins 0 i 0 ≠ 0 ∧ env.coins 0 i 1 ≠ 0) :
    ∃ sig : Signature RG, signerRun sha env MapOrder.insertion (Spec.keyFile (Spec.firstIDs 3) 1 (C 5 + C 7 * X)) [1, 2, 3] = .done sig ∧
      Spec.Ed25519.Accepts 8 sha.sum (PublicKey.toEd25519 ((C 5 + C 7 * X : Scalar[X]).eval 0 • (base : RG))) [1, 2, 3] (Signature.toEd25519 sig) :=
  C71_signs env _ 3 (by decide) 1 (by decide) _ (by
    refine (natDegree_add_le _ _).trans (max_le ?_ ?_)
    · simp
    · exact (natDegree_C_mul_le _ _).trans (by simp)) [1, 2, 3] h

end Verif.Props
