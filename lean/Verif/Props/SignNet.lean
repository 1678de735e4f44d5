import Verif.Props.KeygenNet
import Verif.Props.SignBlame

/-!
Signing among honest parties (C43).
-/

namespace Verif.Sign

open State Spec Polynomial

variable {G : Type} [RGroup G] {sha : Sha512}

/-- The commitments to the nonces `d` of all parties. -/
def honestD (coins : ID → Coins) (k : ID) : G := coins k 0 • base
/-- The commitments to the nonces `e` of all parties. -/
def honestE (coins : ID → Coins) (k : ID) : G := coins k 1 • base

/-- The share of the signature that `k` computes. -/
noncomputable def honestZ (sha : Sha512) (ids : IDSlice) (message : Bytes) (F : Scalar[X]) (coins : ID → Coins) (k : ID) : Scalar :=
  Spec.respond sha ids message (F.eval 0 • (base : G)) (honestD coins) (honestE coins) k (coins k 0) (coins k 1) (ID.lagrangeVal k ids * F.eval k.val)

variable (G) in
/-- What `i` sends for round `n`. -/
noncomputable def honestMsg (sha : Sha512) (ids : IDSlice) (message : Bytes) (F : Scalar[X]) (coins : ID → Coins) (n : Nat) (i _j : ID) : Message G :=
  if n = 1 then Message.newSign1 i (honestD coins i) (honestE coins i) else Message.newSign2 i (honestZ (G := G) sha ids message F coins i)

variable (G) in
/-- What `i` sends at the end of round `n`. -/
noncomputable def honestOut (sha : Sha512) (ids : IDSlice) (message : Bytes) (F : Scalar[X]) (coins : ID → Coins) (i : ID) (n : Nat) : List (Message G) :=
  if n < 2 then [honestMsg G sha ids message F coins (n + 1) i 0] else []

/-- The key material of a signer. -/
structure Keys (ids : IDSlice) (F : Scalar[X]) (i : ID) (secret : SecretShare G) (pub : Public G) : Prop where
  id : secret.id = i
  secret : secret.secret = F.eval i.val
  group : pub.groupKey = F.eval 0 • (base : G)
  shares : ∀ k ∈ ids, pub.shares.get? k = some (F.eval k.val • (base : G))

/-- The round object in an honest run. -/
def HonestGood (sha : Sha512) (ids : IDSlice) (pub : ID → Public G) (coins : ID → Coins) (r₀ : ID → Round G) (i : ID) (n : Nat) (r : Round G) : Prop :=
  match n with
  | 0 => r = r₀ i
  | 1 => ∃ parties, Parts parties ids (signer1 (r₀ i) (pubOf (pub i) ids) (coins i 0) (coins i 1)) ∧
      r = { r₀ i with stage := .r1, d := coins i 0, e := coins i 1, parties := parties }
  | 2 => ∃ D E parties, (∀ k ∈ ids, D k = honestD coins k ∧ E k = honestE coins k) ∧
      Parts parties ids (signer2 sha (r₀ i) (pubOf (pub i) ids) (coins i 0) (coins i 1) D E) ∧
      r = round2 sha (r₀ i) (coins i 0) (coins i 1) D E parties
  | _ => False

theorem rho_congr {ids : List ID} {message : Bytes} {D E D' E' : ID → G} (h : ∀ id ∈ ids, D id = D' id ∧ E id = E' id) (i : ID) :
    Spec.rho sha ids message D E i = Spec.rho sha ids message D' E' i := by
  unfold Spec.rho Spec.commitmentList
  rw [List.flatMap_congr fun k hk => by rw [(h k hk).1, (h k hk).2]]

theorem nonce_congr {ids : List ID} {message : Bytes} {D E D' E' : ID → G} (h : ∀ id ∈ ids, D id = D' id ∧ E id = E' id) :
    ∀ i ∈ ids, Spec.nonce sha ids message D E i = Spec.nonce sha ids message D' E' i := by
  intro i hi
  unfold Spec.nonce
  rw [rho_congr h, (h i hi).1, (h i hi).2]

theorem groupNonce_congr {ids : List ID} {message : Bytes} {D E D' E' : ID → G} (h : ∀ id ∈ ids, D id = D' id ∧ E id = E' id) :
    Spec.groupNonce sha ids message D E = Spec.groupNonce sha ids message D' E' := by
  unfold Spec.groupNonce
  rw [List.map_congr_left (nonce_congr h)]

theorem chal_congr {ids : List ID} {message : Bytes} {Y : G} {D E D' E' : ID → G} (h : ∀ id ∈ ids, D id = D' id ∧ E id = E' id) :
    Spec.chal sha ids message Y D E = Spec.chal sha ids message Y D' E' := by
  unfold Spec.chal
  rw [groupNonce_congr h]

theorem respond_congr {ids : List ID} {message : Bytes} {Y : G} {D E D' E' : ID → G} (h : ∀ id ∈ ids, D id = D' id ∧ E id = E' id)
    (i : ID) (d e share : Scalar) : Spec.respond sha ids message Y D E i d e share = Spec.respond sha ids message Y D' E' i d e share := by
  unfold Spec.respond
  rw [chal_congr h, rho_congr h]

theorem honestZ_check (sha : Sha512) (ids : IDSlice) (message : Bytes) (F : Scalar[X]) (coins : ID → Coins) (k : ID) :
    honestZ (G := G) sha ids message F coins k • (base : G) = Spec.nonce sha ids message (honestD coins) (honestE coins) k +
      Spec.chal sha ids message (F.eval 0 • (base : G)) (honestD coins) (honestE coins) • (ID.lagrangeVal k ids • F.eval k.val • (base : G)) := by
  rw [honestZ, Props.C45_honest_share_passes sha ids message _ (honestD coins) (honestE coins) k _ _ _ rfl rfl, smul_smul (ID.lagrangeVal k ids)]

/-- The shares add up to a valid signature. -/
theorem honest_valid {ids : IDSlice} (hnd : ids.Nodup) (message : Bytes) {F : Scalar[X]} (hF : F.natDegree < ids.length) (coins : ID → Coins) :
    PublicKey.verify sha (F.eval 0 • (base : G)) message
      ⟨Spec.groupNonce sha ids message (honestD coins) (honestE coins), (ids.map (honestZ (G := G) sha ids message F coins)).sum⟩ = .ok true := by
  obtain ⟨b, hb, hiff⟩ := Props.C50_verify_iff sha (F.eval 0 • (base : G)) message
    ⟨Spec.groupNonce sha ids message (honestD coins) (honestE coins), (ids.map (honestZ (G := G) sha ids message F coins)).sum⟩
  rw [hb]
  congr 1
  rw [hiff]
  have hsum : ∀ l : List ID, (l.map (honestZ (G := G) sha ids message F coins)).sum • (base : G) =
      (l.map fun i => Spec.nonce sha ids message (honestD coins) (honestE coins) i).sum +
      Spec.chal sha ids message (F.eval 0 • (base : G)) (honestD coins) (honestE coins) • (l.map fun i => ID.lagrangeVal i ids * F.eval i.val).sum • (base : G) := by
    intro l
    induction l with
    | nil => simp
    | cons a l ih =>
      simp only [List.map_cons, List.sum_cons, add_smul, smul_add]
      rw [ih, honestZ_check, smul_smul (ID.lagrangeVal a ids)]
      abel
  show (ids.map (honestZ (G := G) sha ids message F coins)).sum • (base : G) = _
  rw [hsum ids, ID.lagrangeVal_sum hnd F (lt_of_le_of_lt degree_le_natDegree (by exact_mod_cast hF))]
  rfl

theorem gen0 {ord : MapOrder} {coins : Coins} {r r' : Round G} {out : List (Message G)} (hs : r.stage = .r0)
    (h : generate0 coins r = .ok (r', out)) : (impl sha).generateMessages ord coins r = .ok (r', out) := by
  simp only [impl, hs]; exact h

theorem gen1 {ord : MapOrder} {coins : Coins} {r r' : Round G} {out : List (Message G)} (hs : r.stage = .r1)
    (h : generate1 sha ord r = .ok (r', out)) : (impl sha).generateMessages ord coins r = .ok (r', out) := by
  simp only [impl, hs]; exact h

theorem gen2 {ord : MapOrder} {coins : Coins} {r r' : Round G} {out : List (Message G)} (hs : r.stage = .r2)
    (h : generate2 sha ord r = .ok (r', out)) : (impl sha).generateMessages ord coins r = .ok (r', out) := by
  simp only [impl, hs]; exact h

theorem ready_of {r : Round G} {i : ID} {ids : IDSlice} (e1 : r.selfID = i) (e2 : r.partyIDs = ids) {n : Nat} (hn : n = 1 ∨ n = 2)
    {message : Bytes} {F : Scalar[X]} {coins : ID → Coins} {l : List (ID × Option (Message G))} (hk : (l.map Prod.fst).Perm (others i ids))
    (hl : ∀ k v, (k, v) ∈ l → v = some (honestMsg G sha ids message F coins n k i)) :
    Ready (impl sha) r (l.map fun e => (Op.handle (honestMsg G sha ids message F coins n e.1 i), Ret.handled none)) n l where
  keys := by
    show (l.map Prod.fst).Perm (others r.selfID r.partyIDs)
    rw [e1, e2]; exact hk
  first h := by omega
  later _ k v hkv := by
    have hmem := mem_others.mp (hk.mem_iff.mp (List.mem_map.mpr ⟨_, hkv, rfl⟩))
    refine ⟨_, hl k v hkv, ?_, ?_, List.mem_map.mpr ⟨_, hkv, rfl⟩, ?_⟩
    · rcases hn with rfl | rfl <;> rfl
    · rcases hn with rfl | rfl <;> rfl
    · show Spec.ForUs r.selfID r.partyIDs _
      rw [e1, e2]
      rcases hn with rfl | rfl <;> exact ⟨hmem.2, hmem.1, Or.inl rfl⟩

theorem honest {ids : IDSlice} (hsorted : ids.Pairwise (· ≤ ·)) (hnd : ids.Nodup) {message : Bytes} {F : Scalar[X]}
    (hF : F.natDegree < ids.length) (r₀ : ID → Round G) (secret : ID → SecretShare G) (pub : ID → Public G)
    (hkeys : ∀ i ∈ ids, Keys ids F i (secret i) (pub i)) (hs : ∀ i ∈ ids, Start (r₀ i) (secret i) (pub i) ids message) (coins : ID → Coins)
    (hcoins : ∀ i ∈ ids, coins i 0 ≠ 0 ∧ coins i 1 ≠ 0) :
    Honest (impl sha) ids r₀ coins (honestMsg G sha ids message F coins) (honestOut G sha ids message F coins)
      (HonestGood sha ids pub coins r₀) [0, 3, 4] where
  stable := impl_stable sha
  tys_nodup := by decide
  tys_length := rfl
  sorted := hsorted
  nodup := hnd
  self i hi := (hs i hi).eq.2.1.trans (hkeys i hi).id
  parties i hi := (hs i hi).eq.2.2.1
  types i hi := rfl
  out_spec := by
    intro i hi n hn m hm
    rw [honestOut, if_pos hn, List.mem_singleton] at hm
    subst hm
    match n, hn with
    | 0, _ => exact ⟨rfl, rfl, fun _ _ _ _ => rfl⟩
    | 1, _ => exact ⟨rfl, rfl, fun _ _ _ _ => rfl⟩
  out_mem := by
    intro i hi j hj hne n hn
    rw [honestOut, if_pos hn, List.mem_singleton]
    match n, hn with
    | 0, _ => exact ⟨rfl, Or.inl rfl⟩
    | 1, _ => exact ⟨rfl, Or.inl rfl⟩
  out_last i hi := rfl
  good0 i hi := rfl
  step := by
    intro i hi n r hn hgood l hk hfirst hlater ord c hc
    obtain ⟨hstage, e1, e2, e3, e4, e5, hout, _, _, hwf, hkeys', hget, hnz⟩ := (hs i hi).eq
    have hK := hkeys i hi
    rw [hK.id] at e1
    rw [hK.group] at e4
    rw [hK.id, hK.secret] at e5
    have hself : (r₀ i).selfID ∈ (r₀ i).partyIDs := by rw [e1, e2]; exact hi
    have hnd' : (r₀ i).partyIDs.Nodup := by rw [e2]; exact hnd
    have hP : ∀ k ∈ ids, pubOf (pub i) ids k = ID.lagrangeVal k ids • F.eval k.val • (base : G) := by
      intro k hk
      rw [pubOf, hK.shares k hk]; rfl
    match n, hn with
    | 0, _ =>
      have hgood : r = r₀ i := hgood
      subst hgood
      rw [hc rfl]
      obtain ⟨parties, h1, h2⟩ := step0 (r₀ := r₀ i) (P := pubOf (pub i) ids) hstage hself
        ⟨hwf, fun k => by rw [e2]; exact hkeys' k, fun id hid => hget id (by rw [← e2]; exact hid)⟩ (coins i)
      rw [e2] at h1
      refine ⟨r₀ i, { r₀ i with d := coins i 0, e := coins i 1, parties := parties }, loop0 hstage, gen0 hstage ?_, ?_, ?_⟩
      · rw [h2]
        have : (Message.newSign1 (r₀ i).selfID (coins i 0 • base) (coins i 1 • base) : Message G) = Message.newSign1 i (coins i 0 • base) (coins i 1 • base) := by rw [e1]
        rw [this]
        rfl
      · intro _
        exact ⟨{ r₀ i with stage := .r1, d := coins i 0, e := coins i 1, parties := parties }, by simp only [impl, hstage], parties, h1, rfl⟩
      · intro h; cases h
    | 1, _ =>
      obtain ⟨parties, hparts, hgood⟩ := hgood
      subst hgood
      have hl := hlater (by omega)
      have hready := ready_of (sha := sha) e1 e2 (Or.inl rfl) hk hl
      have hmem : ∀ k v, (k, v) ∈ l → k ∈ ids ∧ k ≠ i := fun k v hkv => mem_others.mp (hk.mem_iff.mp (List.mem_map.mpr ⟨_, hkv, rfl⟩))
      obtain ⟨r₁, hr₁⟩ := loop1_ok (sha := sha) (r := { r₀ i with stage := .r1, d := coins i 0, e := coins i 1, parties := parties }) (l := l) rfl
        (fun k v hkv => ⟨_, hl k v hkv, rfl⟩)
        (fun k v hkv => ⟨_, _, hl k v hkv, rfl, fun h => (hcoins k (hmem k v hkv).1).1 (smul_base_eq_zero.mp h), fun h => (hcoins k (hmem k v hkv).1).2 (smul_base_eq_zero.mp h)⟩)
        (fun k v hkv => (hparts.keys k).mpr (hmem k v hkv).1)
      rw [← e2] at hparts
      obtain ⟨D, E, parties', h1, h2, h3⟩ := step1 hnd' hself hparts hready hr₁ ord
      have hst : r₁.stage = .r1 := by
        obtain ⟨_, v2, _⟩ := loop1 (sha := sha) rfl (fun k v hkv => ⟨_, hl k v hkv, rfl⟩) (hready.keys.nodup_iff.mpr (hnd'.filter _)) hr₁
        rw [v2]
      have hag : ∀ k ∈ ids, D k = honestD coins k ∧ E k = honestE coins k := by
        intro k hkk
        by_cases hki : k = i
        · subst hki
          rw [← e1, h1.ownD, h1.ownE, e1]
          exact ⟨rfl, rfl⟩
        · obtain ⟨⟨k', v⟩, hkv, rfl⟩ := List.mem_map.mp (hk.mem_iff.mpr (mem_others.mpr ⟨hkk, hki⟩))
          rw [(h1.others k' v hkv).1, (h1.others k' v hkv).2, hl k' v hkv]
          exact ⟨rfl, rfl⟩
      have hmsg : ([Message.newSign2 (r₀ i).selfID (Spec.respond sha (r₀ i).partyIDs (r₀ i).message (r₀ i).groupKey D E (r₀ i).selfID
          (coins i 0) (coins i 1) (r₀ i).secretKeyShare)] : List (Message G)) = honestOut G sha ids message F coins i 1 := by
        rw [e1, e2, e3, e4, e5, respond_congr hag]
        rfl
      rw [hmsg] at h3
      refine ⟨r₁, { round2 sha (r₀ i) (coins i 0) (coins i 1) D E parties' with stage := .r1 }, hr₁, gen1 hst h3, ?_, ?_⟩
      · intro _
        rw [e2] at h2
        exact ⟨_, rfl, D, E, parties', hag, h2, rfl⟩
      · intro h; cases h
    | 2, _ =>
      obtain ⟨D, E, parties, hag, hparts, hgood⟩ := hgood
      subst hgood
      have hl := hlater (by omega)
      have hready := ready_of (sha := sha) e1 e2 (Or.inr rfl) hk hl
      have hmem : ∀ k v, (k, v) ∈ l → k ∈ ids ∧ k ≠ i := fun k v hkv => mem_others.mp (hk.mem_iff.mp (List.mem_map.mpr ⟨_, hkv, rfl⟩))
      obtain ⟨r₁, hr₁⟩ := loop2_ok (sha := sha) (r := round2 sha (r₀ i) (coins i 0) (coins i 1) D E parties) (l := l) rfl
        (fun k v hkv => ⟨_, hl k v hkv, rfl⟩) (hready.keys.nodup_iff.mpr (hnd'.filter _))
        (fun k v hkv => by
          refine ⟨_, _, hparts.get k (hmem k v hkv).1, rfl, _, _, hl k v hkv, rfl, ?_⟩
          show honestZ (G := G) sha ids message F coins k • (base : G) = Spec.nonce sha (r₀ i).partyIDs (r₀ i).message D E k +
            Spec.chal sha (r₀ i).partyIDs (r₀ i).message (r₀ i).groupKey D E • pubOf (pub i) ids k
          rw [honestZ_check, e2, e3, e4, chal_congr hag, nonce_congr hag k (hmem k v hkv).1, hP k (hmem k v hkv).1])
      rw [← e2] at hparts
      obtain ⟨z, parties', h1, h2, h3, h4⟩ := step2 hnd' hself hparts hready hr₁
      have hz : ∀ k ∈ ids, z k = honestZ (G := G) sha ids message F coins k := by
        intro k hkk
        by_cases hki : k = i
        · rw [hki, ← e1, h1, e1, e2, e3, e4, e5, respond_congr hag]
          rfl
        · obtain ⟨⟨k', v⟩, hkv, rfl⟩ := List.mem_map.mp (hk.mem_iff.mpr (mem_others.mpr ⟨hkk, hki⟩))
          rw [(h2 k' v hkv).1, hl k' v hkv]
          rfl
      have hver : PublicKey.verify sha r₁.groupKey r₁.message (finalSig r₁) = .ok true := by
        rw [h4, h3]
        show PublicKey.verify sha (r₀ i).groupKey (r₀ i).message _ = _
        rw [e2, e3, e4, groupNonce_congr hag, List.map_congr_left hz]
        exact honest_valid hnd message hF coins
      refine ⟨r₁, { r₁ with output := ⟨some (finalSig r₁)⟩ }, hr₁, gen2 (by rw [h3]; rfl) (generate2_ok.mpr ⟨hver, by rw [h3]; exact hout, rfl, rfl⟩), ?_, ?_⟩
      · intro h; omega
      · intro _
        exact ⟨by rw [h3]; rfl, _, rfl⟩

end Verif.Sign

namespace Verif.Props

open State Sign Polynomial

variable {G : Type} [RGroup G] {sha : Sha512}

/-- What each signer starts with: the shares of one polynomial `F` of degree at most `t`, the same signers and message, and more than
`t` signers; and the sessions as the constructor made them. -/
structure Spec.SignSetup (sha : Sha512) (ids : IDSlice) (t : UInt16) (F : Scalar[X]) (message : Bytes) (secret : ID → SecretShare G)
    (pub : ID → Public G) (timeout now : ID → Nat) (init : ID → State G (Sign.Round G)) : Prop where
  sorted : ids.Pairwise (· ≤ ·)
  nodup : ids.Nodup
  degree : F.natDegree ≤ t.toNat
  enough : t.toNat < ids.length
  owner : ∀ i ∈ ids, (secret i).id = i
  value : ∀ i ∈ ids, (secret i).secret = F.eval (i.toNat : Scalar)
  group : ∀ i ∈ ids, (pub i).groupKey = F.eval 0 • (base : G)
  shares : ∀ i ∈ ids, ∀ k ∈ ids, (pub i).shares.get? k = some (F.eval (k.toNat : Scalar) • (base : G))
  start : ∀ i ∈ ids, newSignState sha ids (secret i) (pub i) message (timeout i) (now i) = .ok (init i)

section

variable {ids : IDSlice} {t : UInt16} {F : Scalar[X]} {message : Bytes} {secret : ID → SecretShare G} {pub : ID → Public G}
  {timeout now : ID → Nat} {init : ID → State G (Sign.Round G)}

theorem signNetInv (hs : Spec.SignSetup sha ids t F message secret pub timeout now init) (coins : ID → Coins)
    (hcoins : ∀ i ∈ ids, coins i 0 ≠ 0 ∧ coins i 1 ≠ 0) :
    ∃ r₀ : ID → Sign.Round G, (∀ i ∈ ids, Sign.Start (r₀ i) (secret i) (pub i) ids message) ∧
      Honest (Sign.impl sha) ids r₀ coins (Sign.honestMsg G sha ids message F coins) (Sign.honestOut G sha ids message F coins)
        (Sign.HonestGood sha ids pub coins r₀) [0, 3, 4] ∧
      ∀ N, Spec.Path (Sign.impl sha) ids coins (Spec.Net.start init) N →
        NetInv (Sign.impl sha) ids r₀ (Sign.honestOut G sha ids message F coins) (Sign.HonestGood sha ids pub coins r₀) timeout now N := by
  have hex : ∀ i, ∃ r₀ : Sign.Round G, i ∈ ids → Sign.Start r₀ (secret i) (pub i) ids message ∧ init i = newBaseState (Sign.impl sha) r₀ (timeout i) (now i) := by
    intro i
    by_cases hi : i ∈ ids
    · obtain ⟨r₀, h1, h2⟩ := sign_start_of_new (hs.start i hi) hs.nodup
      exact ⟨r₀, fun _ => ⟨h1, h2⟩⟩
    · exact ⟨(init i).round, fun h => absurd h hi⟩
  choose r₀ hr₀ using hex
  have H := Sign.honest (sha := sha) hs.sorted hs.nodup (message := message) (F := F) (lt_of_le_of_lt hs.degree hs.enough) r₀ secret pub
    (fun i hi => ⟨hs.owner i hi, hs.value i hi, hs.group i hi, hs.shares i hi⟩) (fun i hi => (hr₀ i hi).1) coins hcoins
  exact ⟨r₀, fun i hi => (hr₀ i hi).1, H, fun N hp => NetInv.path H (NetInv.start H fun i hi => (hr₀ i hi).2) hp⟩

theorem sign_sent {r₀ : ID → Sign.Round G} {coins : ID → Coins} {N : Spec.Net G (Sign.Round G)}
    (hN : NetInv (Sign.impl sha) ids r₀ (Sign.honestOut G sha ids message F coins) (Sign.HonestGood sha ids pub coins r₀) timeout now N)
    {m : Message G} (hm : m ∈ N.sent) :
    (m.header.type = 3 → m = Message.newSign1 m.header.fromID (honestD coins m.header.fromID) (honestE coins m.header.fromID)) ∧
    (m.header.type = 4 → m = Message.newSign2 m.header.fromID (honestZ (G := G) sha ids message F coins m.header.fromID)) := by
  obtain ⟨i, _, n, hn, hmo⟩ := hN.sentOnly m hm
  rw [Sign.honestOut, if_pos hn, List.mem_singleton] at hmo
  subst hmo
  match n, hn with
  | 0, _ => exact ⟨fun _ => rfl, fun h => (nomatch h)⟩
  | 1, _ => exact ⟨fun h => (nomatch h), fun _ => rfl⟩

/-- C43: among honest signers, more than `t` of them, with non-zero nonces, nobody ever has an error and no call crashes, whatever the
schedule; all who finish have the same signature, which verifies under the group key; and from every reachable state everybody can
still finish. -/
theorem C43_honest_sign (hs : Spec.SignSetup sha ids t F message secret pub timeout now init) (coins : ID → Coins)
    (hcoins : ∀ i ∈ ids, coins i 0 ≠ 0 ∧ coins i 1 ≠ 0) :
    ∃ sig : Signature G, PublicKey.verify sha (F.eval 0 • (base : G)) message sig = .ok true ∧
      ∀ N, Spec.Path (Sign.impl sha) ids coins (Spec.Net.start init) N →
        (∀ i ∈ ids, (N.state i).err = none) ∧
        (∀ i ∈ ids, ∀ op, Spec.Allowed coins N i op → ∃ s ret, State.step (Sign.impl sha) (N.state i) op = some (s, ret)) ∧
        (∀ i ∈ ids, (N.state i).done = true → (N.state i).round.output.signature = some sig) ∧
        ∃ N', Spec.Path (Sign.impl sha) ids coins N N' ∧ ∀ i ∈ ids, (N'.state i).done = true ∧ (N'.state i).err = none ∧
          (N'.state i).round.output.signature = some sig := by
  obtain ⟨r₀, hr₀, H, hN⟩ := signNetInv hs coins hcoins
  let sig : Signature G := ⟨Spec.groupNonce sha ids message (honestD coins) (honestE coins), (ids.map (honestZ (G := G) sha ids message F coins)).sum⟩
  have hres : ∀ N, Spec.Path (Sign.impl sha) ids coins (Spec.Net.start init) N → ∀ i ∈ ids, (N.state i).done = true →
      (N.state i).round.output.signature = some sig := by
    intro N hp i hi hd
    have hN := hN N hp
    obtain ⟨D, E, z, h1, h2, h3, h4, _⟩ := sign_finished_spec (hr₀ i hi) ((Sign.running (hr₀ i hi) (hN.hist i hi)).2 hd (hN.err i hi))
    rw [hs.owner i hi] at h1 h2 h3
    rw [hs.group i hi] at h2 h3
    have hag : ∀ k ∈ ids, D k = honestD coins k ∧ E k = honestE coins k := by
      intro k hk
      by_cases hki : k = i
      · subst hki
        obtain ⟨⟨ord, c, _, _, h5⟩, _⟩ := h1
        have := (sign_sent hN (hN.emitted k hk _ _ h5 _ (List.mem_singleton.mpr rfl))).1 rfl
        have := congrArg Message.sign1 this
        have := Option.some.inj (show some (_ : Sign1 G) = some _ from this)
        exact ⟨congrArg Sign1.Di this, congrArg Sign1.Ei this⟩
      · obtain ⟨m, kk, g1, _, g3, g4, g5, g6, g7, _⟩ := h1.2 k hk hki
        have := (sign_sent hN (hN.handled i hi m none g1)).1 g4
        rw [this] at g5
        rw [← g6, ← g7, ← Option.some.inj g5, g3]
        exact ⟨rfl, rfl⟩
    have hz : ∀ k ∈ ids, z k = honestZ (G := G) sha ids message F coins k := by
      intro k hk
      by_cases hki : k = i
      · subst hki
        apply smul_base_injective (G := G)
        rw [h3, honestZ_check, chal_congr hag, Sign.nonce_congr hag k hk, weight_eq, hs.value k hk]
        rfl
      · obtain ⟨⟨m, kk, g1, _, g3, g4, g5, g6⟩, _⟩ := h2 k hk hki
        have := (sign_sent hN (hN.handled i hi m none g1)).2 g4
        rw [this] at g5
        rw [← g6, ← Option.some.inj g5, g3]
    rw [h4, groupNonce_congr hag, List.map_congr_left hz]
  refine ⟨sig, honest_valid hs.nodup message (lt_of_le_of_lt hs.degree hs.enough) coins, fun N hp => ?_⟩
  refine ⟨(hN N hp).err, fun i hi op ha => (hN N hp).no_crash H hi ha, hres N hp, ?_⟩
  obtain ⟨N', h1, h2⟩ := (hN N hp).finish H
  have hp' := State.Path.trans hp h1
  exact ⟨N', h1, fun i hi => ⟨h2 i hi, (hN N' hp').err i hi, hres N' hp' i hi (h2 i hi)⟩⟩

/-- C43: key generation followed by signing.  If all signers finished an honest key generation (in any execution of it), more than `t` of
its parties sign with what they got, then `NewSignState` accepts for each of them, and signing has the properties of `C43_honest_sign`
with the group key of the key generation. -/
theorem C43_keygen_then_sign {parties : IDSlice} {kt kn : ID → Nat} {kinit : ID → State G (Keygen.Round G)}
    (hk : Spec.KeygenSetup sha parties t kt kn kinit) (kcoins : ID → Coins) (K : Spec.Net G (Keygen.Round G))
    (hK : Spec.Path (Keygen.impl sha) parties kcoins (Spec.Net.start kinit) K) (hsorted : ids.Pairwise (· ≤ ·)) (hnd : ids.Nodup)
    (hsub : ∀ i ∈ ids, i ∈ parties) (hlen : t.toNat < ids.length) (hdone : ∀ i ∈ ids, (K.state i).done = true)
    (hsec : ∀ i ∈ ids, (K.state i).round.output.secretKey = some (secret i))
    (hpub : ∀ i ∈ ids, (K.state i).round.output.pub = some (pub i)) (message : Bytes) (timeout now : ID → Nat) :
    (∃ init : ID → State G (Sign.Round G), ∀ i ∈ ids, newSignState sha ids (secret i) (pub i) message (timeout i) (now i) = .ok (init i)) ∧
    ∀ init, (∀ i ∈ ids, newSignState sha ids (secret i) (pub i) message (timeout i) (now i) = .ok (init i)) →
      Spec.SignSetup sha ids t (Spec.jointPoly parties t.toNat kcoins) message secret pub timeout now init := by
  obtain ⟨_, _, hdeg, _, hres⟩ := C35_honest_keygen hk kcoins K hK
  have hfacts : ∀ i ∈ ids, (secret i).id = i ∧ (secret i).secret = (Spec.jointPoly parties t.toNat kcoins).eval (i.toNat : Scalar) ∧
      (pub i).partyIDs = parties ∧ (pub i).groupKey = (Spec.jointPoly parties t.toNat kcoins).eval 0 • (base : G) ∧
      ∀ k ∈ parties, (pub i).shares.get? k = some ((Spec.jointPoly parties t.toNat kcoins).eval (k.toNat : Scalar) • base) := by
    intro i hi
    obtain ⟨h1, p, h2, h3, _, h4, h5, _⟩ := hres i (hsub i hi) (hdone i hi)
    rw [hsec i hi] at h1
    rw [hpub i hi] at h2
    rw [Option.some.inj h1, Option.some.inj h2]
    exact ⟨rfl, rfl, h3, h4, h5⟩
  constructor
  · have : ∀ i, ∃ s : State G (Sign.Round G), i ∈ ids → newSignState sha ids (secret i) (pub i) message (timeout i) (now i) = .ok s := by
      intro i
      by_cases hi : i ∈ ids
      · obtain ⟨f1, f2, f3, f4, f5⟩ := hfacts i hi
        obtain ⟨s, hs⟩ := C42_accepts (sha := sha) (secret i) (pub i) ids message (timeout i) (now i) hsorted (by rw [f3]; exact hk.sorted) (by rw [f1]; exact hi)
          (fun id hid => ⟨by rw [f3]; exact hsub id hid, fun h => hk.zero (h ▸ hsub id hid), by rw [f5 id (hsub id hid)]; simp⟩)
        exact ⟨s, fun _ => hs⟩
      · by_cases hids : ids = []
        · rw [hids] at hlen; cases hlen
        · obtain ⟨j, hj⟩ := List.exists_mem_of_ne_nil _ hids
          obtain ⟨f1, f2, f3, f4, f5⟩ := hfacts j hj
          obtain ⟨s, hs⟩ := C42_accepts (sha := sha) (secret j) (pub j) ids message (timeout j) (now j) hsorted (by rw [f3]; exact hk.sorted) (by rw [f1]; exact hj)
            (fun id hid => ⟨by rw [f3]; exact hsub id hid, fun h => hk.zero (h ▸ hsub id hid), by rw [f5 id (hsub id hid)]; simp⟩)
          exact ⟨s, fun h => absurd h hi⟩
    choose init hinit using this
    exact ⟨init, hinit⟩
  · intro init hinit
    exact ⟨hsorted, hnd, hdeg, hlen, fun i hi => (hfacts i hi).1, fun i hi => (hfacts i hi).2.1, fun i hi => (hfacts i hi).2.2.2.1,
      fun i hi k hkk => (hfacts i hi).2.2.2.2 k (hsub k hkk), hinit⟩

end

end Verif.Props
