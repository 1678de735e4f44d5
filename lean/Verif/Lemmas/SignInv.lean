import Verif.Lemmas.Sign
import Verif.Spec.SignShare
import Verif.Lemmas.StateHist

/-!
What holds in every state of a signing session that receives arbitrary messages.
-/

namespace Verif.Sign

open State Outcome

variable {G : Type} [RGroup G] {sha : Sha512}

/-- The commitments in a message of round 1 (0 if there is no payload). -/
def DOf (v : Option (Message G)) : G := ((v.bind fun m => m.sign1).map fun k => k.Di).getD 0
/-- The commitments in a message of round 1 (0 if there is no payload). -/
def EOf (v : Option (Message G)) : G := ((v.bind fun m => m.sign1).map fun k => k.Ei).getD 0
/-- The signature share in a message of round 2 (0 if there is no payload). -/
def ZOf (v : Option (Message G)) : Scalar := ((v.bind fun m => m.sign2).map fun k => k.Zi).getD 0

/-- The message passes round 1. -/
def Valid1 (v : Option (Message G)) : Prop := ∃ m k, v = some m ∧ m.sign1 = some k ∧ k.Di ≠ 0 ∧ k.Ei ≠ 0

/-- The message passes round 2 for the commitment `Ri` and the public share `A` of its sender. -/
def Valid2 (C : Scalar) (Ri A : G) (v : Option (Message G)) : Prop :=
  ∃ m k, v = some m ∧ m.sign2 = some k ∧ k.Zi • (base : G) = Ri + C • A

theorem Valid1.D {v : Option (Message G)} (h : Valid1 v) : DOf v ≠ 0 ∧ EOf v ≠ 0 := by
  obtain ⟨m, k, rfl, h1, h2, h3⟩ := h
  simp [DOf, EOf, h1, h2, h3]

theorem Valid2.Z {C : Scalar} {Ri A : G} {v : Option (Message G)} (h : Valid2 C Ri A v) : ZOf v • (base : G) = Ri + C • A := by
  obtain ⟨m, k, rfl, h1, h2⟩ := h
  simp [ZOf, h1, h2]

theorem loop0 {l : List (ID × Option (Message G))} {r : Round G} (hs : r.stage = .r0) : processLoop (impl sha) l r = .ok r := by
  induction l with
  | nil => rfl
  | cons a l ih =>
    obtain ⟨k, v⟩ := a
    unfold processLoop
    have : (impl sha).processMessage r v = .ok r := by simp only [impl]; rw [hs]
    rw [this]
    exact ih

theorem loop1 {l : List (ID × Option (Message G))} {r r' : Round G} (hs : r.stage = .r1)
    (hl : ∀ k v, (k, v) ∈ l → ∃ m, v = some m ∧ m.header.fromID = k) (hnd : (l.map Prod.fst).Nodup)
    (h : processLoop (impl sha) l r = .ok r') :
    (∀ k v, (k, v) ∈ l → Valid1 v) ∧ r' = { r with parties := r'.parties } ∧ r'.parties.keys = r.parties.keys ∧
      (∀ k, k ∉ l.map Prod.fst → r'.parties.get? k = r.parties.get? k) ∧
      ∀ k v, (k, v) ∈ l → ∀ p, r.parties.get? k = some p → r'.parties.get? k = some { p with Di := some (DOf v), Ei := some (EOf v) } := by
  induction l generalizing r with
  | nil =>
    cases h
    exact ⟨by simp, rfl, rfl, fun _ _ => rfl, by simp⟩
  | cons a l ih =>
    obtain ⟨k, v⟩ := a
    obtain ⟨m, rfl, rfl⟩ := hl k v List.mem_cons_self
    have hl' : ∀ k v, (k, v) ∈ l → ∃ m, v = some m ∧ m.header.fromID = k := fun k v h => hl k v (List.mem_cons_of_mem _ h)
    rw [List.map_cons, List.nodup_cons] at hnd
    unfold processLoop at h
    have himpl : (impl sha).processMessage r (some m) = process1 r (some m) := by simp only [impl]; rw [hs]
    rw [himpl] at h
    cases hp : process1 r (some m) with
    | err x => rw [hp] at h; cases h
    | panic => rw [hp] at h; cases h
    | ok r₁ =>
      rw [hp] at h
      obtain ⟨m', k, p, h1, h2, h3, h4, h5, rfl⟩ := process1_ok.mp hp
      cases h1
      have hmem : m.header.fromID ∈ r.parties.keys := GoMap.mem_keys_iff.mpr ⟨p, h5⟩
      obtain ⟨g1, g2, g3, g4, g5⟩ := ih (r := { r with parties := r.parties.set m.header.fromID { p with Di := some k.Di, Ei := some k.Ei } }) hs hl' hnd.2 h
      refine ⟨?_, by rw [g2], by rw [g3]; exact GoMap.keys_set_of_mem _ hmem, ?_, ?_⟩
      · intro k' v hkv
        rcases List.mem_cons.mp hkv with hkv | hkv
        · cases hkv
          exact ⟨m, k, rfl, h2, h3, h4⟩
        · exact g1 k' v hkv
      · intro k' hk'
        rw [List.map_cons, List.mem_cons, not_or] at hk'
        rw [g4 k' hk'.2]
        exact GoMap.get?_set_ne _ _ hk'.1
      · intro k' v hkv p' hp'
        rcases List.mem_cons.mp hkv with hkv | hkv
        · cases hkv
          rw [g4 _ hnd.1]
          simp only []
          rw [GoMap.get?_set_same]
          rw [h5] at hp'
          cases hp'
          simp [DOf, EOf, h2]
        · refine g5 k' v hkv p' ?_
          have hne : k' ≠ m.header.fromID := by
            intro he
            exact hnd.1 (he ▸ List.mem_map.mpr ⟨_, hkv, rfl⟩)
          simp only []
          rw [GoMap.get?_set_ne _ _ hne]
          exact hp'

theorem loop1_ok {l : List (ID × Option (Message G))} {r : Round G} (hs : r.stage = .r1)
    (hl : ∀ k v, (k, v) ∈ l → ∃ m, v = some m ∧ m.header.fromID = k) (hv : ∀ k v, (k, v) ∈ l → Valid1 v)
    (hk : ∀ k v, (k, v) ∈ l → k ∈ r.parties.keys) : ∃ r', processLoop (impl sha) l r = .ok r' := by
  induction l generalizing r with
  | nil => exact ⟨r, rfl⟩
  | cons a l ih =>
    obtain ⟨k, v⟩ := a
    obtain ⟨m, rfl, rfl⟩ := hl k v List.mem_cons_self
    obtain ⟨m', kg, h1, h2, h3, h4⟩ := hv _ _ List.mem_cons_self
    cases h1
    obtain ⟨p, hp⟩ := GoMap.mem_keys_iff.mp (hk _ _ List.mem_cons_self)
    unfold processLoop
    have himpl : (impl sha).processMessage r (some m) = process1 r (some m) := by simp only [impl]; rw [hs]
    rw [himpl, process1_ok.mpr ⟨m, kg, p, rfl, h2, h3, h4, hp, rfl⟩]
    refine ih hs (fun k v h => hl k v (List.mem_cons_of_mem _ h)) (fun k v h => hv k v (List.mem_cons_of_mem _ h)) ?_
    intro k v h
    exact GoMap.mem_keys_set.mpr (Or.inr (hk k v (List.mem_cons_of_mem _ h)))

theorem loop2 {l : List (ID × Option (Message G))} {r r' : Round G} (hs : r.stage = .r2)
    (hl : ∀ k v, (k, v) ∈ l → ∃ m, v = some m ∧ m.header.fromID = k) (hnd : (l.map Prod.fst).Nodup)
    (h : processLoop (impl sha) l r = .ok r') :
    (∀ k v, (k, v) ∈ l → ∀ p, r.parties.get? k = some p → ∀ Ri, p.Ri = some Ri → Valid2 r.C Ri p.pub v) ∧
      r' = { r with parties := r'.parties } ∧ r'.parties.keys = r.parties.keys ∧
      (∀ k, k ∉ l.map Prod.fst → r'.parties.get? k = r.parties.get? k) ∧
      ∀ k v, (k, v) ∈ l → ∀ p, r.parties.get? k = some p → r'.parties.get? k = some { p with Zi := ZOf v } := by
  induction l generalizing r with
  | nil =>
    cases h
    exact ⟨by simp, rfl, rfl, fun _ _ => rfl, by simp⟩
  | cons a l ih =>
    obtain ⟨k, v⟩ := a
    obtain ⟨m, rfl, rfl⟩ := hl k v List.mem_cons_self
    have hl' : ∀ k v, (k, v) ∈ l → ∃ m, v = some m ∧ m.header.fromID = k := fun k v h => hl k v (List.mem_cons_of_mem _ h)
    rw [List.map_cons, List.nodup_cons] at hnd
    unfold processLoop at h
    have himpl : (impl sha).processMessage r (some m) = process2 r (some m) := by simp only [impl]; rw [hs]
    rw [himpl] at h
    cases hp : process2 r (some m) with
    | err x => rw [hp] at h; cases h
    | panic => rw [hp] at h; cases h
    | ok r₁ =>
      rw [hp] at h
      obtain ⟨m', k, p, Ri, h1, h5, h2, h3, h4, rfl⟩ := process2_ok.mp hp
      cases h1
      have hmem : m.header.fromID ∈ r.parties.keys := GoMap.mem_keys_iff.mpr ⟨p, h5⟩
      obtain ⟨g1, g2, g3, g4, g5⟩ := ih (r := { r with parties := r.parties.set m.header.fromID { p with Zi := k.Zi } }) hs hl' hnd.2 h
      have hne : ∀ k' v, (k', v) ∈ l → k' ≠ m.header.fromID := by
        intro k' v hkv he
        exact hnd.1 (he ▸ List.mem_map.mpr ⟨_, hkv, rfl⟩)
      refine ⟨?_, by rw [g2], by rw [g3]; exact GoMap.keys_set_of_mem _ hmem, ?_, ?_⟩
      · intro k' v hkv p' hp' Ri' hRi'
        rcases List.mem_cons.mp hkv with hkv | hkv
        · cases hkv
          rw [h5] at hp'
          cases hp'
          rw [h3] at hRi'
          cases hRi'
          exact ⟨m, k, rfl, h2, h4⟩
        · refine g1 k' v hkv p' ?_ Ri' hRi'
          simp only []
          rw [GoMap.get?_set_ne _ _ (hne k' v hkv)]
          exact hp'
      · intro k' hk'
        rw [List.map_cons, List.mem_cons, not_or] at hk'
        rw [g4 k' hk'.2]
        exact GoMap.get?_set_ne _ _ hk'.1
      · intro k' v hkv p' hp'
        rcases List.mem_cons.mp hkv with hkv | hkv
        · cases hkv
          rw [g4 _ hnd.1]
          simp only []
          rw [GoMap.get?_set_same]
          rw [h5] at hp'
          cases hp'
          simp [ZOf, h2]
        · refine g5 k' v hkv p' ?_
          simp only []
          rw [GoMap.get?_set_ne _ _ (hne k' v hkv)]
          exact hp'

theorem loop2_ok {l : List (ID × Option (Message G))} {r : Round G} (hs : r.stage = .r2)
    (hl : ∀ k v, (k, v) ∈ l → ∃ m, v = some m ∧ m.header.fromID = k) (hnd : (l.map Prod.fst).Nodup)
    (hv : ∀ k v, (k, v) ∈ l → ∃ p Ri, r.parties.get? k = some p ∧ p.Ri = some Ri ∧ Valid2 r.C Ri p.pub v) :
    ∃ r', processLoop (impl sha) l r = .ok r' := by
  induction l generalizing r with
  | nil => exact ⟨r, rfl⟩
  | cons a l ih =>
    obtain ⟨k, v⟩ := a
    obtain ⟨m, rfl, rfl⟩ := hl k v List.mem_cons_self
    obtain ⟨p, Ri, hp, hRi, m', kg, h1, h2, h3⟩ := hv _ _ List.mem_cons_self
    cases h1
    rw [List.map_cons, List.nodup_cons] at hnd
    unfold processLoop
    have himpl : (impl sha).processMessage r (some m) = process2 r (some m) := by simp only [impl]; rw [hs]
    rw [himpl, process2_ok.mpr ⟨m, kg, p, Ri, rfl, hp, h2, hRi, h3, rfl⟩]
    refine ih hs (fun k v h => hl k v (List.mem_cons_of_mem _ h)) hnd.2 ?_
    intro k v h
    obtain ⟨p', Ri', g1, g2, g3⟩ := hv k v (List.mem_cons_of_mem _ h)
    refine ⟨p', Ri', ?_, g2, g3⟩
    simp only []
    rw [GoMap.get?_set_ne _ _ (by intro he; exact hnd.1 (he ▸ List.mem_map.mpr ⟨_, h, rfl⟩))]
    exact g1

/-! ### Setting up -/

theorem setupLoop_ok {ids : IDSlice} {shares : GoMap G} {l : List ID} {m m' : GoMap (Signer G)} :
    setupLoop ids shares l m = .ok m' → (∀ id ∈ l, id ≠ 0 ∧ id ∈ ids ∧ shares.get? id ≠ none) ∧ (m.WF → m'.WF) ∧
      (∀ k, k ∈ m'.keys ↔ k ∈ m.keys ∨ k ∈ l) ∧ (∀ k, k ∉ l → m'.get? k = m.get? k) ∧
      ∀ k ∈ l, ∃ X, shares.get? k = some X ∧ m'.get? k = some { pub := ID.lagrangeVal k ids • X } := by
  induction l generalizing m with
  | nil =>
    intro h
    cases h
    simp
  | cons a l ih =>
    intro h
    simp only [setupLoop, bind_eq_ok, failIf_eq_ok, deref_eq_ok, ID.lagrange_eq] at h
    obtain ⟨_, h0, lam, hlam, X, hX, h⟩ := h
    rw [if_neg h0] at hlam
    have hin : a ∈ ids := by
      by_contra hn
      rw [if_neg hn] at hlam
      cases hlam
    rw [if_pos hin] at hlam
    cases hlam
    obtain ⟨g1, g2, g3, g4, g5⟩ := ih h
    refine ⟨?_, fun hwf => g2 (hwf.set _ _), ?_, ?_, ?_⟩
    · intro id hid
      rcases List.mem_cons.mp hid with rfl | hid
      · exact ⟨h0, hin, by rw [hX]; simp⟩
      · exact g1 id hid
    · intro k
      rw [g3, GoMap.mem_keys_set, List.mem_cons]
      tauto
    · intro k hk
      rw [List.mem_cons, not_or] at hk
      rw [g4 k hk.2, GoMap.get?_set_ne _ _ hk.1]
    · intro k hk
      by_cases hkl : k ∈ l
      · exact g5 k hkl
      · rcases List.mem_cons.mp hk with rfl | hk
        · exact ⟨X, hX, by rw [g4 k hkl, GoMap.get?_set_same]⟩
        · exact absurd hk hkl

theorem setupLoop_of {ids : IDSlice} {shares : GoMap G} {l : List ID} (m : GoMap (Signer G))
    (h : ∀ id ∈ l, id ≠ 0 ∧ id ∈ ids ∧ shares.get? id ≠ none) : ∃ m', setupLoop ids shares l m = .ok m' := by
  induction l generalizing m with
  | nil => exact ⟨m, rfl⟩
  | cons a l ih =>
    obtain ⟨h0, hin, hX⟩ := h a List.mem_cons_self
    obtain ⟨X, hX⟩ := Option.ne_none_iff_exists'.mp hX
    obtain ⟨m', hm'⟩ := ih (m.set a { pub := ID.lagrangeVal a ids • X }) fun id hid => h id (List.mem_cons_of_mem _ hid)
    refine ⟨m', ?_⟩
    simp only [setupLoop, bind_eq_ok, failIf_eq_ok, deref_eq_ok, ID.lagrange_eq]
    exact ⟨(), h0, ID.lagrangeVal a ids, by rw [if_neg h0, if_pos hin], X, hX, hm'⟩

/-- A session started by `NewSignState` with a duplicate-free list; `P` gives the weighted public shares. -/
structure Start (r₀ : Round G) (secret : SecretShare G) (shares : Public G) (ids : IDSlice) (message : Bytes) : Prop where
  new : newRound ids secret shares message = .ok r₀
  nodup : ids.Nodup

theorem newRound_ok {r₀ : Round G} {secret : SecretShare G} {shares : Public G} {ids : IDSlice} {message : Bytes} :
    newRound ids secret shares message = .ok r₀ ↔ IDSlice.contains ids secret.id = true ∧
      IDSlice.isSubsetOf ids shares.partyIDs = true ∧ ∃ parties, setupLoop ids shares.shares ids [] = .ok parties ∧
      r₀ = { stage := .r0, selfID := secret.id, partyIDs := ids, message := message, parties := parties, groupKey := shares.groupKey, secretKeyShare := ID.lagrangeVal secret.id ids * secret.secret, e := 0, d := 0, C := 0, R := 0, hasOutput := true, output := {} } := by
  unfold newRound Keygen.newBaseRound
  simp only [bind_eq_ok, failIf_eq_ok, pure_def, Outcome.ok.injEq, ID.lagrange_eq]
  constructor
  · rintro ⟨_, h1, _, h2, _, h3, parties, h4, lam, h5, h6⟩
    have hin := IDSlice.contains_sound (by simpa using h1)
    rw [if_neg ((setupLoop_ok h4).1 _ hin).1, if_pos hin] at h5
    cases h5
    exact ⟨by simpa using h1, by simpa using h2, parties, h4, h6.symm⟩
  · rintro ⟨h1, h2, parties, h4, rfl⟩
    have hin := IDSlice.contains_sound h1
    refine ⟨(), by simpa using h1, (), by simpa using h2, (), by simpa using h1, parties, h4, _, ?_, rfl⟩
    rw [if_neg ((setupLoop_ok h4).1 _ hin).1, if_pos hin]

/-- The weighted public share of a signer. -/
def pubOf (shares : Public G) (ids : IDSlice) (id : ID) : G := ID.lagrangeVal id ids • (shares.shares.get? id).getD 0

theorem Start.eq {r₀ : Round G} {secret : SecretShare G} {shares : Public G} {ids : IDSlice} {message : Bytes}
    (hs : Start r₀ secret shares ids message) :
    r₀.stage = .r0 ∧ r₀.selfID = secret.id ∧ r₀.partyIDs = ids ∧ r₀.message = message ∧ r₀.groupKey = shares.groupKey ∧
      r₀.secretKeyShare = ID.lagrangeVal secret.id ids * secret.secret ∧ r₀.hasOutput = true ∧ r₀.output = {} ∧
      IDSlice.contains ids secret.id = true ∧ r₀.parties.WF ∧ (∀ k, k ∈ r₀.parties.keys ↔ k ∈ ids) ∧
      (∀ id ∈ ids, r₀.parties.get? id = some { pub := pubOf shares ids id }) ∧
      (∀ id ∈ ids, id ≠ 0 ∧ shares.shares.get? id ≠ none) := by
  obtain ⟨h1, h2, parties, h3, h4⟩ := newRound_ok.mp hs.new
  obtain ⟨g1, g2, g3, g4, g5⟩ := setupLoop_ok h3
  subst h4
  refine ⟨rfl, rfl, rfl, rfl, rfl, rfl, rfl, rfl, h1, g2 GoMap.wf_nil, ?_, ?_, fun id hid => ⟨(g1 id hid).1, (g1 id hid).2.2⟩⟩
  · intro k; rw [g3]; simp
  · intro id hid
    obtain ⟨X, hX, h5⟩ := g5 id hid
    simp only []
    rw [h5, pubOf, hX]
    rfl

/-! ### The rounds -/

/-- The entries of the map of signers. -/
structure Parts (parties : GoMap (Signer G)) (ids : IDSlice) (f : ID → Signer G) : Prop where
  wf : parties.WF
  keys : ∀ k, k ∈ parties.keys ↔ k ∈ ids
  get : ∀ id ∈ ids, parties.get? id = some (f id)

/-- The commitments used in round 2: our own and those received. -/
structure Coms (me : ID) (d e : Scalar) (l₁ : List (ID × Option (Message G))) (D E : ID → G) : Prop where
  ownD : D me = d • base
  ownE : E me = e • base
  others : ∀ k v, (k, v) ∈ l₁ → D k = DOf v ∧ E k = EOf v

section Inv

variable (sha) (r₀ : Round G) (P : ID → G)

/-- The nonces were drawn by a call of `ProcessAll` that broadcast their commitments. -/
def Drawn (h : List (Op G × Ret G)) (d e : Scalar) : Prop :=
  ∃ ord coins, d = coins 0 ∧ e = coins 1 ∧
    (Op.processAll ord coins, Ret.messages [Message.newSign1 r₀.selfID (d • (base : G)) (e • (base : G))]) ∈ h

/-- The signer's record in round 1. -/
def signer1 (d e : Scalar) (id : ID) : Signer G :=
  if id = r₀.selfID then { pub := P id, Di := some (d • base), Ei := some (e • base) } else { pub := P id }

/-- The signer's record in round 2. -/
def signer2 (d e : Scalar) (D E : ID → G) (id : ID) : Signer G where
  pub := P id
  Di := some (D id)
  Ei := some (E id)
  Ri := some (Spec.nonce sha r₀.partyIDs r₀.message D E id)
  Pi := Spec.rho sha r₀.partyIDs r₀.message D E id
  Zi := if id = r₀.selfID then Spec.respond sha r₀.partyIDs r₀.message r₀.groupKey D E r₀.selfID d e r₀.secretKeyShare else 0

/-- The round object in round 2. -/
def round2 (d e : Scalar) (D E : ID → G) (parties : GoMap (Signer G)) : Round G :=
  { r₀ with stage := .r2, d := d, e := e, parties := parties, C := Spec.chal sha r₀.partyIDs r₀.message r₀.groupKey D E, R := Spec.groupNonce sha r₀.partyIDs r₀.message D E }

/-- The round object while round `n` is running. -/
def Running (n : Nat) (h : List (Op G × Ret G)) (r : Round G) : Prop :=
  match n with
  | 0 => r = r₀
  | 1 => ∃ d e parties, Drawn r₀ h d e ∧ Parts parties r₀.partyIDs (signer1 r₀ P d e) ∧
      r = { r₀ with stage := .r1, d := d, e := e, parties := parties }
  | 2 => ∃ d e l₁ D E parties, Drawn r₀ h d e ∧ Ready (impl sha) r₀ h 1 l₁ ∧ (∀ k v, (k, v) ∈ l₁ → Valid1 v) ∧
      Coms r₀.selfID d e l₁ D E ∧ Parts parties r₀.partyIDs (signer2 sha r₀ P d e D E) ∧
      (∃ ord coins, (Op.processAll ord coins, Ret.messages [Message.newSign2 r₀.selfID
        (Spec.respond sha r₀.partyIDs r₀.message r₀.groupKey D E r₀.selfID d e r₀.secretKeyShare)]) ∈ h) ∧
      r = round2 sha r₀ d e D E parties
  | _ => False

/-- The round object after success. -/
def Finished (h : List (Op G × Ret G)) (r : Round G) : Prop :=
  ∃ d e l₁ D E l₂ z, Drawn r₀ h d e ∧ Ready (impl sha) r₀ h 1 l₁ ∧ (∀ k v, (k, v) ∈ l₁ → Valid1 v) ∧
    Coms r₀.selfID d e l₁ D E ∧ Ready (impl sha) r₀ h 2 l₂ ∧
    z r₀.selfID = Spec.respond sha r₀.partyIDs r₀.message r₀.groupKey D E r₀.selfID d e r₀.secretKeyShare ∧
    (∀ k v, (k, v) ∈ l₂ → z k = ZOf v ∧ Valid2 (Spec.chal sha r₀.partyIDs r₀.message r₀.groupKey D E)
      (Spec.nonce sha r₀.partyIDs r₀.message D E k) (P k) v) ∧
    r.output = ⟨some ⟨Spec.groupNonce sha r₀.partyIDs r₀.message D E, (r₀.partyIDs.map z).sum⟩⟩ ∧
    PublicKey.verify sha r₀.groupKey r₀.message ⟨Spec.groupNonce sha r₀.partyIDs r₀.message D E, (r₀.partyIDs.map z).sum⟩ = .ok true ∧
    r.hasOutput = false

theorem Drawn.mono {r₀ : Round G} {h h' : List (Op G × Ret G)} {d e : Scalar} (hd : Drawn r₀ h d e) : Drawn r₀ (h ++ h') d e := by
  obtain ⟨ord, coins, h1, h2, h3⟩ := hd
  exact ⟨ord, coins, h1, h2, List.mem_append_left _ h3⟩

theorem ready_mono {R : Type} {impl : RoundImpl G R} {r₀ : R} {h h' : List (Op G × Ret G)} {n : Nat}
    {l : List (ID × Option (Message G))} (hr : Ready impl r₀ h n l) : Ready impl r₀ (h ++ h') n l :=
  ⟨hr.keys, hr.first, fun h0 k v hk => by
    obtain ⟨m, h1, h2, h3, h4, h5⟩ := hr.later h0 k v hk
    exact ⟨m, h1, h2, h3, List.mem_append_left _ h4, h5⟩⟩

variable {sha r₀ P}

/-- Every other party has an entry in the list of messages. -/
theorem mem_of_ready {R : Type} {impl : RoundImpl G R} {r₀ : R} {h : List (Op G × Ret G)} {n : Nat}
    {l : List (ID × Option (Message G))} (hr : Ready impl r₀ h n l) {k : ID} :
    (∃ v, (k, v) ∈ l) ↔ k ∈ impl.partyIDs r₀ ∧ k ≠ impl.selfID r₀ := by
  rw [← mem_others, ← hr.keys.mem_iff, List.mem_map]
  constructor
  · rintro ⟨v, hv⟩; exact ⟨_, hv, rfl⟩
  · rintro ⟨⟨k', v⟩, hv, rfl⟩; exact ⟨v, hv⟩

theorem wf_of_keys {V : Type} {m m' : GoMap V} (h : m'.keys = m.keys) (hwf : m.WF) : m'.WF := by
  unfold GoMap.WF at hwf ⊢
  rw [h]; exact hwf

/-- From round 0 to round 1. -/
theorem step0 (hstage : r₀.stage = .r0) (hself : r₀.selfID ∈ r₀.partyIDs)
    (hparts : Parts r₀.parties r₀.partyIDs fun id => { pub := P id }) (coins : Coins) :
    ∃ parties, Parts parties r₀.partyIDs (signer1 r₀ P (coins 0) (coins 1)) ∧
      generate0 coins r₀ = .ok ({ r₀ with d := coins 0, e := coins 1, parties := parties },
        [Message.newSign1 r₀.selfID (coins 0 • base) (coins 1 • base)]) := by
  have hg := hparts.get _ hself
  refine ⟨_, ⟨hparts.wf.set _ _, ?_, ?_⟩, generate0_ok.mpr ⟨_, hg, rfl, rfl⟩⟩
  · intro k
    rw [GoMap.keys_set_of_mem _ ((hparts.keys _).mpr hself), hparts.keys]
  · intro id hid
    unfold signer1
    split <;> rename_i h
    · subst h; rw [GoMap.get?_set_same]
    · rw [GoMap.get?_set_ne _ _ h, hparts.get id hid]

/-- From round 1 to round 2: what the calls return. -/
theorem step1 {h : List (Op G × Ret G)} {l : List (ID × Option (Message G))} {d e : Scalar} {parties : GoMap (Signer G)}
    (hnd : r₀.partyIDs.Nodup) (hself : r₀.selfID ∈ r₀.partyIDs) (hparts : Parts parties r₀.partyIDs (signer1 r₀ P d e))
    (hready : Ready (impl sha) r₀ h 1 l) {r₁ : Round G}
    (hloop : processLoop (impl sha) l { r₀ with stage := .r1, d := d, e := e, parties := parties } = .ok r₁) (ord : MapOrder) :
    ∃ D E parties', Coms r₀.selfID d e l D E ∧ Parts parties' r₀.partyIDs (signer2 sha r₀ P d e D E) ∧
      generate1 sha ord r₁ = .ok ({ round2 sha r₀ d e D E parties' with stage := .r1 },
        [Message.newSign2 r₀.selfID (Spec.respond sha r₀.partyIDs r₀.message r₀.groupKey D E r₀.selfID d e r₀.secretKeyShare)]) := by
  have hl : ∀ k v, (k, v) ∈ l → ∃ m, v = some m ∧ m.header.fromID = k := by
    intro k v hk
    obtain ⟨m, h1, h2, _⟩ := hready.later (by omega) k v hk
    exact ⟨m, h1, h2⟩
  have hkl : ∀ {k}, (∃ v, (k, v) ∈ l) ↔ k ∈ r₀.partyIDs ∧ k ≠ r₀.selfID := mem_of_ready hready
  have hlnd : (l.map Prod.fst).Nodup := hready.keys.nodup_iff.mpr (hnd.filter _)
  obtain ⟨g1, g2, g3, g4, g5⟩ := loop1 (sha := sha) (r := { r₀ with stage := .r1, d := d, e := e, parties := parties }) rfl hl hlnd hloop
  -- the commitments
  let D : ID → G := fun id => if id = r₀.selfID then d • base else ((l.find? fun x => x.1 = id).map fun x => DOf x.2).getD 0
  let E : ID → G := fun id => if id = r₀.selfID then e • base else ((l.find? fun x => x.1 = id).map fun x => EOf x.2).getD 0
  have hfind : ∀ {k v}, (k, v) ∈ l → (l.find? fun x => x.1 = k) = some (k, v) := by
    intro k v hkv
    cases hf : l.find? fun x => x.1 = k with
    | none =>
      rw [List.find?_eq_none] at hf
      exact absurd (hf _ hkv) (by simp)
    | some y =>
      have h1 := List.find?_some hf
      have h2 := List.mem_of_find?_eq_some hf
      rw [decide_eq_true_eq] at h1
      obtain ⟨k', v'⟩ := y
      cases h1
      rw [List.inj_on_of_nodup_map hlnd h2 hkv rfl]
  have hcoms : Coms r₀.selfID d e l D E := by
    refine ⟨if_pos rfl, if_pos rfl, ?_⟩
    intro k v hkv
    have hne := (hkl.mp ⟨v, hkv⟩).2
    simp [D, E, hne, hfind hkv]
  have hkeys : ∀ k, k ∈ r₁.parties.keys ↔ k ∈ r₀.partyIDs := by
    intro k; rw [g3]; exact hparts.keys k
  have hget : ∀ id ∈ r₀.partyIDs, r₁.parties.get? id = some { pub := P id, Di := some (D id), Ei := some (E id) } := by
    intro id hid
    by_cases hs : id = r₀.selfID
    · rw [g4 id (by
        intro hc
        obtain ⟨⟨k, v⟩, hv, rfl⟩ := List.mem_map.mp hc
        exact (hkl.mp ⟨v, hv⟩).2 hs)]
      show parties.get? id = _
      rw [hparts.get id hid]
      simp [signer1, hs, D, E]
    · obtain ⟨v, hv⟩ := hkl.mpr ⟨hid, hs⟩
      rw [g5 id v hv _ (show parties.get? id = some _ from hparts.get id hid), (hcoms.others id v hv).1, (hcoms.others id v hv).2]
      simp [signer1, hs]
  have hwf : r₁.parties.WF := wf_of_keys g3 hparts.wf
  have e1 : r₁.partyIDs = r₀.partyIDs := by rw [g2]
  have e2 : r₁.selfID = r₀.selfID := by rw [g2]
  have e3 : r₁.message = r₀.message := by rw [g2]
  have e4 : r₁.groupKey = r₀.groupKey := by rw [g2]
  have e5 : r₁.secretKeyShare = r₀.secretKeyShare := by rw [g2]
  have e6 : r₁.d = d ∧ r₁.e = e := by rw [g2]; exact ⟨rfl, rfl⟩
  obtain ⟨parties', k1, k2, k3⟩ := generate1_eq sha ord r₁ D E hwf (fun id => by rw [e1]; exact (hkeys id).symm)
    (by rw [e1, e2]; exact hself) (by
      intro id p hp
      have hid : id ∈ r₀.partyIDs := (hkeys id).mp (GoMap.mem_keys_iff.mpr ⟨p, hp⟩)
      rw [hget id hid] at hp
      cases hp
      exact ⟨rfl, rfl⟩)
  have hperm : r₁.parties.keys.Perm r₀.partyIDs := (List.perm_ext_iff_of_nodup hwf hnd).mpr hkeys
  have hR : (r₁.parties.keys.map fun id => Spec.bindingFactor sha id r₁.message (Spec.commitmentList r₁.partyIDs D E) • E id + D id).sum
      = Spec.groupNonce sha r₀.partyIDs r₀.message D E := by
    rw [(hperm.map _).sum_eq, e1, e3]
    rfl
  rw [hR, e1, e2, e3, e4, e5, e6.1, e6.2] at k3
  rw [hR, e1, e2, e3, e4, e5, e6.1, e6.2] at k2
  refine ⟨D, E, parties', hcoms, ⟨wf_of_keys k1 hwf, fun k => by rw [k1]; exact hkeys k, ?_⟩, ?_⟩
  · intro id hid
    rw [k2 id _ (hget id hid)]
    rfl
  · rw [k3, g2]
    rfl

/-- The last round. -/
theorem step2 {h : List (Op G × Ret G)} {l : List (ID × Option (Message G))} {d e : Scalar} {D E : ID → G} {parties : GoMap (Signer G)}
    (hnd : r₀.partyIDs.Nodup) (hself : r₀.selfID ∈ r₀.partyIDs) (hparts : Parts parties r₀.partyIDs (signer2 sha r₀ P d e D E))
    (hready : Ready (impl sha) r₀ h 2 l) {r₁ : Round G}
    (hloop : processLoop (impl sha) l (round2 sha r₀ d e D E parties) = .ok r₁) :
    ∃ z parties', z r₀.selfID = Spec.respond sha r₀.partyIDs r₀.message r₀.groupKey D E r₀.selfID d e r₀.secretKeyShare ∧
      (∀ k v, (k, v) ∈ l → z k = ZOf v ∧ Valid2 (Spec.chal sha r₀.partyIDs r₀.message r₀.groupKey D E)
        (Spec.nonce sha r₀.partyIDs r₀.message D E k) (P k) v) ∧ r₁ = round2 sha r₀ d e D E parties' ∧
      finalSig r₁ = ⟨Spec.groupNonce sha r₀.partyIDs r₀.message D E, (r₀.partyIDs.map z).sum⟩ := by
  have hl : ∀ k v, (k, v) ∈ l → ∃ m, v = some m ∧ m.header.fromID = k := by
    intro k v hk
    obtain ⟨m, h1, h2, _⟩ := hready.later (by omega) k v hk
    exact ⟨m, h1, h2⟩
  have hkl : ∀ {k}, (∃ v, (k, v) ∈ l) ↔ k ∈ r₀.partyIDs ∧ k ≠ r₀.selfID := mem_of_ready hready
  have hlnd : (l.map Prod.fst).Nodup := hready.keys.nodup_iff.mpr (hnd.filter _)
  obtain ⟨g1, g2, g3, g4, g5⟩ := loop2 (sha := sha) (r := round2 sha r₀ d e D E parties) rfl hl hlnd hloop
  let z : ID → Scalar := fun id => ((r₁.parties.get? id).map fun p => p.Zi).getD 0
  have hget : ∀ id ∈ r₀.partyIDs, parties.get? id = some (signer2 sha r₀ P d e D E id) := hparts.get
  have hwf : r₁.parties.WF := wf_of_keys g3 hparts.wf
  have hkeys : ∀ k, k ∈ r₁.parties.keys ↔ k ∈ r₀.partyIDs := by
    intro k; rw [g3]; exact hparts.keys k
  refine ⟨z, r₁.parties, ?_, ?_, g2, ?_⟩
  · simp only [z]
    rw [g4 r₀.selfID (by
      intro hc
      obtain ⟨⟨k, v⟩, hv, he⟩ := List.mem_map.mp hc
      exact (hkl.mp ⟨v, hv⟩).2 he)]
    show ((parties.get? _).map _).getD 0 = _
    rw [hget _ hself]
    simp [signer2]
  · intro k v hkv
    have hid := (hkl.mp ⟨v, hkv⟩).1
    refine ⟨?_, g1 k v hkv _ (hget k hid) _ rfl⟩
    simp only [z]
    rw [g5 k v hkv _ (hget k hid)]
    rfl
  · have hR : r₁.R = Spec.groupNonce sha r₀.partyIDs r₀.message D E := by rw [g2]; rfl
    unfold finalSig
    rw [hR]
    congr 1
    have hperm : r₁.parties.keys.Perm r₀.partyIDs := (List.perm_ext_iff_of_nodup hwf hnd).mpr hkeys
    rw [← (hperm.map z).sum_eq]
    unfold GoMap.keys
    rw [List.map_map]
    congr 1
    apply List.map_congr_left
    rintro ⟨k, p⟩ hkp
    simp only [Function.comp, z]
    rw [(GoMap.get?_eq_some_iff hwf).mpr hkp]
    rfl

theorem running {secret : SecretShare G} {shares : Public G} {ids : IDSlice} {message : Bytes} (hs : Start r₀ secret shares ids message)
    {timeout now : Nat} {h : List (Op G × Ret G)} {s : State G (Round G)}
    (hh : Hist (impl sha) (newBaseState (impl sha) r₀ timeout now) h s) :
    (s.done = false → Running sha r₀ (pubOf shares ids) s.roundNumber h s.round) ∧
      (s.done = true → s.err = none → Finished sha r₀ (pubOf shares ids) h s.round) := by
  obtain ⟨hstage, hself, hids, hmsg, hgk, hsk, hout, _, hc, hwf, hkeys, hget, hnz⟩ := hs.eq
  have hnd : r₀.partyIDs.Nodup := by rw [hids]; exact hs.nodup
  have hmem : r₀.selfID ∈ r₀.partyIDs := by rw [hids, hself]; exact IDSlice.contains_sound hc
  have hparts : Parts r₀.parties r₀.partyIDs fun id => { pub := pubOf shares ids id } :=
    ⟨hwf, fun k => by rw [hids]; exact hkeys k, fun id hid => hget id (by rw [← hids]; exact hid)⟩
  refine hist_rounds (impl_stable sha) hnd hmem (Running sha r₀ (pubOf shares ids)) (Finished sha r₀ (pubOf shares ids)) rfl ?_ ?_ ?_ ?_ hh
  · intro n h x r hrun
    match n, hrun with
    | 0, hrun => exact hrun
    | 1, ⟨d, e, parties, h1, h2, h3⟩ => exact ⟨d, e, parties, h1.mono, h2, h3⟩
    | 2, ⟨d, e, l₁, D, E, parties, h1, h2, h3, h4, h5, ⟨ord, coins, h6⟩, h7⟩ =>
      exact ⟨d, e, l₁, D, E, parties, h1.mono, ready_mono h2, h3, h4, h5, ⟨ord, coins, List.mem_append_left _ h6⟩, h7⟩
  · rintro h x r ⟨d, e, l₁, D, E, l₂, z, h1, h2, h3, h4, h5, h6⟩
    exact ⟨d, e, l₁, D, E, l₂, z, h1.mono, ready_mono h2, h3, h4, ready_mono h5, h6⟩
  · intro h n l ord coins r r₁ r₂ r₃ out hrun hready hloop hgen hnext
    match n, hrun with
    | 0, hrun =>
      have hrun : r = r₀ := hrun
      subst hrun
      rw [loop0 hstage] at hloop
      cases hloop
      simp only [impl, hstage] at hgen
      obtain ⟨parties, h1, h2⟩ := step0 hstage hmem hparts coins
      rw [h2] at hgen
      cases hgen
      simp only [impl, hstage, Option.some.injEq] at hnext
      subst hnext
      exact ⟨_, _, parties, ⟨ord, coins, rfl, rfl, List.mem_append_right _ List.mem_cons_self⟩, h1, rfl⟩
    | 1, ⟨d, e, parties, h1, h2, h3⟩ =>
      subst h3
      have hl : ∀ k v, (k, v) ∈ l → ∃ m, v = some m ∧ m.header.fromID = k := by
        intro k v hk
        obtain ⟨m, h1, h2, _⟩ := hready.later (by omega) k v hk
        exact ⟨m, h1, h2⟩
      obtain ⟨v1, v2, _⟩ := loop1 (sha := sha) rfl hl (hready.keys.nodup_iff.mpr (hnd.filter _)) hloop
      obtain ⟨D, E, parties', k1, k2, k3⟩ := step1 hnd hmem h2 hready hloop ord
      have hst : r₁.stage = .r1 := by rw [v2]
      simp only [impl, hst] at hgen
      rw [k3] at hgen
      cases hgen
      simp only [impl, Option.some.injEq] at hnext
      subst hnext
      exact ⟨d, e, l, D, E, parties', h1.mono, ready_mono hready, v1, k1, k2, ⟨ord, coins, List.mem_append_right _ List.mem_cons_self⟩, rfl⟩
    | 2, ⟨d, e, l₁, D, E, parties, h1, h2, h3, h4, h5, h6, h7⟩ =>
      subst h7
      obtain ⟨z, parties', _, _, k3, _⟩ := step2 hnd hmem h5 hready hloop
      subst k3
      have hgen : generate2 _ _ _ = _ := hgen
      obtain ⟨_, _, rfl, _⟩ := generate2_ok.mp hgen
      cases hnext
  · intro h n l ord coins r r₁ r₂ r₃ out hrun hready hloop hgen hnext hreset
    match n, hrun with
    | 0, hrun =>
      have hrun : r = r₀ := hrun
      subst hrun
      rw [loop0 hstage] at hloop
      cases hloop
      simp only [impl, hstage] at hgen
      obtain ⟨_, _, rfl, _⟩ := generate0_ok.mp hgen
      simp [impl, hstage] at hnext
    | 1, ⟨d, e, parties, h1, h2, h3⟩ =>
      subst h3
      obtain ⟨D, E, parties', k1, k2, k3⟩ := step1 hnd hmem h2 hready hloop ord
      have hl : ∀ k v, (k, v) ∈ l → ∃ m, v = some m ∧ m.header.fromID = k := by
        intro k v hk
        obtain ⟨m, h1, h2, _⟩ := hready.later (by omega) k v hk
        exact ⟨m, h1, h2⟩
      obtain ⟨_, v2, _⟩ := loop1 (sha := sha) rfl hl (hready.keys.nodup_iff.mpr (hnd.filter _)) hloop
      have hst : r₁.stage = .r1 := by rw [v2]
      simp only [impl, hst] at hgen
      rw [k3] at hgen
      cases hgen
      cases hnext
    | 2, ⟨d, e, l₁, D, E, parties, h1, h2, h3, h4, h5, h6, h7⟩ =>
      subst h7
      obtain ⟨z, parties', k1, k2, k3, k4⟩ := step2 hnd hmem h5 hready hloop
      subst k3
      have hgen : generate2 _ _ _ = _ := hgen
      obtain ⟨v1, v2, rfl, _⟩ := generate2_ok.mp hgen
      rw [k4] at v1
      have hreset : reset _ = some r₃ := hreset
      cases hreset
      refine ⟨d, e, l₁, D, E, l, z, h1.mono, ready_mono h2, h3, h4, ready_mono hready, k1, k2, ?_, v1, rfl⟩
      simp only []
      rw [k4]

end Inv

end Verif.Sign
