import Verif.Lemmas.Keygen
import Verif.Lemmas.StateHist

/-!
What holds in every history of a key generation session, whatever messages arrive.
-/

namespace Verif.Keygen

open Verif.Outcome State

variable {G : Type} [RGroup G] {sha : Sha512}

/-- The commitments in a message. -/
def commOf (v : Option (Message G)) : Exponent G :=
  match v with
  | some m => match m.keyGen1 with
    | some k => k.commitments
    | none => []
  | none => []

/-- The share in a message. -/
def shareOf (v : Option (Message G)) : Scalar :=
  match v with
  | some m => match m.keyGen2 with
    | some k => k.share
    | none => 0
  | none => 0

/-- The message passes round 1. -/
def Valid1 (v : Option (Message G)) : Prop :=
  ∃ m k, v = some m ∧ m.keyGen1 = some k ∧ k.commitments ≠ [] ∧ k.proof.S = 0

/-- The message passes round 2 at party `self` with commitments `comms`. -/
def Valid2 (self : ID) (comms : GoMap (Exponent G)) (k : ID) (v : Option (Message G)) : Prop :=
  ∃ m kg c, v = some m ∧ m.keyGen2 = some kg ∧ comms.get? k = some c ∧ kg.share • (base : G) = Spec.evalAt c self.val

theorem getElem?_zero_iff {α : Type} {l : List α} : (∃ c, l[0]? = some c) ↔ l ≠ [] := by
  cases l <;> simp

theorem loop1 {l : List (ID × Option (Message G))} {r r' : Round G} {sum : Exponent G} (hs : r.stage = .r1)
    (hsum : r.commitmentsSum = some sum) (hl : ∀ k v, (k, v) ∈ l → ∃ m, v = some m ∧ m.header.fromID = k) :
    processLoop (impl sha) l r = .ok r' ↔ (∀ k v, (k, v) ∈ l → Valid1 v) ∧
      r' = { r with commitments := l.foldl (fun a e => a.set e.1 (commOf e.2)) r.commitments,
                    commitmentsSum := some (l.foldl (fun a e => addOrKeep a (commOf e.2)) sum) } := by
  induction l generalizing r sum with
  | nil =>
    simp only [processLoop, Outcome.ok.injEq, List.not_mem_nil, false_imp_iff, implies_true, true_and, List.foldl_nil]
    rw [← hsum]
    exact eq_comm
  | cons a l ih =>
    obtain ⟨k, v⟩ := a
    obtain ⟨m, rfl, rfl⟩ := hl k v List.mem_cons_self
    have hl' : ∀ k v, (k, v) ∈ l → ∃ m, v = some m ∧ m.header.fromID = k := fun k v h => hl k v (List.mem_cons_of_mem _ h)
    unfold processLoop
    have himpl : (impl sha).processMessage r (some m) = process1 sha r (some m) := by simp only [impl]; rw [hs]
    rw [himpl]
    constructor
    · intro h
      cases hp : process1 sha r (some m) with
      | ok r₁ =>
        rw [hp] at h
        obtain ⟨m', kg, c, sum', h1, h2, h3, h4, h5, rfl⟩ := process1_ok.mp hp
        cases h1
        rw [hsum] at h5
        cases h5
        obtain ⟨h6, h7⟩ := (ih (r := { r with commitments := r.commitments.set m.header.fromID kg.commitments, commitmentsSum := some (addOrKeep sum kg.commitments) }) (sum := addOrKeep sum kg.commitments) hs rfl hl').mp h
        refine ⟨?_, ?_⟩
        · intro k v hkv
          rcases List.mem_cons.mp hkv with hkv | hkv
          · cases hkv
            exact ⟨m, kg, rfl, h2, getElem?_zero_iff.mp ⟨c, h3⟩, h4⟩
          · exact h6 k v hkv
        · rw [h7]
          simp [commOf, h2]
      | err x => rw [hp] at h; cases h
      | panic => rw [hp] at h; cases h
    · rintro ⟨h1, rfl⟩
      obtain ⟨m', kg, h2, h3, h4, h5⟩ := h1 _ _ List.mem_cons_self
      cases h2
      obtain ⟨c, hc⟩ := getElem?_zero_iff.mpr h4
      rw [process1_ok.mpr ⟨m, kg, c, sum, rfl, h3, hc, h5, hsum, rfl⟩]
      refine (ih (r := { r with commitments := r.commitments.set m.header.fromID kg.commitments, commitmentsSum := some (addOrKeep sum kg.commitments) }) (sum := addOrKeep sum kg.commitments) hs rfl hl').mpr
        ⟨fun k v h => h1 k v (List.mem_cons_of_mem _ h), ?_⟩
      simp [commOf, h3]

theorem loop2 {l : List (ID × Option (Message G))} {r r' : Round G} (hs : r.stage = .r2) (h0 : r.selfID ≠ 0)
    (hl : ∀ k v, (k, v) ∈ l → ∃ m, v = some m ∧ m.header.fromID = k) :
    processLoop (impl sha) l r = .ok r' ↔ (∀ k v, (k, v) ∈ l → Valid2 r.selfID r.commitments k v) ∧
      r' = { r with secret := r.secret + (l.map fun e => shareOf e.2).sum } := by
  induction l generalizing r with
  | nil => simp [processLoop, eq_comm]
  | cons a l ih =>
    obtain ⟨k, v⟩ := a
    obtain ⟨m, rfl, rfl⟩ := hl k v List.mem_cons_self
    have hl' : ∀ k v, (k, v) ∈ l → ∃ m, v = some m ∧ m.header.fromID = k := fun k v h => hl k v (List.mem_cons_of_mem _ h)
    unfold processLoop
    have himpl : (impl sha).processMessage r (some m) = process2 r (some m) := by simp only [impl]; rw [hs]
    rw [himpl]
    constructor
    · intro h
      cases hp : process2 r (some m) with
      | ok r₁ =>
        rw [hp] at h
        obtain ⟨m', kg, c, h1, h2, h3, _, h4, rfl⟩ := process2_ok.mp hp
        cases h1
        obtain ⟨h6, h7⟩ := (ih (r := { r with secret := r.secret + kg.share }) hs h0 hl').mp h
        refine ⟨?_, ?_⟩
        · intro k v hkv
          rcases List.mem_cons.mp hkv with hkv | hkv
          · cases hkv
            exact ⟨m, kg, c, rfl, h2, h3, h4⟩
          · exact h6 k v hkv
        · rw [h7]
          simp [shareOf, h2, add_assoc]
      | err x => rw [hp] at h; cases h
      | panic => rw [hp] at h; cases h
    · rintro ⟨h1, rfl⟩
      obtain ⟨m', kg, c, h2, h3, h4, h5⟩ := h1 _ _ List.mem_cons_self
      cases h2
      rw [process2_ok.mpr ⟨m, kg, c, rfl, h3, h4, h0, h5, rfl⟩]
      refine (ih (r := { r with secret := r.secret + kg.share }) hs h0 hl').mpr
        ⟨fun k v h => h1 k v (List.mem_cons_of_mem _ h), ?_⟩
      simp [shareOf, h3, add_assoc]

theorem loop0 {l : List (ID × Option (Message G))} {r : Round G} (hs : r.stage = .r0) :
    processLoop (impl sha) l r = .ok r := by
  induction l with
  | nil => rfl
  | cons a l ih =>
    obtain ⟨k, v⟩ := a
    unfold processLoop
    have : (impl sha).processMessage r v = .ok r := by simp only [impl]; rw [hs]
    rw [this]
    exact ih

/-- A map filled from a list of entries with distinct keys. -/
theorem get?_foldl_set {V W : Type} (f : W → V) (l : List (ID × W)) (m : GoMap V) (hnd : (l.map Prod.fst).Nodup) (k : ID) :
    (l.foldl (fun a e => a.set e.1 (f e.2)) m).get? k =
      match l.find? (fun e => e.1 = k) with
      | some e => some (f e.2)
      | none => m.get? k := by
  induction l generalizing m with
  | nil => rfl
  | cons a l ih =>
    rw [List.foldl_cons, ih _ (List.nodup_cons.mp hnd).2, List.find?_cons]
    by_cases hk : a.1 = k
    · have : l.find? (fun e => e.1 = k) = none := by
        rw [List.find?_eq_none]
        intro e he hc
        rw [decide_eq_true_eq] at hc
        exact (List.nodup_cons.mp hnd).1 (List.mem_map.mpr ⟨e, he, hc.trans hk.symm⟩)
      rw [this]
      simp [hk, GoMap.get?_set]
    · rw [show decide (a.1 = k) = false from by simpa using hk]
      simp only []
      cases l.find? (fun e => e.1 = k) with
      | some e => rfl
      | none => simp only []; rw [GoMap.get?_set_ne _ _ (fun h => hk h.symm)]

theorem find?_of_mem {W : Type} {l : List (ID × W)} (hnd : (l.map Prod.fst).Nodup) {k : ID} {w : W} (h : (k, w) ∈ l) :
    l.find? (fun e => e.1 = k) = some (k, w) := by
  induction l with
  | nil => cases h
  | cons a l ih =>
    rw [List.find?_cons]
    rcases List.mem_cons.mp h with rfl | h
    · simp
    · have : a.1 ≠ k := by
        rintro rfl
        exact (List.nodup_cons.mp hnd).1 (List.mem_map.mpr ⟨_, h, rfl⟩)
      rw [show decide (a.1 = k) = false from by simpa using this]
      exact ih (List.nodup_cons.mp hnd).2 h

theorem find?_of_not_mem {W : Type} {l : List (ID × W)} {k : ID} (h : k ∉ l.map Prod.fst) : l.find? (fun e => e.1 = k) = none := by
  rw [List.find?_eq_none]
  intro e he hc
  rw [decide_eq_true_eq] at hc
  exact h (List.mem_map.mpr ⟨e, he, hc⟩)

theorem addOrKeep_length (s c : Exponent G) : (addOrKeep s c).length = s.length := by
  unfold addOrKeep
  split <;> rename_i h
  · simp [h]
  · rfl

theorem foldl_addOrKeep_length {W : Type} (f : W → Exponent G) (l : List W) (s : Exponent G) :
    (l.foldl (fun a e => addOrKeep a (f e)) s).length = s.length := by
  induction l generalizing s with
  | nil => rfl
  | cons a l ih => rw [List.foldl_cons, ih, addOrKeep_length]

theorem addOrKeep_comm (s a b : Exponent G) : addOrKeep (addOrKeep s a) b = addOrKeep (addOrKeep s b) a := by
  unfold addOrKeep
  by_cases ha : s.length = a.length <;> by_cases hb : s.length = b.length <;> simp [ha, hb] <;>
    simp_all
  · apply List.ext_getElem
    · simp [ha]
    · intro i h1 h2
      simp only [List.getElem_zipWith]
      abel

theorem foldl_addOrKeep_perm {W : Type} (f : W → Exponent G) {l l' : List W} (h : l.Perm l') (s : Exponent G) :
    l.foldl (fun a e => addOrKeep a (f e)) s = l'.foldl (fun a e => addOrKeep a (f e)) s :=
  h.foldl_eq' (fun x _ y _ z => addOrKeep_comm z (f x) (f y)) s

theorem evalAt_addOrKeep (s c : Exponent G) (x : Scalar) :
    Spec.evalAt (addOrKeep s c) x = Spec.evalAt s x + (if s.length = c.length then Spec.evalAt c x else 0) := by
  unfold addOrKeep
  split <;> rename_i h
  · rw [evalAt_zipWith_add h]
  · rw [add_zero]

theorem evalAt_foldl_addOrKeep {W : Type} (f : W → Exponent G) (l : List W) (s : Exponent G) (x : Scalar) :
    Spec.evalAt (l.foldl (fun a e => addOrKeep a (f e)) s) x =
      Spec.evalAt s x + (l.map fun e => if s.length = (f e).length then Spec.evalAt (f e) x else 0).sum := by
  induction l generalizing s with
  | nil => simp
  | cons a l ih =>
    rw [List.foldl_cons, ih, evalAt_addOrKeep, addOrKeep_length, List.map_cons, List.sum_cons, add_assoc]

/-- The first coefficient of a non-empty list is its value at 0. -/
theorem evalAt_zero (c : G) (cs : List G) : Spec.evalAt (c :: cs) (0 : Scalar) = c := by
  rw [evalAt_cons]; simp

theorem head_eq_evalAt {s : Exponent G} {g : G} (h : s[0]? = some g) : g = Spec.evalAt s (0 : Scalar) := by
  cases s with
  | nil => cases h
  | cons a s => simp at h; rw [evalAt_zero, h]

section Inv

variable (sha) (r₀ : Round G)

/-- The polynomial of the session was drawn by a call of `ProcessAll` that broadcast its commitments. -/
def Drawn (h : List (Op G × Ret G)) (f : Poly) : Prop :=
  ∃ ord coins, f = coinPoly r₀.threshold coins ∧ (Op.processAll ord coins, Ret.messages [Message.newKeyGen1 r₀.selfID
    ⟨0, coins (r₀.threshold.toNat + 1)⟩ (Exponent.ofPoly f)]) ∈ h

/-- The round object in round 1. -/
def round1 (f : Poly) : Round G :=
  { r₀ with stage := .r1, secret := Spec.evalAt f r₀.selfID.val, polynomial := some f, commitmentsSum := some (Exponent.ofPoly f) }

/-- The commitments sum after round 1. -/
def sum2 (f : Poly) (l₁ : List (ID × Option (Message G))) : Exponent G :=
  l₁.foldl (fun a e => addOrKeep a (commOf e.2)) (Exponent.ofPoly f)

/-- The commitments of the others. -/
def comms2 (l₁ : List (ID × Option (Message G))) : GoMap (Exponent G) :=
  l₁.foldl (fun a e => a.set e.1 (commOf e.2)) []

/-- The round object in round 2. -/
def round2 (f : Poly) (l₁ : List (ID × Option (Message G))) : Round G :=
  { r₀ with stage := .r2, secret := Spec.evalAt f r₀.selfID.val, polynomial := some (Poly.reset f), commitmentsSum := some (sum2 f l₁), commitments := comms2 l₁ }

/-- The output of a successful session. -/
def output3 (f : Poly) (l₁ l₂ : List (ID × Option (Message G))) (shares : GoMap G) (gk : G) : Output G where
  pub := some ⟨r₀.partyIDs, r₀.threshold, shares, gk⟩
  secretKey := some (SecretShare.new r₀.selfID (Spec.evalAt f r₀.selfID.val + (l₂.map fun e => shareOf e.2).sum))

/-- The round object while round `n` is running. -/
def Running (n : Nat) (h : List (Op G × Ret G)) (r : Round G) : Prop :=
  match n with
  | 0 => r = r₀
  | 1 => ∃ f, r₀.selfID ≠ 0 ∧ r₀.threshold ≠ 65535 ∧ Drawn r₀ h f ∧ r = round1 r₀ f
  | 2 => ∃ f l₁, r₀.selfID ≠ 0 ∧ r₀.threshold ≠ 65535 ∧ Drawn r₀ h f ∧ Ready (impl sha) r₀ h 1 l₁ ∧
      (∀ k v, (k, v) ∈ l₁ → Valid1 v) ∧ (∀ id ∈ r₀.partyIDs, id ≠ 0) ∧
      (∃ ord coins, (Op.processAll ord coins, Ret.messages (dealt r₀.selfID f r₀.partyIDs)) ∈ h) ∧ r = round2 r₀ f l₁
  | _ => False

/-- The round object after success. -/
def Finished (h : List (Op G × Ret G)) (r : Round G) : Prop :=
  ∃ f l₁ l₂ shares gk, r₀.threshold ≠ 65535 ∧ Drawn r₀ h f ∧ Ready (impl sha) r₀ h 1 l₁ ∧
    (∀ k v, (k, v) ∈ l₁ → Valid1 v) ∧ (∀ id ∈ r₀.partyIDs, id ≠ 0) ∧ Ready (impl sha) r₀ h 2 l₂ ∧
    (∀ k v, (k, v) ∈ l₂ → Valid2 r₀.selfID (comms2 l₁) k v) ∧
    Exponent.evaluateMulti (sum2 f l₁) r₀.partyIDs [] = .ok shares ∧ (sum2 f l₁)[0]? = some gk ∧
    r.output = output3 r₀ f l₁ l₂ shares gk ∧ r.secret = 0 ∧ r.polynomial = some (Poly.reset (Poly.reset f)) ∧ r.hasOutput = false

theorem Drawn.mono {r₀ : Round G} {h h' : List (Op G × Ret G)} {f : Poly} (hd : Drawn r₀ h f) : Drawn r₀ (h ++ h') f := by
  obtain ⟨ord, coins, h1, h2⟩ := hd
  exact ⟨ord, coins, h1, List.mem_append_left _ h2⟩

theorem ready_mono {R : Type} {impl : RoundImpl G R} {r₀ : R} {h h' : List (Op G × Ret G)} {n : Nat}
    {l : List (ID × Option (Message G))} (hr : Ready impl r₀ h n l) : Ready impl r₀ (h ++ h') n l :=
  ⟨hr.keys, hr.first, fun h0 k v hk => by
    obtain ⟨m, h1, h2, h3, h4, h5⟩ := hr.later h0 k v hk
    exact ⟨m, h1, h2, h3, List.mem_append_left _ h4, h5⟩⟩

theorem reset_reset (f : Poly) : Poly.reset (Poly.reset f) = Poly.reset f := by simp [Poly.reset]

variable {sha r₀}

/-- A session started by `NewKeygenState` with a duplicate-free list. -/
structure Start (r₀ : Round G) (me : ID) (ids : IDSlice) (t : UInt16) : Prop where
  new : newRound me ids t = .ok r₀
  nodup : ids.Nodup

theorem Start.eq {self : ID} {ids : IDSlice} {t : UInt16} (hs : Start r₀ self ids t) :
    r₀ = { stage := .r0, selfID := self, partyIDs := ids, threshold := t, secret := 0, polynomial := none, commitmentsSum := none, commitments := [], hasOutput := true, output := {} } ∧
      t ≠ 0 ∧ t ≤ IDSlice.N ids - 1 ∧ IDSlice.contains ids self = true := by
  have h := hs.new
  unfold newRound newBaseRound at h
  simp only [bind_eq_ok, failIf_eq_ok, pure_def, Outcome.ok.injEq] at h
  obtain ⟨_, h1, _, h2, _, h3, h4⟩ := h
  exact ⟨h4.symm, h1, UInt16.not_lt.mp h2, by simpa using h3⟩

theorem running {self : ID} {ids : IDSlice} {t : UInt16} (hs : Start r₀ self ids t) {timeout now : Nat}
    {h : List (Op G × Ret G)} {s : State G (Round G)} (hh : Hist (impl sha) (newBaseState (impl sha) r₀ timeout now) h s) :
    (s.done = false → Running sha r₀ s.roundNumber h s.round) ∧ (s.done = true → s.err = none → Finished sha r₀ h s.round) := by
  obtain ⟨hr, ht0, htn, hc⟩ := hs.eq
  have hstage : r₀.stage = .r0 := by rw [hr]
  have hcomm : r₀.commitments = [] := by rw [hr]
  have hout : r₀.hasOutput = true := by rw [hr]
  have hselfeq : (impl sha).selfID r₀ = self := by rw [hr]; rfl
  have hidseq : (impl sha).partyIDs r₀ = ids := by rw [hr]; rfl
  have nonzero : ∀ {r : Round G} {x}, generate1 r = .ok x → r.selfID ≠ 0 → ∀ id ∈ r.partyIDs, id ≠ 0 := by
    intro r x hg h0 id hid
    obtain ⟨r', out⟩ := x
    obtain ⟨_, _, h1, _⟩ := generate1_ok.mp hg
    by_cases he : id = r.selfID
    · rw [he]; exact h0
    · exact h1 id hid he
  have hl : ∀ {h : List (Op G × Ret G)} {n : Nat} {l}, n ≠ 0 → Ready (impl sha) r₀ h n l → ∀ k v, (k, v) ∈ l →
      ∃ m, v = some m ∧ m.header.fromID = k := by
    intro h n l hn hr k v hk
    obtain ⟨m, h1, h2, _⟩ := hr.later hn k v hk
    exact ⟨m, h1, h2⟩
  refine hist_rounds (impl_stable sha) (by rw [hidseq]; exact hs.nodup)
    (by rw [hidseq, hselfeq]; exact IDSlice.contains_sound hc) (Running sha r₀) (Finished sha r₀) rfl ?_ ?_ ?_ ?_ hh
  · intro n h x r hrun
    match n, hrun with
    | 0, hrun => exact hrun
    | 1, ⟨f, h1, h2, h3, h4⟩ => exact ⟨f, h1, h2, h3.mono, h4⟩
    | 2, ⟨f, l₁, h1, h2, h3, h4, h5, h6, ⟨ord, coins, h7⟩, h8⟩ =>
      exact ⟨f, l₁, h1, h2, h3.mono, ready_mono h4, h5, h6, ⟨ord, coins, List.mem_append_left _ h7⟩, h8⟩
  · rintro h x r ⟨f, l₁, l₂, shares, gk, h1, h2, h3, h4, h5, h6, h7, h8, h9⟩
    exact ⟨f, l₁, l₂, shares, gk, h1, h2.mono, ready_mono h3, h4, h5, ready_mono h6, h7, h8, h9⟩
  · intro h n l ord coins r r₁ r₂ r₃ out hrun hready hloop hgen hnext
    match n, hrun with
    | 0, hrun =>
      have hrun : r = r₀ := hrun
      subst hrun
      rw [loop0 hstage] at hloop
      cases hloop
      simp only [impl, hstage] at hgen
      obtain ⟨h1, h2, rfl, rfl⟩ := generate0_ok.mp hgen
      simp only [impl, hstage, Option.some.injEq] at hnext
      subst hnext
      exact ⟨_, h2, h1, ⟨ord, coins, rfl, List.mem_append_right _ List.mem_cons_self⟩, rfl⟩
    | 1, ⟨f, h1, h2, h3, h4⟩ =>
      subst h4
      obtain ⟨h5, rfl⟩ := (loop1 rfl rfl (hl (by omega) hready)).mp hloop
      have hgen : generate1 _ = _ := hgen
      have hnz := nonzero hgen h1
      obtain ⟨poly, h6, h7, rfl, rfl⟩ := generate1_ok.mp hgen
      cases h6
      simp only [impl, round1, Option.some.injEq] at hnext
      subst hnext
      refine ⟨f, l, h1, h2, h3.mono, ready_mono hready, h5, hnz, ⟨ord, coins, List.mem_append_right _ List.mem_cons_self⟩, ?_⟩
      simp only [round2, sum2, comms2, hcomm]
    | 2, ⟨f, l₁, h1, h2, h3, h4, h5, h6, h7, h8⟩ =>
      subst h8
      obtain ⟨_, rfl⟩ := (loop2 (r := round2 r₀ f l₁) rfl h1 (hl (by omega) hready)).mp hloop
      have hgen : generate2 _ = _ := hgen
      obtain ⟨_, _, _, _, _, _, _, _, rfl, _⟩ := generate2_ok.mp hgen
      cases hnext
  · intro h n l ord coins r r₁ r₂ r₃ out hrun hready hloop hgen hnext hreset
    match n, hrun with
    | 0, hrun =>
      have hrun : r = r₀ := hrun
      subst hrun
      rw [loop0 hstage] at hloop
      cases hloop
      simp only [impl, hstage] at hgen
      obtain ⟨h1, h2, rfl, rfl⟩ := generate0_ok.mp hgen
      simp [impl, hstage] at hnext
    | 1, ⟨f, h1, h2, h3, h4⟩ =>
      subst h4
      obtain ⟨h5, rfl⟩ := (loop1 rfl rfl (hl (by omega) hready)).mp hloop
      have hgen : generate1 _ = _ := hgen
      obtain ⟨poly, h6, h7, rfl, rfl⟩ := generate1_ok.mp hgen
      cases hnext
    | 2, ⟨f, l₁, h1, h2, h3, h4, h5, h6, h7, h8⟩ =>
      subst h8
      obtain ⟨h9, rfl⟩ := (loop2 (r := round2 r₀ f l₁) rfl h1 (hl (by omega) hready)).mp hloop
      have hgen : generate2 _ = _ := hgen
      obtain ⟨sum, shares, gk, e1, _, e2, e3, _, rfl, _⟩ := generate2_ok.mp hgen
      cases e1
      obtain ⟨p, c, e4, _, rfl⟩ := reset_eq.mp (show reset _ = _ from hreset)
      cases e4
      exact ⟨f, l₁, l, shares, gk, h2, h3.mono, ready_mono h4, h5, h6, ready_mono hready, h9, e2, e3, rfl, rfl, rfl, rfl⟩

end Inv

end Verif.Keygen
