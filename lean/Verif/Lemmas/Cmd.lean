import Verif.Lemmas.Stage
import Verif.Props.SignNet

/-!
Lemmas about the command line programs.
-/

namespace Verif

open State Polynomial

variable {G : Type} [RGroup G] {sha : Sha512}

/-- The parties `1, …, n`. -/
def Spec.firstIDs (n : Nat) : List ID := (List.range' 1 n).map UInt16.ofNat

theorem firstIDs_length (n : Nat) : (Spec.firstIDs n).length = n := by simp [Spec.firstIDs]

theorem firstIDs_lt {n : Nat} (hn : n < 65536) : (Spec.firstIDs n).Pairwise (· < ·) := by
  unfold Spec.firstIDs
  rw [List.pairwise_map]
  refine List.Pairwise.imp_of_mem ?_ (List.pairwise_lt_range' (s := 1) (n := n) (step := 1))
  intro a b ha hb hab
  rw [List.mem_range'_1] at ha hb
  rw [UInt16.lt_iff_toNat_lt, UInt16.toNat_ofNat', UInt16.toNat_ofNat']
  omega

theorem firstIDs_sorted {n : Nat} (hn : n < 65536) : (Spec.firstIDs n).Pairwise (· ≤ ·) :=
  (firstIDs_lt hn).imp fun h => UInt16.le_of_lt h

theorem firstIDs_nodup {n : Nat} (hn : n < 65536) : (Spec.firstIDs n).Nodup :=
  (firstIDs_lt hn).imp fun h => by rintro rfl; exact UInt16.lt_irrefl _ h

theorem mem_firstIDs {n : Nat} (hn : n < 65536) {i : ID} : i ∈ Spec.firstIDs n ↔ 1 ≤ i.toNat ∧ i.toNat ≤ n := by
  unfold Spec.firstIDs
  rw [List.mem_map]
  constructor
  · rintro ⟨k, hk, rfl⟩
    rw [List.mem_range'_1] at hk
    rw [UInt16.toNat_ofNat']
    omega
  · rintro ⟨h1, h2⟩
    exact ⟨i.toNat, by rw [List.mem_range'_1]; omega, UInt16.ofNat_toNat⟩

theorem firstIDs_zero {n : Nat} (hn : n < 65536) : (0 : ID) ∉ Spec.firstIDs n := by
  rw [mem_firstIDs hn]
  simp

theorem new_of_sorted {l : List ID} (h : l.Pairwise (· ≤ ·)) : IDSlice.new l = l :=
  List.Perm.eq_of_pairwise (fun _ _ _ _ h1 h2 => UInt16.le_antisymm h1 h2) (IDSlice.new_sorted l) h (IDSlice.new_perm l)

theorem generateSet_eq {n : UInt16} (hn : n.toNat < 65535) : generateSet n 65536 = some (Spec.firstIDs n.toNat) := by
  unfold generateSet
  rw [Props.C09_newPartySlice_partial n hn 65536 (by omega)]
  rw [Option.map_some, show (List.range' 1 n.toNat).map UInt16.ofNat = Spec.firstIDs n.toNat from rfl, new_of_sorted (firstIDs_sorted n.toNat_lt)]

theorem generateSet_diverges : generateSet 65535 65536 = none := by
  unfold generateSet
  rw [Props.C09_newPartySlice_65535_diverges]
  rfl

namespace GoMap

variable {V : Type}

theorem get?_map_self (f : ID → V) {l : List ID} {i : ID} (hi : i ∈ l) : GoMap.get? (l.map fun i => (i, f i)) i = some (f i) := by
  induction l with
  | nil => cases hi
  | cons a l ih =>
    rw [List.map_cons, get?]
    by_cases h : a = i
    · rw [if_pos h, h]
    · rw [if_neg h]
      exact ih ((List.mem_cons.mp hi).resolve_left fun h' => h h'.symm)

theorem keys_map_self (f : ID → V) (l : List ID) : GoMap.keys (l.map fun i => (i, f i)) = l := by
  unfold keys
  rw [List.map_map]
  exact List.map_id l

/-- A map is determined by the list of its keys and its lookups. -/
theorem eq_map_self {m : GoMap V} (hwf : m.WF) {l : List ID} (hl : m.keys = l) (f : ID → V) (h : ∀ i ∈ l, m.get? i = some (f i)) :
    m = l.map fun i => (i, f i) := by
  subst hl
  unfold keys
  rw [List.map_map]
  conv_lhs => rw [← List.map_id m]
  apply List.map_congr_left
  rintro ⟨k, v⟩ hkv
  have := (get?_eq_some_iff hwf).mpr hkv
  rw [h k (List.mem_map.mpr ⟨_, hkv, rfl⟩)] at this
  rw [Function.comp_apply, Option.some.inj this]
  rfl

end GoMap

theorem evaluateMulti_keys (p : Exponent G) {l : List ID} (hl : l.Nodup) {m m' : GoMap G} (hd : ∀ i ∈ l, i ∉ m.keys)
    (h : Exponent.evaluateMulti p l m = .ok m') : m'.keys = m.keys ++ l := by
  induction l generalizing m with
  | nil => simp only [Exponent.evaluateMulti, Outcome.ok.injEq] at h; rw [← h, List.append_nil]
  | cons a l ih =>
    rw [List.nodup_cons] at hl
    simp only [Exponent.evaluateMulti, Outcome.bind_eq_ok] at h
    obtain ⟨x, _, e, _, h⟩ := h
    rw [ih hl.2 (fun i hi => ?_) h, GoMap.keys_set_of_not_mem _ (hd a List.mem_cons_self), List.append_assoc]
    · rfl
    · rw [GoMap.mem_keys_set, not_or]
      exact ⟨fun h => hl.1 (h ▸ hi), hd i (List.mem_cons_of_mem _ hi)⟩

namespace Cmd

@[simp] theorem done_bind {α β : Type} (a : α) (f : α → End β) : (End.done a >>= f) = f a := rfl
@[simp] theorem failed_bind {α β : Type} (c : Complaint) (f : α → End β) : (End.failed c >>= f) = .failed c := rfl
@[simp] theorem crash_bind {α β : Type} (f : α → End β) : (End.crash >>= f) = .crash := rfl
@[simp] theorem hang_bind {α β : Type} (f : α → End β) : (End.hang >>= f) = .hang := rfl
@[simp] theorem usage_bind {α β : Type} (f : α → End β) : (End.usage >>= f) = .usage := rfl

theorem bind_eq_done {α β : Type} {x : End α} {f : α → End β} {b : β} : (x >>= f) = .done b ↔ ∃ a, x = .done a ∧ f a = .done b := by
  cases x <;> simp

theorem ofRes_eq_done {α : Type} {x : GoRes α} {a : α} : End.ofRes x = .done a ↔ x = .ok a := by
  cases x <;> simp [End.ofRes]

theorem deref_eq_done {α : Type} {x : Option α} {a : α} : End.deref x = .done a ↔ x = some a := by
  cases x <;> simp [End.deref]

theorem keygenStates_ok (env : Env) (ids : IDSlice) (t : UInt16) (init : ID → State G (Keygen.Round G)) {l : List ID} (hl : l.Nodup)
    (h : ∀ i ∈ l, Keygen.newKeygenState sha i ids t 0 (env.now i) = .ok (init i)) (acc : GoMap (Option (State G (Keygen.Round G))))
    (hd : ∀ i ∈ l, i ∉ acc.keys) :
    keygenStates sha env ids t l acc = .done (acc ++ l.map fun i => (i, some (init i))) := by
  induction l generalizing acc with
  | nil => simp [keygenStates]
  | cons a l ih =>
    rw [List.nodup_cons] at hl
    rw [keygenStates, h a List.mem_cons_self, End.ofRes, done_bind, ih hl.2 fun i hi => h i (List.mem_cons_of_mem _ hi)]
    · rw [GoMap.set_of_not_mem _ (hd a List.mem_cons_self), List.append_assoc, List.map_cons]; rfl
    · intro i hi
      rw [GoMap.mem_keys_set, not_or]
      exact ⟨fun h => hl.1 (h ▸ hi), hd i (List.mem_cons_of_mem _ hi)⟩

theorem keygenStates_err (env : Env) (ids : IDSlice) (t : UInt16) {a : ID} {l : List ID} {e : GoErr}
    (h : (Keygen.newKeygenState sha a ids t 0 (env.now a) : GoRes (State G (Keygen.Round G))) = .err e)
    (acc : GoMap (Option (State G (Keygen.Round G)))) :
    keygenStates sha env ids t (a :: l) acc = .failed .error := by
  rw [keygenStates, h]
  rfl

omit [RGroup G] in
theorem keygenSecrets_ok (states : GoMap (Option (State G (Keygen.Round G)))) (pub : Public G) (st : ID → State G (Keygen.Round G))
    (sec : ID → SecretShare G) {l : List ID} (hl : l.Nodup) (h : ∀ i ∈ l, states.get? i = some (some (st i)))
    (hw : ∀ i ∈ l, (st i).done = true ∧ (st i).err = none) (hsec : ∀ i ∈ l, (st i).round.output.secretKey = some (sec i))
    (hsh : ∀ i ∈ l, ∃ g, pub.shares.get? i = some g) (acc : GoMap (SecretShare G)) (hd : ∀ i ∈ l, i ∉ acc.keys) :
    keygenSecrets states pub l acc = .done (acc ++ l.map fun i => (i, sec i)) := by
  induction l generalizing acc with
  | nil => simp [keygenSecrets]
  | cons a l ih =>
    rw [List.nodup_cons] at hl
    obtain ⟨g, hg⟩ := hsh a List.mem_cons_self
    have hwait : wait (st a) = .done () := by
      simp [wait, State.waitForError, (hw a List.mem_cons_self).1, (hw a List.mem_cons_self).2]
    rw [keygenSecrets, h a List.mem_cons_self, Option.join_some, End.deref, done_bind, hwait, done_bind, hsec a List.mem_cons_self,
      End.deref, done_bind, hg, End.deref, done_bind]
    rw [ih hl.2 (fun i hi => h i (List.mem_cons_of_mem _ hi)) (fun i hi => hw i (List.mem_cons_of_mem _ hi))
      (fun i hi => hsec i (List.mem_cons_of_mem _ hi)) (fun i hi => hsh i (List.mem_cons_of_mem _ hi))]
    · rw [GoMap.set_of_not_mem _ (hd a List.mem_cons_self), List.append_assoc, List.map_cons]; rfl
    · intro i hi
      rw [GoMap.mem_keys_set, not_or]
      exact ⟨fun h => hl.1 (h ▸ hi), hd i (List.mem_cons_of_mem _ hi)⟩

theorem readSecrets_ok (j : ID → SecretShare.Json) (sec : ID → SecretShare G) {l : List ID} (hl : l.Nodup)
    (h : ∀ i ∈ l, SecretShare.unmarshalJSON (j i) = .ok (sec i)) (acc : GoMap (Option (SecretShare G))) (hd : ∀ i ∈ l, i ∉ acc.keys) :
    readSecrets (l.map fun i => (i, some (j i))) acc = .done (acc ++ l.map fun i => (i, some (sec i))) := by
  induction l generalizing acc with
  | nil => simp [readSecrets]
  | cons a l ih =>
    rw [List.nodup_cons] at hl
    rw [List.map_cons, readSecrets, h a List.mem_cons_self, End.ofRes, done_bind, ih hl.2 fun i hi => h i (List.mem_cons_of_mem _ hi)]
    · rw [GoMap.set_of_not_mem _ (hd a List.mem_cons_self), List.append_assoc, List.map_cons]; rfl
    · intro i hi
      rw [GoMap.mem_keys_set, not_or]
      exact ⟨fun h => hl.1 (h ▸ hi), hd i (List.mem_cons_of_mem _ hi)⟩

theorem signerStates_ok (env : Env) (ids : IDSlice) (secrets : GoMap (Option (SecretShare G))) (pub : Public G) (message : Bytes)
    (sec : ID → SecretShare G) (init : ID → State G (Sign.Round G)) {l : List ID} (hl : l.Nodup)
    (hs : ∀ i ∈ l, secrets.get? i = some (some (sec i)))
    (h : ∀ i ∈ l, Sign.newSignState sha ids (sec i) pub message 0 (env.now i) = .ok (init i)) (acc : GoMap (Option (State G (Sign.Round G))))
    (hd : ∀ i ∈ l, i ∉ acc.keys) :
    signerStates sha env ids secrets pub message l acc = .done (acc ++ l.map fun i => (i, some (init i))) := by
  induction l generalizing acc with
  | nil => simp [signerStates]
  | cons a l ih =>
    rw [List.nodup_cons] at hl
    rw [signerStates, hs a List.mem_cons_self, Option.join_some, End.deref, done_bind]
    simp only [h a List.mem_cons_self]
    rw [ih hl.2 (fun i hi => hs i (List.mem_cons_of_mem _ hi)) fun i hi => h i (List.mem_cons_of_mem _ hi)]
    · rw [GoMap.set_of_not_mem _ (hd a List.mem_cons_self), List.append_assoc, List.map_cons]; rfl
    · intro i hi
      rw [GoMap.mem_keys_set, not_or]
      exact ⟨fun h => hl.1 (h ▸ hi), hd i (List.mem_cons_of_mem _ hi)⟩

end Cmd

namespace Keygen

theorem lockstep {ids : IDSlice} {t : UInt16} (hnd : ids.Nodup) (h0 : (0 : ID) ∉ ids) (ht : t ≠ 65535) (coins : ID → Coins) :
    Lockstep (G := G) ids (honestMsg t coins) (honestOut ids t coins) where
  codec := by
    intro i hi n hn m hm
    have hi0 : i ≠ 0 := fun h => h0 (h ▸ hi)
    match n, hn with
    | 0, _ =>
      rw [honestOut, List.mem_singleton] at hm
      subst hm
      obtain ⟨b, h1, _, h2⟩ := Props.C19_keyGen1 (G := G) i hi0 ⟨0, coins i (t.toNat + 1)⟩ (Exponent.ofPoly (coinPoly t (coins i))) (by
        have h1 := t.toNat_lt
        have h2 : t.toNat ≠ 65535 := fun h => ht (UInt16.toNat_inj.mp h)
        simp only [Exponent.ofPoly, List.length_map, coinPoly_length]
        omega)
      exact ⟨b, h1, h2⟩
    | 1, _ =>
      rw [honestOut, dealt] at hm
      obtain ⟨k, hk, rfl⟩ := List.mem_map.mp hm
      obtain ⟨b, h1, _, h2⟩ := Props.C19_keyGen2 (G := G) i k hi0 (fun h => h0 (h ▸ (List.mem_filter.mp hk).1)) (Spec.evalAt (coinPoly t (coins i)) k.val)
      exact ⟨b, h1, h2⟩
  once := by
    intro i hi j hj hne n hn
    match n, hn with
    | 0, _ => rfl
    | 1, _ =>
      rw [honestOut, dealt, List.filter_map, List.filter_filter]
      have : ids.filter (fun a => ((fun m : Message G => decide (m.header.toID = 0 ∨ m.header.toID = i)) ∘
          fun id => Message.newKeyGen2 j id (Spec.evalAt (coinPoly t (coins j)) id.val)) a && decide (a ≠ j)) = [i] := by
        rw [List.filter_congr (q := fun a => decide (a = i))]
        · rw [List.filter_eq, List.count_eq_one_of_mem hnd hi]; rfl
        · intro a ha
          have ha0 : a ≠ 0 := fun h => h0 (h ▸ ha)
          show (decide (a = 0 ∨ a = i) && decide (a ≠ j)) = decide (a = i)
          by_cases hai : a = i
          · subst hai; simp [Ne.symm hne]
          · simp [hai, ha0]
      rw [this]
      rfl

end Keygen

namespace Sign

theorem lockstep {ids : IDSlice} (h0 : (0 : ID) ∉ ids) (message : Bytes) (F : Scalar[X]) (coins : ID → Coins) :
    Lockstep (G := G) ids (honestMsg G sha ids message F coins) (honestOut G sha ids message F coins) where
  codec := by
    intro i hi n hn m hm
    have hi0 : i ≠ 0 := fun h => h0 (h ▸ hi)
    rw [honestOut, if_pos hn, List.mem_singleton] at hm
    subst hm
    match n, hn with
    | 0, _ =>
      obtain ⟨b, h1, _, h2⟩ := Props.C19_sign1 (G := G) i hi0 (honestD coins i) (honestE coins i)
      exact ⟨b, h1, h2⟩
    | 1, _ =>
      obtain ⟨b, h1, _, h2⟩ := Props.C19_sign2 (G := G) i hi0 (honestZ (G := G) sha ids message F coins i)
      exact ⟨b, h1, h2⟩
  once := by
    intro i hi j hj hne n hn
    rw [honestOut, if_pos hn]
    match n, hn with
    | 0, _ => rfl
    | 1, _ => rfl

end Sign

end Verif
