import Verif.Spec.Life
import Verif.Props.SignView
import Verif.Props.Domain

/-!
C100: the messages of all honest signers in all their sessions can be made up from public data, given the choice of hash values.
-/

namespace Verif.Props

open State Sign

variable {G : Type} [RGroup G] {sha : Sha512}

theorem reprogram_of_mem {table : List (Bytes × Bytes)} {ht : ∀ p ∈ table, p.2.length = 64} (hnd : (table.map Prod.fst).Nodup) {k v : Bytes}
    (h : (k, v) ∈ table) : (Spec.reprogram sha table ht).sum k = v := by
  show (match table.find? fun p => p.1 == k with
    | some p => p.2
    | none => sha.sum k) = v
  clear ht
  induction table with
  | nil => cases h
  | cons p l ih =>
    rw [List.map_cons, List.nodup_cons] at hnd
    rcases List.mem_cons.mp h with rfl | h
    · simp
    · have : p.1 ≠ k := fun he => hnd.1 (he ▸ List.mem_map_of_mem (f := Prod.fst) h)
      rw [List.find?_cons_of_neg (by simpa using this)]
      exact ih hnd.2 h

theorem reprogram_of_not_mem {table : List (Bytes × Bytes)} {ht : ∀ p ∈ table, p.2.length = 64} {k : Bytes} (h : k ∉ table.map Prod.fst) :
    (Spec.reprogram sha table ht).sum k = sha.sum k := by
  show (match table.find? fun p => p.1 == k with
    | some p => p.2
    | none => sha.sum k) = sha.sum k
  have : table.find? (fun p => p.1 == k) = none := by
    rw [List.find?_eq_none]
    intro p hp he
    exact h (List.mem_map.mpr ⟨p, hp, by simpa using he⟩)
  rw [this]

/-- A signer whose binding factor and challenge are those of a made-up share sends that share. -/
theorem simulated_of_values {sha' : Sha512} (ids : IDSlice) (hnd : ids.Nodup) (message : Bytes) (secret : SecretShare G) (shares : Public G)
    (hX : shares.shares.get? secret.id = some (secret.secret • base)) (D' E' : ID → G) (z e ρ c : Scalar)
    (hD : D' secret.id = z • base - ρ • e • base - c • Spec.weightedShare shares ids secret.id) (hE : E' secret.id = e • base)
    (q1 : Spec.rho sha' ids message D' E' secret.id = ρ) (q3 : Spec.chal sha' ids message shares.groupKey D' E' = c)
    (timeout now : Nat) (s₀ s : State G (Sign.Round G))
    (h₀ : newSignState sha' ids secret shares message timeout now = .ok s₀) (h : List (Op G × Ret G)) (hh : Hist (Sign.impl sha') s₀ h s)
    (hcoins : ∀ ord co r, (Op.processAll ord co, r) ∈ h → co 0 = z - ρ * e - c * (Spec.weight secret.id ids * secret.secret) ∧ co 1 = e)
    (hothers : ∀ j ∈ ids, j ≠ secret.id → ∀ D E, Spec.GotNonces secret.id ids h j D E → D = D' j ∧ E = E' j) :
    Spec.emitted h <+: [Message.newSign1 secret.id (D' secret.id) (E' secret.id), Message.newSign2 secret.id z] := by
  obtain ⟨hi, _, _⟩ := C42_accepted secret shares ids message timeout now s₀ h₀
  obtain ⟨r₀, hs, rfl⟩ := sign_start_of_new h₀ hnd
  have hY : Spec.weightedShare shares ids secret.id = (Spec.weight secret.id ids * secret.secret) • (base : G) := by
    rw [Spec.weightedShare, hX, mul_smul]; rfl
  have hown : ∀ co : Coins, co 0 = z - ρ * e - c * (Spec.weight secret.id ids * secret.secret) → co 0 • (base : G) = D' secret.id := by
    intro co hc
    rw [hc, hD, hY, sub_smul, sub_smul, mul_smul, mul_smul]
  obtain ⟨n, h1, _⟩ := sent secret shares ids message timeout now r₀ hs hh
  match n, h1 with
  | 0, h1 =>
    rw [show Spec.emitted h = [] from h1]
    exact List.nil_prefix
  | 1, ⟨D, E, h1, ord, co, r, h2, h3, h4⟩ =>
    obtain ⟨g1, g2⟩ := hcoins ord co r h2
    rw [h1, h3, h4, hown co g1, g2, ← hE]
    exact ⟨_, rfl⟩
  | 2, ⟨D, E, z', h1, hcom, h3⟩ =>
    have hag : ∀ j ∈ ids, D j = D' j ∧ E j = E' j := by
      intro j hj
      by_cases hji : j = secret.id
      · obtain ⟨⟨ord, co, k1, k2, k3⟩, _⟩ := hcom
        obtain ⟨g1, g2⟩ := hcoins ord co _ k3
        rw [hji, k1, k2, hown co g1, g2, hE]
        exact ⟨rfl, rfl⟩
      · exact hothers j hj hji _ _ (hcom.2 j hj hji)
    have hB : Spec.commitmentList ids D E = Spec.commitmentList ids D' E' := nonce_congr (message := message) hag
    have hrho : ∀ j, Spec.rho sha' ids message D E j = Spec.rho sha' ids message D' E' j := by
      intro j; unfold Spec.rho; rw [hB]
    have hchal : Spec.chal sha' ids message shares.groupKey D E = Spec.chal sha' ids message shares.groupKey D' E' := by
      unfold Spec.chal Spec.groupNonce
      congr 2
      apply List.map_congr_left
      intro j hj
      unfold Spec.nonce
      rw [hrho, (hag j hj).1, (hag j hj).2]
    rw [Spec.nonce, hrho, hchal, q1, q3, (hag _ hi).1, (hag _ hi).2, hD, hE, hY, mul_smul] at h3
    have hz : z' = z := by
      apply smul_base_injective (G := G)
      rw [h3]
      abel
    rw [h1, hz, (hag _ hi).1, (hag _ hi).2]

/-- The binding factors and the challenge of a session are those of its script. -/
theorem C100_values {A : G} {vs : List (Spec.Script G)} (hf : Spec.Fresh sha A vs)
    (ht : ∀ p ∈ vs.flatMap fun v => v.table sha A, p.2.length = 64) {v : Spec.Script G} (hv : v ∈ vs) :
    (∀ j ∈ v.ids, Spec.rho (Spec.reprogram sha _ ht) v.ids v.message v.D v.E j = v.factor sha j) ∧
    Spec.chal (Spec.reprogram sha _ ht) v.ids v.message A v.D v.E = (Spec.leValue v.b : Scalar) := by
  have hmsg : (Spec.reprogram sha _ ht).sum v.message = sha.sum v.message := reprogram_of_not_mem (hf.message v hv)
  have hrho : ∀ j ∈ v.ids, Spec.rho (Spec.reprogram sha _ ht) v.ids v.message v.D v.E j = v.factor sha j := by
    intro j hj
    unfold Spec.rho Spec.bindingFactor Spec.Script.factor
    rw [bindingInput_congr hmsg]
    by_cases hh : j ∈ v.honest
    · rw [if_pos hh, reprogram_of_mem hf.distinct (v := v.a j)]
      exact List.mem_flatMap.mpr ⟨v, hv, List.mem_append_left _ (List.mem_map.mpr ⟨j, hh, rfl⟩)⟩
    · have := reprogram_of_not_mem (sha := sha) (ht := ht) (hf.others v hv j hj hh)
      unfold Spec.Script.binding at this ⊢
      rw [if_neg hh, this]
  refine ⟨hrho, ?_⟩
  have hR : Spec.groupNonce (Spec.reprogram sha _ ht) v.ids v.message v.D v.E = v.R sha := by
    unfold Spec.groupNonce Spec.Script.R Spec.nonce
    congr 1
    apply List.map_congr_left
    intro j hj
    rw [hrho j hj]
  unfold Spec.chal Spec.challenge
  rw [hR]
  congr 2
  exact reprogram_of_mem hf.distinct (List.mem_flatMap.mpr ⟨v, hv, List.mem_append_right _ (List.mem_singleton.mpr rfl)⟩)

/-- C100: any number of sessions of any number of honest signers, at the same time or one after the other, whatever the others send and whatever
the schedule.  With the hash function of the scripts, every honest signer sends in every session the messages of the script, or fewer, if its nonces
are `z - ρ e - c λ x` and `e` and the commitments it accepts are those of the script.  All of the scripts is public; the secret shares are in the
first nonces only. -/
theorem C100_life (shares : Public G) (secret : ID → SecretShare G) (hid : ∀ i, (secret i).id = i) (vs : List (Spec.Script G))
    (hX : ∀ v ∈ vs, ∀ i ∈ v.honest, shares.shares.get? i = some ((secret i).secret • base))
    (hmade : ∀ v ∈ vs, v.Made (Spec.weightedShare shares)) (hf : Spec.Fresh sha shares.groupKey vs)
    (ht : ∀ p ∈ vs.flatMap fun v => v.table sha shares.groupKey, p.2.length = 64)
    (v : Spec.Script G) (hv : v ∈ vs) (hnd : v.ids.Nodup) (i : ID) (hi : i ∈ v.honest) (timeout now : Nat) (s₀ s : State G (Sign.Round G))
    (h₀ : newSignState (Spec.reprogram sha _ ht) v.ids (secret i) shares v.message timeout now = .ok s₀) (h : List (Op G × Ret G))
    (hh : Hist (Sign.impl (Spec.reprogram sha _ ht)) s₀ h s)
    (hcoins : ∀ ord co r, (Op.processAll ord co, r) ∈ h →
      co 0 = v.z i - (Spec.leValue (v.a i) : Scalar) * v.e i - (Spec.leValue v.b : Scalar) * (Spec.weight i v.ids * (secret i).secret) ∧ co 1 = v.e i)
    (hothers : ∀ j ∈ v.ids, j ≠ i → ∀ D E, Spec.GotNonces i v.ids h j D E → D = v.D j ∧ E = v.E j) :
    Spec.emitted h <+: [Message.newSign1 i (v.D i) (v.E i), Message.newSign2 i (v.z i)] := by
  obtain ⟨hin, _, _⟩ := C42_accepted (secret i) shares v.ids v.message timeout now s₀ h₀
  rw [hid] at hin
  obtain ⟨q1, q2⟩ := C100_values hf ht hv
  have hfac : v.factor sha i = (Spec.leValue (v.a i) : Scalar) := by unfold Spec.Script.factor; rw [if_pos hi]
  obtain ⟨m1, m2⟩ := hmade v hv i hi
  have := simulated_of_values v.ids hnd v.message (secret i) shares (by rw [hid]; exact hX v hv i hi) v.D v.E (v.z i) (v.e i) (Spec.leValue (v.a i)) (Spec.leValue v.b)
    (by rw [hid, m1]; rfl) (by rw [hid]; exact m2) (by rw [hid, q1 i hin, hfac]) q2 timeout now s₀ s h₀ h hh (by rw [hid]; exact hcoins)
    (by rw [hid]; exact hothers)
  rw [hid] at this
  exact this

/-- C100: once the commitments of an honest signer are known, every binding factor and every challenge is still possible, with exactly one signature
share. -/
theorem C100_hidden (Y D : G) (e : Scalar) (a b : Bytes) : ∃! z : Scalar, D = Spec.simulatedD Y z e a b := by
  refine ⟨dlog (D + (Spec.leValue a : Scalar) • e • base + (Spec.leValue b : Scalar) • Y), ?_, ?_⟩
  · show D = dlog _ • base - _ - _
    rw [dlog_spec]
    abel
  · intro z hz
    apply smul_base_injective (G := G)
    rw [dlog_spec, hz, Spec.simulatedD]
    abel

theorem card_le_of_injective {α : Type} (f : α → Bytes) (hf : Function.Injective f) (Q : Finset Bytes) : {x | f x ∈ Q}.ncard ≤ Q.card := by
  have h1 : (f '' {x | f x ∈ Q}).ncard = {x | f x ∈ Q}.ncard := Set.ncard_image_of_injective _ hf
  rw [← h1, ← Set.ncard_coe_finset]
  refine Set.ncard_le_ncard ?_ Q.finite_toSet
  rintro _ ⟨x, hx, rfl⟩
  exact hx

/-- C100: whatever the others answer, the strings hashed for the binding factors of a new session are among `n` given strings for at most `n` of all
the signature shares that can be chosen. -/
theorem C100_binding_fresh (Y : G) (e : Scalar) (a b : Bytes) (ids : List ID) (message : Bytes) (i : ID) (hi : i ∈ ids) (D E : G → ID → G)
    (hD : ∀ x, D x i = x) (j : ID) (Q : Finset Bytes) :
    {z : Scalar | Spec.bindingInput sha j message (Spec.commitmentList ids (D (Spec.simulatedD Y z e a b)) (E (Spec.simulatedD Y z e a b))) ∈ Q}.ncard ≤ Q.card := by
  refine card_le_of_injective (fun z => Spec.bindingInput sha j message
    (Spec.commitmentList ids (D (Spec.simulatedD Y z e a b)) (E (Spec.simulatedD Y z e a b)))) (fun z z' h => ?_) Q
  obtain ⟨_, _, _, h⟩ := C48_binding_input_injective sha j j message message ids ids _ _ _ _ h
  have := (h i hi).1
  rw [hD, hD, Spec.simulatedD, Spec.simulatedD, sub_left_inj, sub_left_inj] at this
  exact smul_base_injective this

theorem sum_single {α : Type} [DecidableEq α] {M : Type} [AddCommGroup M] {l : List α} (hl : l.Nodup) {i : α} (hi : i ∈ l) (f g : α → M) (h : ∀ j ∈ l, j ≠ i → f j = g j) :
    (l.map f).sum - (l.map g).sum = f i - g i := by
  induction l with
  | nil => cases hi
  | cons x l ih =>
    rw [List.nodup_cons] at hl
    rw [List.map_cons, List.map_cons, List.sum_cons, List.sum_cons]
    rcases List.mem_cons.mp hi with rfl | hi'
    · rw [List.map_congr_left (g := g) fun j hj => h j (List.mem_cons_of_mem _ hj) fun he => hl.1 (he ▸ hj)]
      abel
    · have := ih hl.2 hi' fun j hj => h j (List.mem_cons_of_mem _ hj)
      rw [h x List.mem_cons_self fun he => hl.1 (he ▸ hi'), ← this]
      abel

/-- C100: when all commitments are known, and that of the honest signer `i` is not the identity, the string hashed for the challenge is among `n` given
strings for at most `n` of all the binding factors that signer `i` can get. -/
theorem C100_challenge_fresh (A : G) (v : Spec.Script G) (hnd : v.ids.Nodup) (i : ID) (hi : i ∈ v.ids) (hh : i ∈ v.honest) (hE : v.E i ≠ 0) (Q : Finset Bytes) :
    {ρ : Scalar | ∃ a : Bytes, ρ = Spec.leValue a ∧
      Spec.challengeInput (Spec.Script.R sha { v with a := Function.update v.a i a }) A v.message ∈ Q}.ncard ≤ Q.card := by
  classical
  let rest : G := (v.ids.map fun j => if j = i then v.D i else v.factor sha j • v.E j + v.D j).sum
  have hR : ∀ a : Bytes, Spec.Script.R sha { v with a := Function.update v.a i a } = (Spec.leValue a : Scalar) • v.E i + rest := by
    intro a
    rw [← sub_eq_iff_eq_add]
    have := sum_single hnd hi (fun j => Spec.Script.factor sha { v with a := Function.update v.a i a } j • v.E j + v.D j)
      (fun j => if j = i then v.D i else v.factor sha j • v.E j + v.D j) (fun j _ hj => by
        simp only [if_neg hj]
        congr 2
        unfold Spec.Script.factor
        simp only [Function.update_of_ne hj]
        rfl)
    refine this.trans ?_
    simp only [if_true]
    unfold Spec.Script.factor
    rw [if_pos hh]
    simp
  have hinj : Function.Injective fun ρ : Scalar => Spec.challengeInput (ρ • v.E i + rest) A v.message := by
    intro ρ ρ' h
    have h := List.append_cancel_right (List.append_cancel_right h)
    have h := add_right_cancel (RGroup.bytesEd25519_injective _ _ h)
    rw [← sub_eq_zero, ← sub_smul] at h
    exact sub_eq_zero.mp ((smul_eq_zero.mp h).resolve_right hE)
  refine le_trans (Set.ncard_le_ncard ?_ ?_) (card_le_of_injective _ hinj Q)
  · rintro ρ ⟨a, rfl, ha⟩
    rw [hR] at ha
    exact ha
  · exact Set.toFinite _

/-- Two sessions differ in the signers, in the digest of the message or in a commitment. -/
def Spec.Differ (sha : Sha512) (v w : Spec.Script G) : Prop :=
  v.ids ≠ w.ids ∨ sha.sum v.message ≠ sha.sum w.message ∨ ∃ j ∈ v.ids, v.D j ≠ w.D j ∨ v.E j ≠ w.E j

theorem binding_ne {v w : Spec.Script G} (h : Spec.Differ sha v w) (i j : ID) : v.binding sha i ≠ w.binding sha j := by
  intro he
  obtain ⟨_, h1, h2, h3⟩ := C48_binding_input_injective sha i j v.message w.message v.ids w.ids _ _ _ _ he
  rcases h with h | h | ⟨k, hk, h⟩
  · exact h h2
  · exact h h1
  · rcases h with h | h
    · exact h (h3 k hk).1
    · exact h (h3 k hk).2

theorem differ_symm {v w : Spec.Script G} (h : Spec.Differ sha v w) : Spec.Differ sha w v := by
  rcases h with h | h | ⟨k, hk, h⟩
  · exact .inl h.symm
  · exact .inr (.inl h.symm)
  · by_cases hid : v.ids = w.ids
    · exact .inr (.inr ⟨k, hid ▸ hk, h.imp Ne.symm Ne.symm⟩)
    · exact .inl (Ne.symm hid)

/-- C100: when the hypothesis of `C100_life` is met: the sessions have different commitments, different nonces or messages, no message starts with
the tag or is the string of a challenge, and no digest of a message contains the key. -/
theorem C100_fresh (A : G) (vs : List (Spec.Script G)) (hh : ∀ v ∈ vs, v.honest.Nodup) (hdiff : vs.Pairwise (Spec.Differ sha))
    (hR : vs.Pairwise fun v w => v.R sha ≠ w.R sha ∨ v.message ≠ w.message) (hm : ∀ v ∈ vs, ¬ Spec.tag <+: v.message)
    (hA : ∀ v ∈ vs, RGroup.bytesEd25519 A ≠ ((sha.sum v.message).drop 18).take 32)
    (hc : ∀ v ∈ vs, ∀ w ∈ vs, v.message ≠ Spec.challengeInput (w.R sha) A w.message) : Spec.Fresh sha A vs := by
  have hkey : ∀ k, k ∈ (vs.flatMap fun v => v.table sha A).map Prod.fst ↔
      ∃ v ∈ vs, (∃ i ∈ v.honest, v.binding sha i = k) ∨ Spec.challengeInput (v.R sha) A v.message = k := by
    intro k
    simp only [List.mem_map, List.mem_flatMap, Spec.Script.table, List.mem_append, List.mem_singleton]
    constructor
    · rintro ⟨p, ⟨v, hv, ⟨i, hi, rfl⟩ | rfl⟩, rfl⟩
      · exact ⟨v, hv, .inl ⟨i, hi, rfl⟩⟩
      · exact ⟨v, hv, .inr rfl⟩
    · rintro ⟨v, hv, ⟨i, hi, rfl⟩ | rfl⟩
      · exact ⟨_, ⟨v, hv, .inl ⟨i, hi, rfl⟩⟩, rfl⟩
      · exact ⟨_, ⟨v, hv, .inr rfl⟩, rfl⟩
  have hsep : ∀ v ∈ vs, ∀ i R m, v.binding sha i ≠ Spec.challengeInput R A m := fun v hv i R m => C98_separated sha v.message A (hA v hv) i _ m R
  have hself : ∀ (v : Spec.Script G) i j, v.binding sha i = v.binding sha j → i = j := fun v i j h =>
    (C48_binding_input_injective sha i j v.message v.message v.ids v.ids _ _ _ _ h).1
  have hchal : ∀ (v w : Spec.Script G), Spec.challengeInput (v.R sha) A v.message = Spec.challengeInput (w.R sha) A w.message → v.R sha = w.R sha ∧ v.message = w.message := by
    intro v w h
    unfold Spec.challengeInput at h
    obtain ⟨h1, h2⟩ := List.append_inj h (by simp [RGroup.bytesEd25519_length])
    exact ⟨RGroup.bytesEd25519_injective _ _ (List.append_cancel_right h1), h2⟩
  refine ⟨?_, fun v hv hk => ?_, fun v hv j hj hnh hk => ?_⟩
  · rw [List.map_flatMap, List.nodup_flatMap]
    refine ⟨fun v hv => ?_, ?_⟩
    · unfold Spec.Script.table
      rw [List.map_append, List.nodup_append]
      refine ⟨?_, by simp, ?_⟩
      · rw [List.map_map]
        exact List.Nodup.map_on (fun i _ j _ h => hself v i j h) (hh v hv)
      · intro x hx y hy he
        rw [List.map_map] at hx
        obtain ⟨i, _, rfl⟩ := List.mem_map.mp hx
        simp only [List.map_cons, List.map_nil, List.mem_singleton] at hy
        exact hsep v hv i _ _ (he.trans hy)
    · have hboth := hdiff.and hR
      refine (List.pairwise_iff_forall_sublist.mpr fun {v w} hs => ?_)
      have hv : v ∈ vs := hs.subset (by simp)
      have hw : w ∈ vs := hs.subset (by simp)
      obtain ⟨h1, h2⟩ := List.pairwise_iff_forall_sublist.mp hboth hs
      intro k hk1 hk2
      simp only [Spec.Script.table, List.map_append, List.map_map, List.mem_append, List.mem_map, Function.comp, List.map_cons, List.map_nil,
        List.mem_singleton] at hk1 hk2
      rcases hk1 with ⟨i, _, rfl⟩ | rfl <;> rcases hk2 with ⟨j, _, hk⟩ | hk
      · exact binding_ne h1 i j hk.symm
      · exact hsep v hv i _ _ hk
      · exact hsep w hw j _ _ hk
      · obtain ⟨g1, g2⟩ := hchal v w hk
        exact h2.elim (· g1) (· g2)
  · obtain ⟨w, hw, ⟨i, _, h⟩ | h⟩ := (hkey _).mp hk
    · refine hm v hv ?_
      rw [← h]
      unfold Spec.Script.binding
      rw [bindingInput_tag]
      exact List.prefix_append ..
    · exact hc v hv w hw h.symm
  · obtain ⟨w, hw, ⟨i, hi, h⟩ | h⟩ := (hkey _).mp hk
    · by_cases hvw : v = w
      · subst hvw
        exact hnh (hself v i j h ▸ hi)
      · have : Spec.Differ sha v w := by
          have : Std.Symm (Spec.Differ (G := G) sha) := ⟨fun _ _ => differ_symm⟩
          exact hdiff.forall hv hw hvw
        exact binding_ne this j i h.symm
    · exact hsep v hv j _ _ h.symm

end Verif.Props
