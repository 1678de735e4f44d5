import Verif.Props.KeygenNet
import Verif.Props.KeygenRogue
import Verif.Props.Unforgeable

/-!
C125: a participant of key generation that waits for the broadcasts of the others before it chooses its own polynomial decides about the group key.  It
runs the code as it is, only its random choice depends on what it has seen; no other participant can notice.
-/

namespace Verif.Props

open Verif State Keygen Outcome Polynomial
open Verif.Spec (prob)
open Verif.Random (prob_equiv)

variable {G : Type} [RGroup G] {sha : Sha512} {ids : IDSlice} {t : UInt16} {timeout now : ID → Nat} {init : ID → State G (Keygen.Round G)}

/-- The first call of `ProcessAll` of a session. -/
theorem first_call {self : ID} {r₀ : Keygen.Round G} (hs : Start r₀ self ids t) (h0 : (0 : ID) ∉ ids) (timeout now : Nat) (ord : MapOrder) (κ : Coins) :
    ∃ s₁, State.step (impl sha) (newBaseState (impl sha) r₀ timeout now) (.processAll ord κ) = some (s₁, .messages [Spec.honestBroadcast t self κ]) := by
  have ht := threshold_ne hs h0
  obtain ⟨heq, _, _, hc⟩ := hs.eq
  have hself := IDSlice.contains_sound hc
  have hself0 : self ≠ 0 := fun h => h0 (h ▸ hself)
  have hndo : (others self ids).Nodup := hs.nodup.filter _
  have hl := filter_self_length hs.nodup hself
  let s₀ := newBaseState (impl sha) r₀ timeout now
  have hinit := wf_initReceived (G := G) self ids [] GoMap.wf_nil
  have hkeys : ((initReceived self ids ([] : GoMap (Option (Message G)))).map Prod.fst).Perm (others self ids) := by
    refine (List.perm_ext_iff_of_nodup hinit hndo).mpr fun k => ?_
    rw [mem_others, mem_initReceived]
    simp
  let s₁ : State G (Keygen.Round G) := { s₀ with received := [], queue := [], acceptedTypes := [1, 2], roundNumber := 1, round := round1 r₀ (coinPoly t κ) }
  have p0 : processAll (impl sha) ord κ s₀ = some (s₁, [Spec.honestBroadcast t self κ]) := by
    rw [processAll_iff]
    refine .next 0 [1, 2] r₀ { r₀ with secret := Spec.evalAt (coinPoly t κ) self.val, polynomial := some (coinPoly t κ), commitmentsSum := some (Exponent.ofPoly (coinPoly t κ)) } (round1 r₀ (coinPoly t κ)) _ rfl ?_ (loop0 (by show r₀.stage = .r0; rw [heq])) ?_ rfl ?_
    · show (initReceived _ _ _).length = _
      have e1 : (impl sha).selfID r₀ = self := by rw [heq]; rfl
      have e2 : (impl sha).partyIDs r₀ = ids := by rw [heq]; rfl
      rw [show s₀.round = r₀ from rfl, e1, e2, ← hl, ← hkeys.length_eq, List.length_map]
    · have hst : r₀.stage = .r0 := by rw [heq]
      show (match r₀.stage with | .r0 => _ | .r1 => _ | .r2 => _) = _
      rw [hst]
      refine generate0_ok.mpr ⟨?_, ?_, ?_, ?_⟩ <;> rw [heq]
      · exact ht
      · exact hself0
      · rfl
    · rw [heq]; rfl
  exact ⟨s₁, by
    show Option.map _ (processAll (impl sha) ord κ s₀) = _
    rw [p0]
    rfl⟩

/-- The parties of `l` call `ProcessAll` for the first time. -/
theorem others_first (hs : Spec.KeygenSetup sha ids t timeout now init) (a : ID) (coins : ID → Coins) :
    ∀ l : List ID, l.Nodup → (∀ j ∈ l, j ∈ ids ∧ j ≠ a) →
      ∃ N : Spec.Net G (Keygen.Round G), (∀ κ, Spec.Path (impl sha) ids (Function.update coins a κ) (Spec.Net.start init) N) ∧
        (∀ j, j ∉ l → N.state j = init j ∧ N.hist j = []) ∧ ∀ m, m ∈ N.sent ↔ ∃ j ∈ l, m = Spec.honestBroadcast t j (coins j)
  | [], _, _ => ⟨Spec.Net.start init, fun _ => .refl _, fun _ _ => ⟨rfl, rfl⟩, fun m => by simp [Spec.Net.start]⟩
  | j :: l, hnd, hl => by
    obtain ⟨hj, hnd⟩ := List.nodup_cons.mp hnd
    obtain ⟨N, h1, h2, h3⟩ := others_first hs a coins l hnd fun k hk => hl k (List.mem_cons_of_mem _ hk)
    obtain ⟨hji, hja⟩ := hl j List.mem_cons_self
    obtain ⟨r₀, hr, hinit⟩ := start_of_new (hs.start j hji) hs.nodup
    obtain ⟨s₁, hstep⟩ := first_call (sha := sha) hr hs.zero (timeout j) (now j) .insertion (coins j)
    rw [← hinit, ← (h2 j hj).1] at hstep
    refine ⟨N.after j (.processAll .insertion (coins j)) (.messages [Spec.honestBroadcast t j (coins j)]) s₁, fun κ => ?_, fun k hk => ?_, fun m => ?_⟩
    · exact .tail (h1 κ) hji (fun _ => by rw [Function.update_of_ne hja]) hstep
    · obtain ⟨hk1, hk2⟩ := not_or.mp (mt List.mem_cons.mpr hk)
      simp only [Spec.Net.after, Function.update_of_ne hk1]
      exact h2 k hk2
    · simp only [Spec.Net.after, Spec.returned, List.mem_append, h3, List.mem_cons, List.not_mem_nil, or_false]
      constructor
      · rintro (⟨k, hk, rfl⟩ | rfl)
        · exact ⟨k, Or.inr hk, rfl⟩
        · exact ⟨j, Or.inl rfl, rfl⟩
      · rintro ⟨k, rfl | hk, rfl⟩
        · exact Or.inr rfl
        · exact Or.inl ⟨k, hk, rfl⟩

/-- What the parties other than `a` contribute to the group key, as everybody can see in their broadcasts. -/
def Spec.seen (ids : IDSlice) (a : ID) (coins : ID → Coins) : G := ((ids.filter (· ≠ a)).map fun k => coins k 0 • (base : G)).sum

/-- Party `a` can wait until it has the broadcasts of all others.  Whatever it then uses as random values, the honest parties can all finish without
error, and the group key is what `a` has seen plus what it chose.  `a` runs the code as it is. -/
theorem C125_last_mover (hs : Spec.KeygenSetup sha ids t timeout now init) (a : ID) (ha : a ∈ ids) (coins : ID → Coins) :
    ∃ N : Spec.Net G (Keygen.Round G), (∀ κ, Spec.Path (impl sha) ids (Function.update coins a κ) (Spec.Net.start init) N) ∧ N.hist a = [] ∧
      (∀ m, m ∈ N.sent ↔ ∃ j ∈ ids, j ≠ a ∧ m = Spec.honestBroadcast t j (coins j)) ∧
      ∀ κ : Coins, ∃ N' : Spec.Net G (Keygen.Round G), Spec.Path (impl sha) ids (Function.update coins a κ) N N' ∧
        ∀ i ∈ ids, (N'.state i).done = true ∧ (N'.state i).err = none ∧ ∃ pub, (N'.state i).round.output.pub = some pub ∧
          pub.groupKey = Spec.seen ids a coins + κ 0 • (base : G) := by
  obtain ⟨N, h1, h2, h3⟩ := others_first hs a coins (others a ids) (hs.nodup.filter _) fun j hj => mem_others.mp hj
  refine ⟨N, h1, (h2 a fun h => (mem_others.mp h).2 rfl).2, fun m => ?_, fun κ => ?_⟩
  · rw [h3]
    constructor
    · rintro ⟨j, hj, rfl⟩
      exact ⟨j, (mem_others.mp hj).1, (mem_others.mp hj).2, rfl⟩
    · rintro ⟨j, hj, hja, rfl⟩
      exact ⟨j, mem_others.mpr ⟨hj, hja⟩, rfl⟩
  · obtain ⟨N', g1, g2⟩ := C36_honest_keygen_completes hs (Function.update coins a κ) N (h1 κ)
    refine ⟨N', g1, fun i hi => ?_⟩
    obtain ⟨d1, d2, _, pub, d3, _, _, d4, _⟩ := g2 i hi
    refine ⟨d1, d2, pub, d3, ?_⟩
    rw [d4, jointPoly_zero, ← sum_others hs.nodup ha, add_smul, Function.update_self, add_comm]
    congr 1
    unfold Spec.seen
    rw [List.sum_smul, List.map_map]
    congr 1
    refine List.map_congr_left fun k hk => ?_
    have := (mem_others.mp hk).2
    simp [Function.update_of_ne this]

/-- So the key is not determined by chance: each element is the group key for some choice of `a`, whatever the others chose. -/
theorem C125_every_key_refuted (a : ID) (coins : ID → Coins) (P : G) : ∃ κ : Coins, Spec.seen ids a coins + κ 0 • (base : G) = P :=
  ⟨fun _ => dlog (P - Spec.seen ids a coins), by simp only [dlog_spec]; abel⟩

/-- A strategy that needs no more than `m + 1` base point multiplications: of `m + 1` random values, use the first with which the key is as desired. -/
noncomputable def Spec.pick (want : G → Prop) (S : G) {m : Nat} (δ : Fin (m + 1) → Scalar) : Scalar :=
  open Classical in
  (((List.finRange (m + 1)).map δ).find? fun d => decide (want (S + d • (base : G)))).getD (δ 0)

theorem pick_iff (want : G → Prop) (S : G) {m : Nat} (δ : Fin (m + 1) → Scalar) :
    want (S + Spec.pick want S δ • (base : G)) ↔ ∃ k, want (S + δ k • (base : G)) := by
  classical
  unfold Spec.pick
  cases h : ((List.finRange (m + 1)).map δ).find? fun d => decide (want (S + d • (base : G))) with
  | none =>
    rw [List.find?_eq_none] at h
    have h : ∀ k, ¬want (S + δ k • (base : G)) := fun k => by simpa using h (δ k) (List.mem_map.mpr ⟨k, List.mem_finRange k, rfl⟩)
    exact ⟨fun h' => absurd h' (h 0), fun ⟨k, hk⟩ => absurd hk (h k)⟩
  | some d =>
    have hd := List.find?_some h
    obtain ⟨k, _, rfl⟩ := List.mem_map.mp (List.mem_of_find?_eq_some h)
    have hd : want (S + δ k • (base : G)) := by simpa using hd
    exact ⟨fun _ => ⟨k, hd⟩, fun _ => hd⟩

theorem prob_forall {α : Type} [Finite α] (E : α → Prop) (m : Nat) : (prob fun f : Fin m → α => ∀ k, E (f k)) = prob E ^ m := by
  unfold prob
  rw [Nat.card_congr (Equiv.subtypePiEquivPi (p := fun _ x => E x)), Nat.card_fun, Nat.card_fun, Nat.card_fin]
  push_cast
  rw [div_pow]

theorem prob_not {Ω : Type} [Finite Ω] [Nonempty Ω] (E : Ω → Prop) : (prob fun ω => ¬E ω) = 1 - prob E := by
  classical
  have := Fintype.ofFinite Ω
  unfold prob
  have hc : (0 : ℝ) < Nat.card Ω := by exact_mod_cast Nat.card_pos
  rw [eq_sub_iff_add_eq, ← add_div, div_eq_one_iff_eq hc.ne']
  rw [Nat.card_eq_fintype_card, Nat.card_eq_fintype_card, Nat.card_eq_fintype_card, ← Nat.cast_add, Fintype.card_subtype_compl]
  rw [Nat.sub_add_cancel (Fintype.card_subtype_le E)]

/-- An honest party makes the key as random as it should be: whatever the sum `S` of what the others contribute is, as long as it does not depend on the
value that the party draws, the key has the wanted property with the probability that a random element has. -/
theorem C125_fair (want : G → Prop) (S : G) : (prob fun x : Scalar => want (S + x • (base : G))) = prob fun x : Scalar => want (x • (base : G)) := by
  have h := prob_equiv (Equiv.addLeft (dlog S)) fun x : Scalar => want (x • (base : G))
  rw [← h]
  congr 1
  funext x
  rw [Equiv.coe_addLeft, add_smul, dlog_spec]

/-- The probability with which the strategy makes a key as wanted, when a random element is as wanted with probability `p`: `1 - (1 - p) ^ (m + 1)`. -/
theorem C125_bias (want : G → Prop) (S : G) (m : Nat) :
    (prob fun δ : Fin (m + 1) → Scalar => want (S + Spec.pick want S δ • (base : G))) = 1 - (1 - prob fun x : Scalar => want (x • (base : G))) ^ (m + 1) := by
  have : NeZero q := ⟨Random.q_pos.ne'⟩
  have : Fintype Scalar := inferInstanceAs (Fintype (ZMod q))
  simp only [pick_iff]
  have h := prob_not fun δ : Fin (m + 1) → Scalar => ∀ k, ¬want (S + δ k • (base : G))
  rw [prob_forall (fun x : Scalar => ¬want (S + x • (base : G))), prob_not (fun x : Scalar => want (S + x • (base : G))), C125_fair] at h
  rw [← h]
  congr 1
  funext δ
  simp

/-- Ten tries for a property that half of all elements have give it with a probability of more than 99.9 %.  (The number of elements is odd.) -/
theorem C125_ten_tries_refuted (want : G → Prop) (S : G) (hw : 1 / 2 ≤ prob fun x : Scalar => want (x • (base : G))) :
    0.999 < prob fun δ : Fin (9 + 1) → Scalar => want (S + Spec.pick want S δ • (base : G)) := by
  have : NeZero q := ⟨Random.q_pos.ne'⟩
  have : Fintype Scalar := inferInstanceAs (Fintype (ZMod q))
  have h1 := prob_le_one fun x : Scalar => want (x • (base : G))
  rw [C125_bias]
  have := pow_le_pow_left₀ (sub_nonneg.mpr h1) (show (1 - prob fun x : Scalar => want (x • (base : G))) ≤ 1 / 2 by linarith) (9 + 1)
  norm_num at this ⊢
  linarith

end Verif.Props
