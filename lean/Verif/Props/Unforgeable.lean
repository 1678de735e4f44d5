import Verif.Lemmas.OneMore
import Verif.Props.Forger
import Verif.Props.SignBlame

/-!
C102: who forges a signature after any number of sessions with honest signers can find more discrete logarithms than are told.
-/

namespace Verif.Props

open Verif.Spec LocalFork OneMore Verif.Random

variable {G : Type} [RGroup G] {K : Nat}

/-- A random digest contains given 32 bytes with a probability of at most `2^-256`. -/
theorem prob_contains (a : List UInt8) : prob (fun b : Block => a = (b.1.drop 18).take 32) ≤ 1 / 2 ^ 256 := by
  let f : {b : Block // a = (b.1.drop 18).take 32} × (Fin 32 → Fin 256) → Block := fun p =>
    ⟨p.1.1.1.take 18 ++ (List.ofFn fun i => UInt8.ofFin (p.2 i)) ++ p.1.1.1.drop 50, by
      have := p.1.1.2
      simp only [List.length_append, List.length_take, List.length_ofFn, List.length_drop, this]
      omega⟩
  have hf : Function.Injective f := by
    rintro ⟨⟨b, hb⟩, g⟩ ⟨⟨b', hb'⟩, g'⟩ h
    have h1 : b.1.take 18 ++ (List.ofFn fun i => UInt8.ofFin (g i)) ++ b.1.drop 50 = b'.1.take 18 ++ (List.ofFn fun i => UInt8.ofFin (g' i)) ++ b'.1.drop 50 :=
      congrArg Subtype.val h
    have l := b.2
    have l' := b'.2
    obtain ⟨h2, h3⟩ := List.append_inj h1 (by simp only [List.length_append, List.length_take, List.length_ofFn, l, l'])
    obtain ⟨h4, h5⟩ := List.append_inj h2 (by simp only [List.length_take, l, l'])
    have hg : g = g' := by
      funext i
      have := congrFun (List.ofFn_injective h5) i
      simpa using congrArg UInt8.toFin this
    have hbb : ∀ c : List UInt8, c = c.take 18 ++ ((c.drop 18).take 32 ++ c.drop 50) := by
      intro c
      conv_lhs => rw [← List.take_append_drop 18 c, ← List.take_append_drop 32 (c.drop 18), List.drop_drop]
    have : b = b' := by
      apply Subtype.ext
      rw [hbb b.1, hbb b'.1, ← hb, ← hb', h4, h3]
    subst this
    subst hg
    rfl
  have h1 := Nat.card_le_card_of_injective f hf
  rw [Nat.card_prod, card_block, Nat.card_fun, Nat.card_fin, Nat.card_fin] at h1
  unfold prob
  rw [card_block]
  rw [div_le_div_iff₀ (by positivity) (by positivity)]
  have h2 : 256 ^ 32 = 2 ^ 256 := by decide +kernel
  rw [h2] at h1
  rw [one_mul]
  exact_mod_cast h1

section

variable (sha : Sha512) (dom : Finset (List UInt8))

/-- The values of the hash function. -/
def hashOn (O : dom → Block) (x : List UInt8) : Block := if h : x ∈ dom then O ⟨x, h⟩ else ⟨sha.sum x, sha.length_sum x⟩

theorem oracle_eq (O : dom → Block) : oracle sha dom O = shaOf (hashOn sha dom O) := by
  unfold oracle shaOf hashOn
  congr 1
  funext x
  split <;> rfl

theorem hashOn_extends : Extends (fun x : dom => x.1) (hashOn sha dom) where
  inj := Subtype.val_injective
  apply O y := by unfold hashOn; rw [dif_pos y.2]
  update O y b := by
    funext x
    unfold hashOn
    by_cases hx : x = y.1
    · subst hx
      rw [dif_pos y.2, Function.update_self, Function.update_self]
    · rw [Function.update_of_ne hx]
      split
      · rw [Function.update_of_ne]
        intro h
        exact hx (congrArg Subtype.val h)
      · rfl

/-- The values of the hash function, and one more. -/
def hashOn' (P : Option dom → Block) : Option (List UInt8) → Block
  | none => P none
  | some x => hashOn sha dom (fun y => P (some y)) x

theorem hashOn'_extends : Extends (Option.map fun x : dom => x.1) (hashOn' sha dom) where
  inj := Option.map_injective Subtype.val_injective
  apply P y := by
    cases y with
    | none => rfl
    | some y => exact (hashOn_extends sha dom).apply (fun y => P (some y)) y
  update P y b := by
    funext x
    cases y with
    | none =>
      cases x with
      | none => simp [hashOn']
      | some x => simp [hashOn']
    | some y =>
      cases x with
      | none => simp [hashOn']
      | some x =>
        have h1 : (fun y' => Function.update P (some y) b (some y')) = Function.update (fun y' => P (some y')) y b := by
          funext y'
          by_cases h : y' = y
          · subst h; simp
          · rw [Function.update_of_ne h, Function.update_of_ne (by simpa using h)]
        show hashOn sha dom (fun y' => Function.update P (some y) b (some y')) x = _
        rw [h1, (hashOn_extends sha dom).update]
        by_cases h : x = y.1
        · subst h; simp
        · rw [Function.update_of_ne h, Function.update_of_ne (by simpa using h)]
          rfl

end

section

variable (s : Secrets K) (who : Fin K → UInt16) (slope offset : UInt16 → Scalar) (F : Attacker G K)

/-- How it ends with the hash function `sha`. -/
def ending (sha : Sha512) : Ending G K := F.play (s.board who slope offset) sha (s.share (s.board who slope offset : Board G K) sha) []

/-- The string that the verifier hashes. -/
def target (sha : Sha512) : List UInt8 :=
  challengeInput (ending s who slope offset F sha).signature.R (s.x • base) (ending s who slope offset F sha).message

/-- The points asked in the second run: the one that has changed has the new name `none`. -/
def rename (str x : List UInt8) : Option (List UInt8) := if x = str then none else some x

/-- The questions of the two runs. -/
def bothRuns (f : Option (List UInt8) → Block) : List (Option (List UInt8)) :=
  (ending s who slope offset F (shaOf fun x => f (some x))).hashed.map some ++
    (ending s who slope offset F (shaOf fun x => f (rename (target s who slope offset F (shaOf fun x => f (some x))) x))).hashed.map
      (rename (target s who slope offset F (shaOf fun x => f (some x))))

theorem bothRuns_local : Local (bothRuns s who slope offset F) := by
  refine Local.append (p := fun f => (ending s who slope offset F (shaOf fun x => f (some x))).hashed.map some)
    (r := fun f : Option (List UInt8) → Block => target s who slope offset F (shaOf fun x => f (some x)))
    (p' := fun str f => (ending s who slope offset F (shaOf fun x => f (rename str x))).hashed.map (rename str))
    ((play_local (s.board who slope offset) s F []).map some) ?_ fun str => (play_local (s.board who slope offset) s F []).map (rename str)
  intro f f' h
  unfold target
  have : ending s who slope offset F (shaOf fun x => f' (some x)) = ending s who slope offset F (shaOf fun x => f (some x)) :=
    play_congr (s.board who slope offset) s F [] fun x hx => congrArg Subtype.val (h (some x) (List.mem_map_of_mem hx))
  rw [this]

end

section

variable {T : Type} [Fintype T] [Nonempty T] (sha : Sha512) (s : Secrets K) (who : Fin K → UInt16) (slope offset : UInt16 → Scalar) (F : T → Attacker G K)
  (dom : Finset (List UInt8)) (N : Nat)

/-- The place at which the string of a forgery is asked first. -/
noncomputable def forgedAt (t : T) (O : dom → Block) : Option (Fin N) := by
  classical
  exact if h : (ending s who slope offset (F t) (oracle sha dom O)).Forged (oracle sha dom O) (s.x • base) ∧
      ∃ j : Fin N, place (fun f => (ending s who slope offset (F t) (shaOf f)).hashed) j (hashOn sha dom O) = some (target s who slope offset (F t) (oracle sha dom O)) then
    some h.2.choose else none

theorem place_unique {X B : Type} [DecidableEq X] {path : (X → B) → List X} {O : X → B} {i j : Nat} {y : X} (hi : place path i O = some y) (hj : place path j O = some y) :
    i = j := by
  rw [place_eq_some] at hi hj
  rcases Nat.lt_trichotomy i j with h | h | h
  · exact absurd (List.mem_iff_getElem?.mpr ⟨i, by rw [List.getElem?_take_of_lt h]; exact hi.1⟩) hj.2
  · exact h
  · exact absurd (List.mem_iff_getElem?.mpr ⟨j, by rw [List.getElem?_take_of_lt h]; exact hj.1⟩) hi.2

omit [Fintype T] [Nonempty T] in
theorem forgedAt_eq_some {t : T} {O : dom → Block} {j : Fin N} : forgedAt sha s who slope offset F dom N t O = some j ↔
    (ending s who slope offset (F t) (oracle sha dom O)).Forged (oracle sha dom O) (s.x • base) ∧
      place (fun f => (ending s who slope offset (F t) (shaOf f)).hashed) j (hashOn sha dom O) = some (target s who slope offset (F t) (oracle sha dom O)) := by
  unfold forgedAt
  split
  · rename_i h
    rw [Option.some.injEq]
    constructor
    · rintro rfl
      exact ⟨h.1, h.2.choose_spec⟩
    · rintro ⟨_, h1⟩
      exact Fin.ext (place_unique h.2.choose_spec h1)
  · rename_i h
    constructor
    · intro h1; cases h1
    · rintro ⟨h1, h2⟩; exact absurd ⟨h1, j, h2⟩ h

/-- Both runs, with one oracle. -/
def together : (dom → Block) × Block ≃ (Option dom → Block) where
  toFun p y := match y with
    | none => p.2
    | some y => p.1 y
  invFun P := (fun y => P (some y), P none)
  left_inv _ := rfl
  right_inv P := by funext y; cases y <;> rfl

theorem second_run (P : Option dom → Block) (y : dom) :
    (fun x => hashOn' sha dom P (rename y.1 x)) = hashOn sha dom (Function.update (fun y => P (some y)) y (P none)) := by
  rw [(hashOn_extends sha dom).update]
  funext x
  unfold rename
  by_cases h : x = y.1
  · subst h
    rw [if_pos rfl, Function.update_self]
    rfl
  · rw [if_neg h, Function.update_of_ne h]
    rfl

theorem program_oracle (O : dom → Block) (y : dom) (b : Block) : program (oracle sha dom O) y.1 b.1 b.2 = oracle sha dom (Function.update O y b) := by
  rw [oracle_eq, oracle_eq, (hashOn_extends sha dom).update]
  unfold program shaOf
  congr 1
  funext x
  dsimp only
  by_cases h : x = y.1
  · subst h
    rw [if_pos rfl, Function.update_self]
  · rw [if_neg h, Function.update_of_ne h]

theorem prob_le_one {Ω : Type} [Finite Ω] (E : Ω → Prop) : prob E ≤ 1 := by
  unfold prob
  exact div_le_one_of_le₀ (by exact_mod_cast Finite.card_subtype_le E) (Nat.cast_nonneg _)

/-- C102: somebody who takes part in at most `K` sessions of honest signers, at the same time and with whatever commitments and messages, and who then says a
signature for a message that no honest signer has signed with probability `ε`, can be used to find the secret of the key and all `2 K` nonces.  Altogether at most
`N` strings are hashed, all in `dom`.  By `C102_logs` this takes only `2 K` logarithms. -/
theorem C102_forger_gives_logs (hdom : ∀ t O, (∀ x ∈ (ending s who slope offset (F t) (oracle sha dom O)).hashed, x ∈ dom) ∧
      (ending s who slope offset (F t) (oracle sha dom O)).hashed.length ≤ N) (dl : G → Scalar) (hdl : ∀ a : Scalar, dl (a • base) = a) :
    let ε := prob fun p : T × (dom → Block) => (ending s who slope offset (F p.1) (oracle sha dom p.2)).Forged (oracle sha dom p.2) (s.x • base)
    ε ^ 2 / N - N ^ 2 / 2 ^ 250 ≤ prob fun p : T × (dom → Block) × Block =>
      (solve (s.board who slope offset) (F p.1) (oracle sha dom p.2.1) p.2.2).value dl = (s.x, List.ofFn fun k => (s.d k, s.e k)) := by
  classical
  intro ε
  have : Nonempty Block := ⟨⟨List.replicate 64 0, by simp⟩⟩
  let path : T → (List UInt8 → Block) → List (List UInt8) := fun t f => (ending s who slope offset (F t) (shaOf f)).hashed
  have hpath : ∀ t, Local (path t) := fun t => play_local (s.board who slope offset) s (F t) []
  have hmem : ∀ t O, target s who slope offset (F t) (oracle sha dom O) ∈ path t (hashOn sha dom O) := by
    intro t O
    show _ ∈ (ending s who slope offset (F t) (shaOf (hashOn sha dom O))).hashed
    rw [← oracle_eq]
    exact (play_hashed (s.board who slope offset) (oracle sha dom O) _ (F t) []).1
  have hmem' : ∀ t O, target s who slope offset (F t) (oracle sha dom O) ∈ dom := by
    intro t O
    refine (hdom t O).1 _ ?_
    have := hmem t O
    show _ ∈ (ending s who slope offset (F t) (oracle sha dom O)).hashed
    rw [oracle_eq]
    rw [oracle_eq] at this
    exact this
  -- the fork
  have hfork := fork (T := T) (X := dom) (B := Block) (N := N) (fun t j => placeIn (fun x : dom => x.1) (hashOn sha dom) (path t) j)
    (fun t j => placeIn_stable (hashOn_extends sha dom) (hpath t) j) (forgedAt sha s who slope offset F dom N)
    (fun t O j h => ⟨⟨_, hmem' t O⟩, (placeIn_eq_some (hashOn_extends sha dom)).mpr ((forgedAt_eq_some sha s who slope offset F dom N).mp h).2⟩)
    (fun a b => scalarOf a = scalarOf b) (1 / 2 ^ 252) prob_same
  have hε : (prob fun p : T × (dom → Block) => (forgedAt sha s who slope offset F dom N p.1 p.2).isSome = true) = ε := by
    show _ = prob fun p : T × (dom → Block) => (ending s who slope offset (F p.1) (oracle sha dom p.2)).Forged (oracle sha dom p.2) (s.x • base)
    congr 1
    funext p
    rw [eq_iff_iff, Option.isSome_iff_exists]
    constructor
    · rintro ⟨j, h⟩
      exact ((forgedAt_eq_some sha s who slope offset F dom N).mp h).1
    · intro h
      obtain ⟨j, hj, hp⟩ := exists_place (hmem p.1 p.2)
      have hl := (hdom p.1 p.2).2
      rw [oracle_eq] at hl
      exact ⟨⟨j, hj.trans_le hl⟩, (forgedAt_eq_some sha s who slope offset F dom N).mpr ⟨h, hp⟩⟩
  rw [hε] at hfork
  -- the bad events
  have hlen : ∀ t (P : Option dom → Block), (bothRuns s who slope offset (F t) (hashOn' sha dom P)).length ≤ 2 * N := by
    intro t P
    have e1 : (fun x => hashOn' sha dom P (some x)) = hashOn sha dom fun y => P (some y) := rfl
    unfold bothRuns
    rw [List.length_append, List.length_map, List.length_map, e1, ← oracle_eq]
    have e2 := second_run sha dom P ⟨_, hmem' t fun y => P (some y)⟩
    dsimp only at e2
    rw [e2, ← oracle_eq]
    have h1 := (hdom t fun y => P (some y)).2
    have h2 := (hdom t (Function.update (fun y => P (some y)) ⟨_, hmem' t fun y => P (some y)⟩ (P none))).2
    omega
  have hin : ∀ t (P : Option dom → Block), ∀ x ∈ bothRuns s who slope offset (F t) (hashOn' sha dom P), ∃ y : Option dom, y.map (fun x : dom => x.1) = x := by
    intro t P x hx
    have e1 : (fun x => hashOn' sha dom P (some x)) = hashOn sha dom fun y => P (some y) := rfl
    unfold bothRuns at hx
    rw [e1, ← oracle_eq] at hx
    have e2 := second_run sha dom P ⟨_, hmem' t fun y => P (some y)⟩
    dsimp only at e2
    rw [e2, ← oracle_eq] at hx
    rcases List.mem_append.mp hx with hx | hx
    · obtain ⟨x, hx', rfl⟩ := List.mem_map.mp hx
      exact ⟨some ⟨x, (hdom t _).1 x hx'⟩, rfl⟩
    · obtain ⟨x, hx', rfl⟩ := List.mem_map.mp hx
      unfold rename
      split
      · exact ⟨none, rfl⟩
      · exact ⟨some ⟨x, (hdom t _).1 x hx'⟩, rfl⟩
  let bad1 : T → (dom → Block) × Block → Prop := fun t p => ∃ u ∈ bothRuns s who slope offset (F t) (hashOn' sha dom (together dom p)),
    ∃ v ∈ bothRuns s who slope offset (F t) (hashOn' sha dom (together dom p)), u ≠ v ∧
      scalarOf (hashOn' sha dom (together dom p) u) = scalarOf (hashOn' sha dom (together dom p) v)
  let bad2 : T → (dom → Block) × Block → Prop := fun t p => ∃ u ∈ bothRuns s who slope offset (F t) (hashOn' sha dom (together dom p)),
    RGroup.bytesEd25519 (s.x • base : G) = ((hashOn' sha dom (together dom p) u).1.drop 18).take 32
  have hbad1 : (prob fun p : T × (dom → Block) × Block => bad1 p.1 p.2) ≤ ((2 * N : ℕ) : ℝ) ^ 2 / 2 * (1 / 2 ^ 252) := by
    refine prob_le_of_forall bad1 _ (by positivity) fun t => ?_
    refine (prob_equiv (together dom) fun P : Option dom → Block => ∃ u ∈ bothRuns s who slope offset (F t) (hashOn' sha dom P),
      ∃ v ∈ bothRuns s who slope offset (F t) (hashOn' sha dom P), u ≠ v ∧ scalarOf (hashOn' sha dom P u) = scalarOf (hashOn' sha dom P v)).trans_le ?_
    exact prob_collision (hashOn'_extends sha dom) (bothRuns_local s who slope offset (F t)) (2 * N) (hlen t) (hin t) (fun a b => scalarOf a = scalarOf b)
      (fun a b h => h.symm) (1 / 2 ^ 252) prob_same
  have hbad2 : (prob fun p : T × (dom → Block) × Block => bad2 p.1 p.2) ≤ ((2 * N : ℕ) : ℝ) * (1 / 2 ^ 256) := by
    refine prob_le_of_forall bad2 _ (by positivity) fun t => ?_
    refine (prob_equiv (together dom) fun P : Option dom → Block => ∃ u ∈ bothRuns s who slope offset (F t) (hashOn' sha dom P),
      RGroup.bytesEd25519 (s.x • base : G) = ((hashOn' sha dom P u).1.drop 18).take 32).trans_le ?_
    exact prob_answer (hashOn'_extends sha dom) (bothRuns_local s who slope offset (F t)) (2 * N) (hlen t) (hin t)
      (fun b => RGroup.bytesEd25519 (s.x • base : G) = (b.1.drop 18).take 32) (1 / 2 ^ 256) (prob_contains _)
  -- what remains
  have hcore := prob_mono (Ω := T × (dom → Block) × Block)
    (E := fun p => ∃ j y, forgedAt sha s who slope offset F dom N p.1 p.2.1 = some j ∧
      placeIn (fun x : dom => x.1) (hashOn sha dom) (path p.1) j p.2.1 = some y ∧
      forgedAt sha s who slope offset F dom N p.1 (Function.update p.2.1 y p.2.2) = some j ∧ ¬ scalarOf (p.2.1 y) = scalarOf p.2.2)
    (F := fun p => (solve (s.board who slope offset) (F p.1) (oracle sha dom p.2.1) p.2.2).value dl = (s.x, List.ofFn fun k => (s.d k, s.e k)) ∨
      bad1 p.1 p.2 ∨ bad2 p.1 p.2) (by
    rintro ⟨t, O, b⟩ ⟨j, y, h1, h2, h3, h4⟩
    dsimp only at h1 h2 h3 h4 ⊢
    by_contra hno
    push Not at hno
    obtain ⟨hno, hb1, hb2⟩ := hno
    obtain ⟨f1, p1⟩ := (forgedAt_eq_some sha s who slope offset F dom N).mp h1
    obtain ⟨f2, p2⟩ := (forgedAt_eq_some sha s who slope offset F dom N).mp h3
    have p3 := (placeIn_eq_some (hashOn_extends sha dom)).mp h2
    have hy : target s who slope offset (F t) (oracle sha dom O) = y.1 := by
      have := p1.symm.trans p3
      exact Option.some.inj this
    have hy' : target s who slope offset (F t) (oracle sha dom (Function.update O y b)) = y.1 := by
      rw [(hashOn_extends sha dom).update] at p2
      have := p2.symm.trans (place_stable (hpath t) j.val _ _ b p3)
      exact Option.some.inj this
    have hP : (fun x => hashOn' sha dom (together dom (O, b)) (some x)) = hashOn sha dom O := rfl
    have hP' : (fun x => hashOn' sha dom (together dom (O, b)) (rename y.1 x)) = hashOn sha dom (Function.update O y b) := second_run sha dom (together dom (O, b)) y
    have hboth : bothRuns s who slope offset (F t) (hashOn' sha dom (together dom (O, b))) =
        (ending s who slope offset (F t) (oracle sha dom O)).hashed.map some ++
          (ending s who slope offset (F t) (oracle sha dom (Function.update O y b))).hashed.map (rename y.1) := by
      unfold bothRuns
      rw [hP, ← oracle_eq, hy, hP', ← oracle_eq]
    refine hno (solve_value s who slope offset dl hdl (F t) (oracle sha dom O) b (ending s who slope offset (F t) (oracle sha dom O))
      (ending s who slope offset (F t) (oracle sha dom (Function.update O y b))) y.1 rfl hy.symm ?_ hy' f1 ?_ ?_ ?_ ?_)
    · rw [program_oracle]
      rfl
    · rw [program_oracle]
      exact f2
    · rw [show (oracle sha dom O).sum y.1 = (O y).1 from by rw [oracle_eq]; exact congrArg Subtype.val ((hashOn_extends sha dom).apply O y)]
      exact h4
    · intro u hu v hv hne he
      rw [program_oracle] at he
      refine hb1 ⟨some u, ?_, rename y.1 v, ?_, ?_, ?_⟩
      · rw [hboth]
        exact List.mem_append_left _ (List.mem_map_of_mem hu)
      · rw [hboth]
        exact List.mem_append_right _ (List.mem_map_of_mem hv)
      · unfold rename
        split
        · simp
        · simpa using hne
      · rw [oracle_eq, oracle_eq] at he
        have e1 := congrFun hP u
        have e2 := congrFun hP' v
        rw [e1, e2]
        exact he
    · intro u hu he
      refine hb2 ⟨some u, ?_, ?_⟩
      · rw [hboth]
        exact List.mem_append_left _ (List.mem_map_of_mem hu)
      · rw [oracle_eq] at he
        exact he)
  have hor := prob_or (Ω := T × (dom → Block) × Block)
    (fun p => (solve (s.board who slope offset) (F p.1) (oracle sha dom p.2.1) p.2.2).value dl = (s.x, List.ofFn fun k => (s.d k, s.e k)))
    fun p => bad1 p.1 p.2 ∨ bad2 p.1 p.2
  have hor' := prob_or (Ω := T × (dom → Block) × Block) (fun p => bad1 p.1 p.2) fun p => bad2 p.1 p.2
  have hε1 : ε ≤ 1 := prob_le_one _
  have hN : (1 : ℝ) ≤ N := by
    obtain ⟨t⟩ := (inferInstance : Nonempty T)
    have h1 := (hdom t fun _ => Classical.arbitrary Block).2
    have h2 := hmem t fun _ => Classical.arbitrary Block
    show (1 : ℝ) ≤ N
    have h3 : 0 < (ending s who slope offset (F t) (oracle sha dom fun _ => Classical.arbitrary Block)).hashed.length := by
      rw [oracle_eq]
      exact List.length_pos_of_mem h2
    exact_mod_cast (show 1 ≤ N by omega)
  push_cast at hbad1 hbad2
  have hbig : ((2 * N : ℝ)) ^ 2 / 2 * (1 / 2 ^ 252) + 2 * N * (1 / 2 ^ 256) + ε * (1 / 2 ^ 252) ≤ N ^ 2 / 2 ^ 250 := by
    have e1 : (N : ℝ) ≤ N ^ 2 := by nlinarith
    have e2 : (1 : ℝ) ≤ N ^ 2 := by nlinarith
    have e3 : ((2 * N : ℝ)) ^ 2 / 2 * (1 / 2 ^ 252) + 2 * N * (1 / 2 ^ 256) + ε * (1 / 2 ^ 252) = (2 * N ^ 2 + N / 8 + ε) / 2 ^ 252 := by
      rw [show (2 : ℝ) ^ 256 = 2 ^ 252 * 16 by rw [show (16 : ℝ) = 2 ^ 4 by norm_num, ← pow_add]]
      field_simp
      ring
    rw [e3, show (2 : ℝ) ^ 252 = 2 ^ 250 * 4 by rw [show (4 : ℝ) = 2 ^ 2 by norm_num, ← pow_add], div_le_div_iff₀ (by positivity) (by positivity)]
    have e4 : (2 * N ^ 2 + N / 8 + ε : ℝ) ≤ 4 * N ^ 2 := by linarith
    have e5 : (0 : ℝ) < 2 ^ 250 := by positivity
    nlinarith
  linarith

/-- C102: whatever the answers are, `solve` asks for exactly `2 K` logarithms, and it finds `2 K + 1`. -/
theorem C102_logs (b : Board G K) (F : Attacker G K) (sha : Sha512) (a : Block) (dl : G → Scalar) : ((solve b F sha a).asked dl).length = 2 * K :=
  solve_asked b dl F sha a

end

/-- What was played depends on nothing else. -/
theorem play_board (b : Board G K) (slope offset : UInt16 → Scalar) (sha : Sha512) (sh : Fin K → Request G → Scalar) (F : Attacker G K)
    (used : List (Fin K × Request G)) : F.play { b with slope := slope, offset := offset } sha sh used = F.play b sha sh used := by
  induction F generalizing used with
  | say m σ => rfl
  | hash x F ih => rw [play_hash, play_hash, ih]
  | sign k r F ih =>
    by_cases hk : b.Admits used k r
    · rw [play_sign b hk, play_sign (b := { b with slope := slope, offset := offset }) hk, ih]
    · rw [play_refuse b hk, play_refuse (b := { b with slope := slope, offset := offset }) hk, ih]

/-- The shares of the others from the secret and `t` shares. -/
theorem share_from {t : Nat} {T : Fin t → ID} (hT : Function.Injective T) (h0 : ∀ j, T j ≠ 0) (x : Scalar) (c : Fin t → Scalar) (i : ID) :
    evalAt (shamirList x c) i.val = weightOfKey (List.ofFn T) i * x +
      fromShares (List.ofFn T) (Function.extend T (fun j => evalAt (shamirList x c) (T j).val) fun _ => 0) i := by
  have hl : (List.ofFn T).Nodup := List.nodup_ofFn.mpr hT
  have hl0 : (0 : ID) ∉ List.ofFn T := by
    rw [List.mem_ofFn]
    rintro ⟨j, hj⟩
    exact h0 j hj
  have hdeg : (toPoly (shamirList x c)).degree < (nodes (List.ofFn T)).card := by
    rw [Keygen.nodes_card hl hl0, List.length_ofFn]
    have := toPoly_degree_lt (shamirList x c)
    rwa [show (shamirList x c).length = t + 1 by simp [shamirList]] at this
  have hf := Lagrange.eq_interpolate (s := nodes (List.ofFn T)) (v := id) (Set.injOn_id _) hdeg
  have hz : evalAt (shamirList x c) (0 : Scalar) = x := by
    rw [← toPoly_eval]; exact toPoly_zero_eval _ _
  rw [← toPoly_eval]
  conv_lhs => rw [hf]
  rw [Lagrange.interpolate_apply, Polynomial.eval_finsetSum, Keygen.nodes_sum hl hl0]
  simp only [Polynomial.eval_mul, Polynomial.eval_C, id, toPoly_eval, hz]
  unfold weightOfKey fromShares
  rw [mul_comm]
  congr 1
  congr 1
  apply List.map_congr_left
  intro k hk
  obtain ⟨j, rfl⟩ := List.mem_ofFn.mp hk
  rw [hT.extend_apply, mul_comm]

def secretsEquiv : Secrets K ≃ Scalar × (Fin K → Scalar) × (Fin K → Scalar) where
  toFun s := (s.x, s.d, s.e)
  invFun p := ⟨p.1, p.2.1, p.2.2⟩
  left_inv _ := rfl
  right_inv _ := rfl

theorem coalition_play {t : UInt16} {C : Type} {T : Fin t.toNat → ID} (hT : Function.Injective T) (h0 : ∀ j, T j ≠ 0) (who : Fin K → UInt16)
    (F : Coalition G K t.toNat C) (sha : Sha512) (s : Secrets K) (c : Fin t.toNat → Scalar) (toss : C) (y : Fin t.toNat → Scalar)
    (hy : y = fun j => evalAt (shamirList s.x c) (T j).val) :
    F.play T who sha s c toss = ending s who (weightOfKey (List.ofFn T)) (fromShares (List.ofFn T) (Function.extend T y fun _ => 0))
      (F y (commitmentsFrom t.toNat (List.ofFn T) (s.x • base) (Function.extend T y fun _ => 0)) (fun k => s.d k • base) (fun k => s.e k • base) toss) sha := by
  subst hy
  unfold ending
  rw [← commitments_shamir T hT h0 s.x c]
  unfold Coalition.play
  refine Eq.trans ?_ (play_board (s.board who (fun _ => 0) fun _ => 0) (weightOfKey (List.ofFn T))
    (fromShares (List.ofFn T) (Function.extend T (fun j => evalAt (shamirList s.x c) (T j).val) fun _ => 0)) sha _ _ []).symm
  have hsh : dealtShare (shamirList s.x c) (s.x • base : G) sha who s.d s.e = s.share (s.board who (weightOfKey (List.ofFn T))
      (fromShares (List.ofFn T) (Function.extend T (fun j => evalAt (shamirList s.x c) (T j).val) fun _ => 0))) sha := by
    funext k r
    unfold dealtShare Secrets.share
    rw [share_from hT h0 s.x c (who k)]
    rfl
  rw [← hsh]
  rfl

/-- C102: `t` parties who are told their shares, and who take part in at most `K` sessions of honest signers, at the same time and with whatever
commitments, signers and messages; if with probability `ε` they find a signature for a message that no honest signer has signed, then with probability
`ε² / N - N² / 2^250` the `2 K + 1` logarithms of the group key and of the commitments of the honest signers are found. -/
theorem C102_coalition {C : Type} [Fintype C] [Nonempty C] (sha : Sha512) {t : UInt16} (T : Fin t.toNat → ID) (hT : Function.Injective T) (h0 : ∀ j, T j ≠ 0)
    (who : Fin K → UInt16) (F : Coalition G K t.toNat C) (dom : Finset (List UInt8)) (N : Nat)
    (hdom : ∀ s c toss O, (∀ x ∈ (F.play T who (oracle sha dom O) s c toss).hashed, x ∈ dom) ∧ (F.play T who (oracle sha dom O) s c toss).hashed.length ≤ N)
    (dl : G → Scalar) (hdl : ∀ a : Scalar, dl (a • base) = a) :
    let ε := prob fun p : (Secrets K × (Fin t.toNat → Scalar)) × C × (dom → Block) =>
      (F.play T who (oracle sha dom p.2.2) p.1.1 p.1.2 p.2.1).Forged (oracle sha dom p.2.2) (p.1.1.x • base)
    ε ^ 2 / N - N ^ 2 / 2 ^ 250 ≤ prob fun p : (Secrets K × (Fin t.toNat → Scalar)) × C × (dom → Block) × Block =>
      (F.solve T who (oracle sha dom p.2.2.1) (p.1.1.x • base) (fun k => p.1.1.d k • base) (fun k => p.1.1.e k • base) p.1.2 p.2.1 p.2.2.2).value dl =
        (p.1.1.x, List.ofFn fun k => (p.1.1.d k, p.1.1.e k)) := by
  classical
  intro ε
  have : NeZero q := ⟨q_pos.ne'⟩
  have : Fintype Scalar := inferInstanceAs (Fintype (ZMod q))
  have : Nonempty Scalar := ⟨0⟩
  have : Fintype (Secrets K) := Fintype.ofEquiv _ secretsEquiv.symm
  have : Nonempty (Secrets K) := secretsEquiv.nonempty
  have : Nonempty Block := ⟨⟨List.replicate 64 0, by simp⟩⟩
  let A : (Fin t.toNat → Scalar) → Secrets K → C → Attacker G K := fun y s toss =>
    F y (commitmentsFrom t.toNat (List.ofFn T) (s.x • base) (Function.extend T y fun _ => 0)) (fun k => s.d k • base) (fun k => s.e k • base) toss
  let off : (Fin t.toNat → Scalar) → UInt16 → Scalar := fun y => fromShares (List.ofFn T) (Function.extend T y fun _ => 0)
  let e : Secrets K × (Fin t.toNat → Scalar) ≃ Secrets K × (Fin t.toNat → Scalar) :=
    Equiv.prodShear (Equiv.refl _) fun s => Equiv.ofBijective _ (C80_shares_uniform T hT h0 s.x)
  have he : ε = prob fun p : (Secrets K × (Fin t.toNat → Scalar)) × C × (dom → Block) =>
      (ending p.1.1 who (weightOfKey (List.ofFn T)) (off p.1.2) (A p.1.2 p.1.1 p.2.1) (oracle sha dom p.2.2)).Forged (oracle sha dom p.2.2)
        (p.1.1.x • base) := by
    rw [← prob_equiv (e.prodCongr (Equiv.refl (C × (dom → Block))))]
    show prob _ = _
    congr 1
    funext p
    rw [coalition_play hT h0 who F (oracle sha dom p.2.2) p.1.1 p.1.2 p.2.1 _ rfl]
    rfl
  rw [he]
  refine prob_average (fun (s : Secrets K × (Fin t.toNat → Scalar)) (p : C × (dom → Block)) =>
      (ending s.1 who (weightOfKey (List.ofFn T)) (off s.2) (A s.2 s.1 p.1) (oracle sha dom p.2)).Forged (oracle sha dom p.2) (s.1.x • base))
    (fun (s : Secrets K × (Fin t.toNat → Scalar)) (p : C × (dom → Block) × Block) =>
      (F.solve T who (oracle sha dom p.2.1) (s.1.x • base) (fun k => s.1.d k • base) (fun k => s.1.e k • base) s.2 p.1 p.2.2).value dl =
        (s.1.x, List.ofFn fun k => (s.1.d k, s.1.e k))) N _ ?_
  rintro ⟨s, y⟩
  obtain ⟨c, hc⟩ := (C80_shares_uniform T hT h0 s.x).2 y
  refine C102_forger_gives_logs sha s who (weightOfKey (List.ofFn T)) (off y) (A y s) dom N (fun toss O => ?_) dl hdl
  have := hdom s c toss O
  rw [coalition_play hT h0 who F (oracle sha dom O) s c toss y hc.symm] at this
  exact this

/-- C102: whatever the answers are, `solve` asks for exactly `2 K` logarithms, and it finds `2 K + 1`. -/
theorem C102_coalition_logs {C : Type} {t : Nat} (F : Coalition G K t C) (T : Fin t → ID) (who : Fin K → UInt16) (sha : Sha512) (A : G) (D E : Fin K → G)
    (y : Fin t → Scalar) (toss : C) (a : Block) (dl : G → Scalar) : ((F.solve T who sha A D E y toss a).asked dl).length = 2 * K :=
  solve_asked _ dl _ sha a

/-- C102: so if `2 K + 1` logarithms are found like this with probability at most `p`, signatures are forged with probability at most
`√(N p + N³ / 2^250)`. -/
theorem C102_forgery_bound {C : Type} [Fintype C] [Nonempty C] (sha : Sha512) {t : UInt16} (T : Fin t.toNat → ID) (hT : Function.Injective T)
    (h0 : ∀ j, T j ≠ 0) (who : Fin K → UInt16) (F : Coalition G K t.toNat C) (dom : Finset (List UInt8)) (N : Nat)
    (hdom : ∀ s c toss O, (∀ x ∈ (F.play T who (oracle sha dom O) s c toss).hashed, x ∈ dom) ∧ (F.play T who (oracle sha dom O) s c toss).hashed.length ≤ N)
    (dl : G → Scalar) (hdl : ∀ a : Scalar, dl (a • base) = a) (p : ℝ)
    (hp : (prob fun p : (Secrets K × (Fin t.toNat → Scalar)) × C × (dom → Block) × Block =>
      (F.solve T who (oracle sha dom p.2.2.1) (p.1.1.x • base) (fun k => p.1.1.d k • base) (fun k => p.1.1.e k • base) p.1.2 p.2.1 p.2.2.2).value dl =
        (p.1.1.x, List.ofFn fun k => (p.1.1.d k, p.1.1.e k))) ≤ p) :
    (prob fun p : (Secrets K × (Fin t.toNat → Scalar)) × C × (dom → Block) =>
      (F.play T who (oracle sha dom p.2.2) p.1.1 p.1.2 p.2.1).Forged (oracle sha dom p.2.2) (p.1.1.x • base)) ≤ Real.sqrt (N * p + N ^ 3 / 2 ^ 250) := by
  have h := (C102_coalition sha T hT h0 who F dom N hdom dl hdl).trans hp
  have hN : (0 : ℝ) < N := by
    have : Nonempty Block := ⟨⟨List.replicate 64 0, by simp⟩⟩
    have h1 := (hdom ⟨0, fun _ => 0, fun _ => 0⟩ (fun _ => 0) (Classical.arbitrary C) fun _ => Classical.arbitrary Block).2
    have hpos : ∀ sha s c toss, 0 < (F.play T who sha s c toss).hashed.length := fun _ _ _ _ => List.length_pos_of_mem (play_hashed _ _ _ _ _).1
    exact_mod_cast (hpos _ _ _ _).trans_le h1
  refine Real.le_sqrt_of_sq_le ?_
  rw [sub_le_iff_le_add, div_le_iff₀ hN] at h
  refine h.trans_eq ?_
  ring

/-- What an attacker asks is bounded. -/
theorem ending_bounded (s : Secrets K) (who : Fin K → UInt16) (slope offset : UInt16 → Scalar) (F : Attacker G K) :
    ∃ (dom : Finset (List UInt8)) (N : Nat), ∀ sha, (∀ x ∈ (ending s who slope offset F sha).hashed, x ∈ dom) ∧ (ending s who slope offset F sha).hashed.length ≤ N := by
  classical
  have : NeZero q := ⟨q_pos.ne'⟩
  have : Fintype Scalar := inferInstanceAs (Fintype (ZMod q))
  have hlen : ∀ (b : Board G K) (F : Attacker G K), ∃ N, ∀ used (sha : Sha512), (F.play b sha (s.share b sha) used).hashed.length ≤ N := by
    intro b F
    induction F with
    | say m σ => exact ⟨1, fun _ _ => le_refl 1⟩
    | hash x F ih =>
      choose N hN using ih
      obtain ⟨M, hM⟩ := (Set.finite_range fun a : Block => N a.1).bddAbove
      refine ⟨M + 1, fun used sha => ?_⟩
      rw [play_hash]
      have h1 := hN (sha.sum x) used sha
      have h2 : N (sha.sum x) ≤ M := hM ⟨⟨sha.sum x, sha.length_sum x⟩, rfl⟩
      show (x :: _).length ≤ M + 1
      rw [List.length_cons]
      omega
    | sign k r F ih =>
      choose N hN using ih
      obtain ⟨M, hM⟩ := (Set.finite_range N).bddAbove
      refine ⟨M + (r.ids.length + 2), fun used sha => ?_⟩
      by_cases hk : b.Admits used k r
      · rw [play_sign b hk]
        have h1 := hN (some (s.share b sha k r)) (used ++ [(k, r)]) sha
        have h2 : N (some (s.share b sha k r)) ≤ M := hM ⟨_, rfl⟩
        show (r.hashed sha b.key ++ _).length ≤ _
        rw [List.length_append, show (r.hashed sha b.key).length = r.ids.length + 2 by simp [Request.hashed]]
        omega
      · rw [play_refuse b hk]
        have h1 := hN none used sha
        have h2 : N none ≤ M := hM ⟨_, rfl⟩
        omega
  obtain ⟨N, hN⟩ := hlen (s.board who slope offset) F
  obtain ⟨dom, hd⟩ := (play_local (s.board who slope offset) s F []).finite N fun f => hN [] (shaOf f)
  refine ⟨dom, N, fun sha => ⟨?_, hN [] sha⟩⟩
  exact hd fun x => ⟨sha.sum x, sha.length_sum x⟩

theorem all_bounded {ι : Type} [Finite ι] (z : ι → Sha512 → Ending G K)
    (h : ∀ i, ∃ (dom : Finset (List UInt8)) (N : Nat), ∀ sha, (∀ x ∈ (z i sha).hashed, x ∈ dom) ∧ (z i sha).hashed.length ≤ N) :
    ∃ (dom : Finset (List UInt8)) (N : Nat), ∀ i sha, (∀ x ∈ (z i sha).hashed, x ∈ dom) ∧ (z i sha).hashed.length ≤ N := by
  classical
  choose dom N h using h
  have := Fintype.ofFinite ι
  refine ⟨Finset.univ.biUnion dom, Finset.univ.sup N, fun i sha => ⟨fun x hx => ?_, ?_⟩⟩
  · exact Finset.mem_biUnion.mpr ⟨i, Finset.mem_univ _, (h i sha).1 x hx⟩
  · exact ((h i sha).2).trans (Finset.le_sup (f := N) (Finset.mem_univ i))

/-- C102: for every coalition there are `dom` and `N` as required. -/
theorem C102_bounded {C : Type} [Finite C] {t : UInt16} (T : Fin t.toNat → ID) (hT : Function.Injective T) (h0 : ∀ j, T j ≠ 0)
    (who : Fin K → UInt16) (F : Coalition G K t.toNat C) : ∃ (dom : Finset (List UInt8)) (N : Nat), ∀ sha s c toss,
      (∀ x ∈ (F.play T who sha s c toss).hashed, x ∈ dom) ∧ (F.play T who sha s c toss).hashed.length ≤ N := by
  have : NeZero q := ⟨q_pos.ne'⟩
  have : Fintype Scalar := inferInstanceAs (Fintype (ZMod q))
  have : Finite (Secrets K) := Finite.of_equiv _ secretsEquiv.symm
  obtain ⟨dom, N, h⟩ := all_bounded (fun (p : Secrets K × (Fin t.toNat → Scalar) × C) sha => F.play T who sha p.1 p.2.1 p.2.2) fun p => by
    simp only [coalition_play hT h0 who F _ p.1 p.2.1 p.2.2 _ rfl]
    exact ending_bounded ..
  exact ⟨dom, N, fun sha s c toss => h (s, c, toss) sha⟩

theorem evalAt_zipWith {n : Nat} {p r : List Scalar} (hp : p.length = n) (hr : r.length = n) (x : Scalar) :
    evalAt (List.zipWith (· + ·) p r) x = evalAt p x + evalAt r x := by
  unfold evalAt
  rw [List.length_zipWith, hp, hr, Nat.min_self, ← Finset.sum_add_distrib]
  refine Finset.sum_congr rfl fun i hi => ?_
  have h1 : i < p.length := by rw [hp]; exact Finset.mem_range.mp hi
  have h2 : i < r.length := by rw [hr]; exact Finset.mem_range.mp hi
  have h3 : i < (List.zipWith (· + ·) p r).length := by rw [List.length_zipWith]; omega
  rw [← smul_add]
  congr 1
  simp only [List.getD_eq_getElem?_getD, List.getElem?_eq_getElem h1, List.getElem?_eq_getElem h2, List.getElem?_eq_getElem h3, List.getElem_zipWith,
    Option.getD_some]

theorem joiners_play {t : UInt16} {C : Type} {T : Fin t.toNat → ID} (hT : Function.Injective T) (h0 : ∀ j, T j ≠ 0) (who : Fin K → UInt16)
    (F : Joiners G K t.toNat C) (sha : Sha512) (s : Secrets K) (c : Fin t.toNat → Scalar) (toss : C) (y : Fin t.toNat → Scalar)
    (hy : y = fun j => evalAt (shamirList s.x c) (T j).val) (r : (Fin (t.toNat + 1) → Scalar) × Attacker G K)
    (hr : r = F y (commitmentsFrom t.toNat (List.ofFn T) (s.x • base) (Function.extend T y fun _ => 0)) (fun k => s.d k • base) (fun k => s.e k • base) toss) :
    F.does T s c toss = r ∧ F.play T who sha s c toss = ending (F.secrets T s c toss) who (weightOfKey (List.ofFn T))
      (fun i => fromShares (List.ofFn T) (Function.extend T y fun _ => 0) i + evalAt (List.ofFn r.1) (ID.val i) - weightOfKey (List.ofFn T) i * r.1 0) r.2 sha := by
  have hd : F.does T s c toss = r := by
    rw [hr, hy, ← commitments_shamir T hT h0 s.x c]
    rfl
  refine ⟨hd, ?_⟩
  unfold ending Joiners.play
  rw [hd]
  refine Eq.trans ?_ (play_board ((F.secrets T s c toss).board who (fun _ => 0) fun _ => 0) (weightOfKey (List.ofFn T))
    (fun i => fromShares (List.ofFn T) (Function.extend T y fun _ => 0) i + evalAt (List.ofFn r.1) (ID.val i) - weightOfKey (List.ofFn T) i * r.1 0) sha _ _ []).symm
  dsimp only
  have hsh : dealtShare (List.zipWith (· + ·) (s.x :: List.ofFn c) (List.ofFn r.1)) ((F.secrets T s c toss).x • base : G) sha who s.d s.e =
      (F.secrets T s c toss).share ((F.secrets T s c toss).board who (weightOfKey (List.ofFn T))
        (fun i => fromShares (List.ofFn T) (Function.extend T y fun _ => 0) i + evalAt (List.ofFn r.1) (ID.val i) - weightOfKey (List.ofFn T) i * r.1 0)) sha := by
    funext k q
    unfold dealtShare Secrets.share
    rw [evalAt_zipWith (p := s.x :: List.ofFn c) (r := List.ofFn r.1) (n := t.toNat + 1) (by simp) List.length_ofFn (ID.val (who k)), show evalAt (s.x :: List.ofFn c) (ID.val (who k)) = _ from share_from hT h0 s.x c (who k), ← hy]
    unfold Joiners.secrets
    rw [hd]
    show respond sha q.ids q.message _ q.D q.E (who k) (s.d k) (s.e k) _ = respond sha q.ids q.message _ q.D q.E (who k) (s.d k) (s.e k) _
    congr 1
    show _ = weight (who k) q.ids * (weightOfKey (List.ofFn T) (who k) * (s.x + r.1 0) + (fromShares (List.ofFn T) (Function.extend T y fun _ => 0) (who k) +
      evalAt (List.ofFn r.1) (ID.val (who k)) - weightOfKey (List.ofFn T) (who k) * r.1 0))
    generalize evalAt (List.ofFn r.1) (ID.val (who k)) = v
    ring
  rw [← hsh]

/-- C102: the same for `t` parties who contribute to the key, after they have seen the public contribution of the others, provided they say the coefficients
of their contribution.  This is what a proof of knowledge in the first round of the key generation is for; the one of the code does not do it (C17, C40). -/
theorem C102_joiners {C : Type} [Fintype C] [Nonempty C] (sha : Sha512) {t : UInt16} (T : Fin t.toNat → ID) (hT : Function.Injective T) (h0 : ∀ j, T j ≠ 0)
    (who : Fin K → UInt16) (F : Joiners G K t.toNat C) (dom : Finset (List UInt8)) (N : Nat)
    (hdom : ∀ s c toss O, (∀ x ∈ (F.play T who (oracle sha dom O) s c toss).hashed, x ∈ dom) ∧ (F.play T who (oracle sha dom O) s c toss).hashed.length ≤ N)
    (dl : G → Scalar) (hdl : ∀ a : Scalar, dl (a • base) = a) :
    let ε := prob fun p : (Secrets K × (Fin t.toNat → Scalar) × C) × (dom → Block) =>
      (F.play T who (oracle sha dom p.2) p.1.1 p.1.2.1 p.1.2.2).Forged (oracle sha dom p.2) ((F.secrets T p.1.1 p.1.2.1 p.1.2.2).x • base)
    ε ^ 2 / N - N ^ 2 / 2 ^ 250 ≤ prob fun p : (Secrets K × (Fin t.toNat → Scalar) × C) × (dom → Block) × Block =>
      (F.solve T who (oracle sha dom p.2.1) (p.1.1.x • base) (fun k => p.1.1.d k • base) (fun k => p.1.1.e k • base) p.1.2.1 p.1.2.2 p.2.2).value dl =
        (p.1.1.x, List.ofFn fun k => (p.1.1.d k, p.1.1.e k)) := by
  classical
  intro ε
  have : NeZero q := ⟨q_pos.ne'⟩
  have : Fintype Scalar := inferInstanceAs (Fintype (ZMod q))
  have : Nonempty Scalar := ⟨0⟩
  have : Fintype (Secrets K) := Fintype.ofEquiv _ secretsEquiv.symm
  have : Nonempty (Secrets K) := secretsEquiv.nonempty
  have : Nonempty Block := ⟨⟨List.replicate 64 0, by simp⟩⟩
  let r : Secrets K × (Fin t.toNat → Scalar) × C → (Fin (t.toNat + 1) → Scalar) × Attacker G K := fun p =>
    F p.2.1 (commitmentsFrom t.toNat (List.ofFn T) (p.1.x • base) (Function.extend T p.2.1 fun _ => 0)) (fun k => p.1.d k • base) (fun k => p.1.e k • base) p.2.2
  let off : Secrets K × (Fin t.toNat → Scalar) × C → UInt16 → Scalar := fun p i =>
    fromShares (List.ofFn T) (Function.extend T p.2.1 fun _ => 0) i + evalAt (List.ofFn (r p).1) (ID.val i) - weightOfKey (List.ofFn T) i * (r p).1 0
  let sec : Secrets K × (Fin t.toNat → Scalar) × C → Secrets K := fun p => ⟨p.1.x + (r p).1 0, p.1.d, p.1.e⟩
  let e : Secrets K × (Fin t.toNat → Scalar) × C ≃ Secrets K × (Fin t.toNat → Scalar) × C :=
    Equiv.prodShear (Equiv.refl _) fun s => (Equiv.ofBijective _ (C80_shares_uniform T hT h0 s.x)).prodCongr (Equiv.refl C)
  have hplay : ∀ sha s c toss, F.play T who sha s c toss = ending (sec (e (s, c, toss))) who (weightOfKey (List.ofFn T)) (off (e (s, c, toss)))
      (r (e (s, c, toss))).2 sha ∧ F.secrets T s c toss = sec (e (s, c, toss)) := by
    intro sha s c toss
    obtain ⟨h1, h2⟩ := joiners_play hT h0 who F sha s c toss _ rfl _ rfl
    have h3 : F.secrets T s c toss = sec (e (s, c, toss)) := by
      unfold Joiners.secrets
      rw [h1]
      rfl
    rw [h3] at h2
    exact ⟨h2, h3⟩
  have he : ε = prob fun p : (Secrets K × (Fin t.toNat → Scalar) × C) × Unit × (dom → Block) =>
      (ending (sec p.1) who (weightOfKey (List.ofFn T)) (off p.1) (r p.1).2 (oracle sha dom p.2.2)).Forged (oracle sha dom p.2.2) ((sec p.1).x • base) := by
    rw [← prob_equiv (e.prodCongr (Equiv.punitProd (dom → Block)).symm)]
    show prob _ = _
    congr 1
    funext p
    rw [(hplay (oracle sha dom p.2) p.1.1 p.1.2.1 p.1.2.2).1, (hplay (oracle sha dom p.2) p.1.1 p.1.2.1 p.1.2.2).2]
    rfl
  have hsol : ∀ p : (Secrets K × (Fin t.toNat → Scalar) × C) × Unit × (dom → Block) × Block,
      (solve ((sec p.1).board who (weightOfKey (List.ofFn T)) (off p.1)) (r p.1).2 (oracle sha dom p.2.2.1) p.2.2.2).value dl =
        ((sec p.1).x, List.ofFn fun k => ((sec p.1).d k, (sec p.1).e k)) →
      (F.solve T who (oracle sha dom p.2.2.1) (p.1.1.x • base) (fun k => p.1.1.d k • base) (fun k => p.1.1.e k • base) p.1.2.1 p.1.2.2 p.2.2.2).value dl =
        (p.1.1.x, List.ofFn fun k => (p.1.1.d k, p.1.1.e k)) := by
    intro p hp
    unfold Joiners.solve
    rw [value_bind]
    have hb : (⟨p.1.1.x • base + (r p.1).1 0 • base, who, fun k => p.1.1.d k • base, fun k => p.1.1.e k • base, weightOfKey (List.ofFn T), off p.1⟩ : Board G K) =
        (sec p.1).board who (weightOfKey (List.ofFn T)) (off p.1) := by
      unfold Secrets.board
      congr 1
      exact (add_smul _ _ _).symm
    have hp' : (solve ⟨p.1.1.x • base + (r p.1).1 0 • base, who, fun k => p.1.1.d k • base, fun k => p.1.1.e k • base, weightOfKey (List.ofFn T), off p.1⟩
      (r p.1).2 (oracle sha dom p.2.2.1) p.2.2.2).value dl = ((sec p.1).x, List.ofFn fun k => ((sec p.1).d k, (sec p.1).e k)) := by rw [hb]; exact hp
    refine (congrArg (fun v : Scalar × List (Scalar × Scalar) => (v.1 - (r p.1).1 0, v.2)) hp').trans ?_
    show (p.1.1.x + (r p.1).1 0 - (r p.1).1 0, _) = _
    rw [add_sub_cancel_right]
  rw [he]
  refine (prob_average (fun (p : Secrets K × (Fin t.toNat → Scalar) × C) (w : Unit × (dom → Block)) =>
      (ending (sec p) who (weightOfKey (List.ofFn T)) (off p) (r p).2 (oracle sha dom w.2)).Forged (oracle sha dom w.2) ((sec p).x • base))
    (fun (p : Secrets K × (Fin t.toNat → Scalar) × C) (w : Unit × (dom → Block) × Block) =>
      (solve ((sec p).board who (weightOfKey (List.ofFn T)) (off p)) (r p).2 (oracle sha dom w.2.1) w.2.2).value dl =
        ((sec p).x, List.ofFn fun k => ((sec p).d k, (sec p).e k))) N _ ?_).trans ?_
  · intro p
    refine C102_forger_gives_logs sha (sec p) who (weightOfKey (List.ofFn T)) (off p) (fun _ : Unit => (r p).2) dom N (fun _ O => ?_) dl hdl
    obtain ⟨⟨s, c, toss⟩, rfl⟩ := e.surjective p
    have := hdom s c toss O
    rw [(hplay (oracle sha dom O) s c toss).1] at this
    exact this
  · refine (prob_mono hsol).trans_eq ?_
    rw [← prob_equiv ((Equiv.refl (Secrets K × (Fin t.toNat → Scalar) × C)).prodCongr (Equiv.punitProd ((dom → Block) × Block)).symm)]
    rfl

/-- C102: for all joiners there are `dom` and `N` as required. -/
theorem C102_joiners_bounded {C : Type} [Finite C] {t : UInt16} (T : Fin t.toNat → ID) (hT : Function.Injective T) (h0 : ∀ j, T j ≠ 0)
    (who : Fin K → UInt16) (F : Joiners G K t.toNat C) : ∃ (dom : Finset (List UInt8)) (N : Nat), ∀ sha s c toss,
      (∀ x ∈ (F.play T who sha s c toss).hashed, x ∈ dom) ∧ (F.play T who sha s c toss).hashed.length ≤ N := by
  have : NeZero q := ⟨q_pos.ne'⟩
  have : Fintype Scalar := inferInstanceAs (Fintype (ZMod q))
  have : Finite (Secrets K) := Finite.of_equiv _ secretsEquiv.symm
  obtain ⟨dom, N, h⟩ := all_bounded (fun (p : Secrets K × (Fin t.toNat → Scalar) × C) sha => F.play T who sha p.1 p.2.1 p.2.2) fun p => by
    simp only [(joiners_play hT h0 who F _ p.1 p.2.1 p.2.2 _ rfl _ rfl).2]
    exact ending_bounded ..
  exact ⟨dom, N, fun sha s c toss => h (s, c, toss) sha⟩

/-- C102: this too takes exactly `2 K` logarithms. -/
theorem C102_joiners_logs {C : Type} {t : Nat} (F : Joiners G K t C) (T : Fin t → ID) (who : Fin K → UInt16) (sha : Sha512) (A : G) (D E : Fin K → G)
    (y : Fin t → Scalar) (toss : C) (a : Block) (dl : G → Scalar) : ((F.solve T who sha A D E y toss a).asked dl).length = 2 * K := by
  unfold Joiners.solve
  dsimp only
  rw [asked_bind, List.length_append, solve_asked]
  rfl

open State Sign in
/-- C102: the sessions of the code do what the honest signers of the game do: one that has sent the commitments to the nonces of session `k` has sent nothing
else, or one share for one request that is admitted, namely the share of the game. -/
theorem C102_session {sha : Sha512} (secret : SecretShare G) (shares : Public G) (ids : IDSlice) (message : Bytes) (timeout now : Nat)
    (s₀ : State G (Sign.Round G)) (h₀ : newSignState sha ids secret shares message timeout now = .ok s₀) (hnd : ids.Nodup)
    (s : Secrets K) (who : Fin K → UInt16) (slope offset : UInt16 → Scalar) (k : Fin K) (hk : who k = secret.id) (hA : shares.groupKey = s.x • base)
    (hs : secret.secret = slope secret.id * s.x + offset secret.id)
    {h : List (Op G × Ret G)} {s₁ : State G (Sign.Round G)} (hh : Hist (Sign.impl sha) s₀ h s₁)
    (hfirst : ∀ m ∈ Spec.emitted h, ∀ c, m.sign1 = some c → c.Di = s.d k • base ∧ c.Ei = s.e k • base) :
    let b : Board G K := s.board who slope offset
    Spec.emitted h = [] ∨ Spec.emitted h = [Message.newSign1 secret.id (b.D k) (b.E k)] ∨
      ∃ r : Request G, r.ids = ids ∧ r.message = message ∧ Spec.Commitments secret.id ids h r.D r.E ∧ b.Admits [] k r ∧
        Spec.emitted h = [Message.newSign1 secret.id (b.D k) (b.E k), Message.newSign2 secret.id (s.share b sha k r)] := by
  intro b
  have hmem := (C42_accepted secret shares ids message timeout now s₀ h₀).1
  obtain ⟨r₀, hs₀, rfl⟩ := sign_start_of_new h₀ hnd
  obtain ⟨n, h1, _⟩ := sent secret shares ids message timeout now r₀ hs₀ hh
  match n, h1 with
  | 0, h1 => exact Or.inl h1
  | 1, ⟨D, E, h1, _⟩ =>
    obtain ⟨h2, h3⟩ := hfirst _ (by rw [h1]; exact List.mem_singleton.mpr rfl) _ rfl
    refine Or.inr (Or.inl ?_)
    rw [h1, show D = b.D k from h2, show E = b.E k from h3]
  | 2, ⟨D, E, z, h1, h2, h3⟩ =>
    obtain ⟨h4, h5⟩ := hfirst _ (by rw [h1]; exact List.mem_cons_self ..) _ rfl
    have h4' : D secret.id = b.D k := h4
    have h5' : E secret.id = b.E k := h5
    refine Or.inr (Or.inr ⟨⟨ids, message, D, E⟩, rfl, rfl, h2, ⟨List.not_mem_nil, ?_, ?_, ?_⟩, ?_⟩)
    · show who k ∈ ids
      rw [hk]
      exact hmem
    · show D (who k) = _
      rw [hk]
      exact h4
    · show E (who k) = _
      rw [hk]
      exact h5
    · rw [h1, h4', h5']
      have : z = s.share b sha k ⟨ids, message, D, E⟩ := by
        apply smul_base_injective (G := G)
        show z • (base : G) = _
        rw [h3]
        show _ = Verif.Spec.respond sha ids message (s.x • base) D E (who k) (s.d k) (s.e k) (weight (who k) ids * (slope (who k) * s.x + offset (who k))) • base
        rw [hk, ← hs, ← hA]
        unfold Verif.Spec.respond Verif.Spec.nonce
        rw [h4', h5']
        show _ • s.e k • base + s.d k • base + _ = _
        module
      rw [this]

end Verif.Props
