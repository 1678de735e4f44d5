import Verif.Lemmas.LocalFork
import Verif.Spec.OneMore
import Verif.Props.Life

/-!
Running an attacker: what is hashed next depends on the hash values so far, and the shares can be had from discrete logarithms.
-/

namespace Verif.OneMore

open Spec LocalFork

variable {G : Type} [RGroup G] {K : Nat}

/-! ### Algorithms that ask for logarithms -/

section

variable {α β : Type}

theorem value_bind (dl : G → Scalar) (m : Logs G α) (f : α → Logs G β) : (m.bind f).value dl = (f (m.value dl)).value dl := by
  induction m with
  | done a => rfl
  | log g next ih => exact ih (dl g)

theorem asked_bind (dl : G → Scalar) (m : Logs G α) (f : α → Logs G β) : (m.bind f).asked dl = m.asked dl ++ (f (m.value dl)).asked dl := by
  induction m with
  | done a => rfl
  | log g next ih => exact congrArg (g :: ·) (ih (dl g))

end

/-! ### What is hashed -/

/-- The hash function whose values are those of `f`. -/
def shaOf (f : List UInt8 → Block) : Sha512 := ⟨fun s => (f s).1, fun s => (f s).2⟩

/-- What a signer answers depends only on the strings it hashes. -/
theorem rho_congr {sha sha' : Sha512} {A : G} (r : Request G) (h : ∀ x ∈ r.hashed sha A, sha.sum x = sha'.sum x) :
    (∀ i ∈ r.ids, rho sha' r.ids r.message r.D r.E i = rho sha r.ids r.message r.D r.E i) ∧
      groupNonce sha' r.ids r.message r.D r.E = groupNonce sha r.ids r.message r.D r.E ∧
      chal sha' r.ids r.message A r.D r.E = chal sha r.ids r.message A r.D r.E ∧ r.hashed sha' A = r.hashed sha A := by
  have h1 : sha.sum r.message = sha'.sum r.message := h _ (List.mem_cons_self ..)
  have h2 : ∀ i, bindingInput sha' i r.message (commitmentList r.ids r.D r.E) = bindingInput sha i r.message (commitmentList r.ids r.D r.E) := by
    intro i; unfold bindingInput; rw [h1]
  have h3 : ∀ i ∈ r.ids, rho sha' r.ids r.message r.D r.E i = rho sha r.ids r.message r.D r.E i := by
    intro i hi
    unfold rho bindingFactor
    rw [h2, h]
    exact List.mem_cons_of_mem _ (List.mem_append_left _ (List.mem_map.mpr ⟨i, hi, rfl⟩))
  have h4 : groupNonce sha' r.ids r.message r.D r.E = groupNonce sha r.ids r.message r.D r.E := by
    unfold groupNonce nonce
    congr 1
    exact List.map_congr_left fun i hi => by rw [h3 i hi]
  refine ⟨h3, h4, ?_, ?_⟩
  · unfold chal Props.Spec.challenge
    rw [h4]
    have := h (challengeInput (groupNonce sha r.ids r.message r.D r.E) A r.message) (List.mem_cons_of_mem _ (List.mem_append_right _ (List.mem_singleton.mpr rfl)))
    unfold challengeInput at this
    rw [this]
  · unfold Request.hashed
    rw [h4]
    simp only [h2]

theorem hashed_local (A : G) (r : Request G) : Local fun f => r.hashed (shaOf f) A := by
  intro f f' j h
  cases j with
  | zero => rfl
  | succ j =>
    have hb : ∀ i, f r.message = f' r.message → bindingInput (shaOf f') i r.message (commitmentList r.ids r.D r.E) =
        bindingInput (shaOf f) i r.message (commitmentList r.ids r.D r.E) := by
      intro i hi; unfold bindingInput; rw [show (shaOf f').sum r.message = (shaOf f).sum r.message from congrArg Subtype.val hi.symm]
    have hm : f r.message = f' r.message := h _ (by unfold Request.hashed; rw [List.take_succ_cons]; exact List.mem_cons_self ..)
    rcases Nat.lt_or_ge j r.ids.length with hj | hj
    · unfold Request.hashed
      rw [List.take_succ_cons, List.take_succ_cons, List.take_append_of_le_length (by rw [List.length_map]; omega),
        List.take_append_of_le_length (by rw [List.length_map]; omega)]
      congr 2
      exact List.map_congr_left fun i _ => hb i hm
    · have h2 : ∀ i ∈ r.ids, rho (shaOf f') r.ids r.message r.D r.E i = rho (shaOf f) r.ids r.message r.D r.E i := by
        intro i hi
        unfold rho bindingFactor
        rw [hb i hm]
        show (leValue (f' _).1 : Scalar) = (leValue (f _).1 : Scalar)
        rw [h]
        unfold Request.hashed
        rw [List.take_succ_cons, List.take_append, List.take_of_length_le (by rw [List.length_map]; exact hj)]
        exact List.mem_cons_of_mem _ (List.mem_append_left _ (List.mem_map.mpr ⟨i, hi, rfl⟩))
      have h4 : groupNonce (shaOf f') r.ids r.message r.D r.E = groupNonce (shaOf f) r.ids r.message r.D r.E := by
        unfold groupNonce nonce
        congr 1
        exact List.map_congr_left fun i hi => by rw [h2 i hi]
      have h5 : r.hashed (shaOf f') A = r.hashed (shaOf f) A := by
        unfold Request.hashed
        rw [h4]
        congr 2
        exact List.map_congr_left fun i _ => hb i hm
      dsimp only
      rw [h5]

variable (b : Board G K) (s : Secrets K)

theorem share_congr {sha sha' : Sha512} {k : Fin K} {r : Request G} (hk : b.who k ∈ r.ids) (h : ∀ x ∈ r.hashed sha b.key, sha.sum x = sha'.sum x) :
    s.share b sha' k r = s.share b sha k r := by
  obtain ⟨h1, _, h2, _⟩ := rho_congr r h
  unfold Secrets.share respond
  rw [h1 _ hk, h2]

theorem play_hash (F : List UInt8 → Attacker G K) (x : List UInt8) (sha : Sha512) (sh : Fin K → Request G → Scalar) (used : List (Fin K × Request G)) :
    (Attacker.hash x F).play b sha sh used = { (F (sha.sum x)).play b sha sh used with hashed := x :: ((F (sha.sum x)).play b sha sh used).hashed } := rfl

theorem play_sign {k : Fin K} {r : Request G} {used : List (Fin K × Request G)} (h : b.Admits used k r) (F : Option Scalar → Attacker G K) (sha : Sha512)
    (sh : Fin K → Request G → Scalar) : (Attacker.sign k r F).play b sha sh used =
      { (F (some (sh k r))).play b sha sh (used ++ [(k, r)]) with
        hashed := r.hashed sha b.key ++ ((F (some (sh k r))).play b sha sh (used ++ [(k, r)])).hashed } := if_pos h

theorem play_refuse {k : Fin K} {r : Request G} {used : List (Fin K × Request G)} (h : ¬ b.Admits used k r) (F : Option Scalar → Attacker G K) (sha : Sha512)
    (sh : Fin K → Request G → Scalar) : (Attacker.sign k r F).play b sha sh used = (F none).play b sha sh used := if_neg h

/-- What is hashed next depends only on the hash values so far. -/
theorem play_local (F : Attacker G K) (used : List (Fin K × Request G)) :
    Local fun f => (F.play b (shaOf f) (s.share b (shaOf f)) used).hashed := by
  induction F generalizing used with
  | say m σ => exact Local.single _
  | hash x F ih =>
    refine Local.append (p := fun _ => [x]) (r := fun f => f x) (p' := fun a f => ((F a.1).play b (shaOf f) (s.share b (shaOf f)) used).hashed)
      (Local.single x) (fun f f' h => (h x (List.mem_singleton.mpr rfl)).symm) fun a => ih a.1 used
  | sign k r F ih =>
    by_cases hk : b.Admits used k r
    · simp only [play_sign b hk]
      exact Local.append (p := fun f => r.hashed (shaOf f) b.key) (r := fun f => s.share b (shaOf f) k r)
        (p' := fun z f => ((F (some z)).play b (shaOf f) (s.share b (shaOf f)) (used ++ [(k, r)])).hashed) (hashed_local b.key r)
        (fun f f' h => share_congr b s hk.2.1 fun x hx => congrArg Subtype.val (h x hx)) fun z => ih (some z) _
    · simp only [play_refuse b hk]
      exact ih none used

/-- How it ends depends only on the strings hashed. -/
theorem play_congr {sha sha' : Sha512} (F : Attacker G K) (used : List (Fin K × Request G))
    (h : ∀ x ∈ (F.play b sha (s.share b sha) used).hashed, sha.sum x = sha'.sum x) :
    F.play b sha' (s.share b sha') used = F.play b sha (s.share b sha) used := by
  induction F generalizing used with
  | say m σ => rfl
  | hash x F ih =>
    rw [play_hash] at h
    have h1 : sha.sum x = sha'.sum x := h x (List.mem_cons_self ..)
    rw [play_hash, play_hash, ← h1, ih _ _ fun y hy => h y (List.mem_cons_of_mem _ hy)]
  | sign k r F ih =>
    by_cases hk : b.Admits used k r
    · rw [play_sign b hk] at h
      have h1 : ∀ x ∈ r.hashed sha b.key, sha.sum x = sha'.sum x := fun x hx => h x (List.mem_append_left _ hx)
      rw [play_sign b hk, play_sign b hk, share_congr b s hk.2.1 h1, (rho_congr r h1).2.2.2, ih _ _ fun y hy => h y (List.mem_append_right _ hy)]
    · rw [play_refuse b hk] at h
      rw [play_refuse b hk, play_refuse b hk, ih _ _ h]

theorem play_signed (sha : Sha512) (sh : Fin K → Request G → Scalar) (F : Attacker G K) (used : List (Fin K × Request G)) :
    used <+: (F.play b sha sh used).signed := by
  induction F generalizing used with
  | say m σ => exact List.prefix_rfl
  | hash x F ih => exact ih _ used
  | sign k r F ih =>
    by_cases hk : b.Admits used k r
    · rw [play_sign b hk]
      exact (List.prefix_append _ _).trans (ih _ _)
    · rw [play_refuse b hk]
      exact ih _ _

/-- The strings of the answered requests, and the one that the verifier hashes, are among those hashed. -/
theorem play_hashed (sha : Sha512) (sh : Fin K → Request G → Scalar) (F : Attacker G K) (used : List (Fin K × Request G)) :
    challengeInput (F.play b sha sh used).signature.R b.key (F.play b sha sh used).message ∈ (F.play b sha sh used).hashed ∧
      ∀ p ∈ (F.play b sha sh used).signed, p ∈ used ∨ b.who p.1 ∈ p.2.ids ∧ ∀ x ∈ p.2.hashed sha b.key, x ∈ (F.play b sha sh used).hashed := by
  induction F generalizing used with
  | say m σ => exact ⟨List.mem_singleton.mpr rfl, fun p hp => Or.inl hp⟩
  | hash x F ih =>
    obtain ⟨h1, h2⟩ := ih (sha.sum x) used
    rw [play_hash]
    exact ⟨List.mem_cons_of_mem _ h1, fun p hp => (h2 p hp).imp id fun h => ⟨h.1, fun y hy => List.mem_cons_of_mem _ (h.2 y hy)⟩⟩
  | sign k r F ih =>
    by_cases hk : b.Admits used k r
    · rw [play_sign b hk]
      obtain ⟨h1, h2⟩ := ih (some (sh k r)) (used ++ [(k, r)])
      refine ⟨List.mem_append_right _ h1, fun p hp => ?_⟩
      rcases h2 p hp with h | h
      · rcases List.mem_append.mp h with h | h
        · exact Or.inl h
        · rw [List.mem_singleton] at h
          subst h
          exact Or.inr ⟨hk.2.1, fun y hy => List.mem_append_left _ hy⟩
      · exact Or.inr ⟨h.1, fun y hy => List.mem_append_right _ (h.2 y hy)⟩
    · rw [play_refuse b hk]
      exact ih _ _

/-! ### Without the secrets -/

/-- The binding factor and the weighted challenge of a request. -/
def factor (sha : Sha512) (k : Fin K) (r : Request G) : Scalar := rho sha r.ids r.message r.D r.E (b.who k)

/-- The weighted challenge. -/
def load (sha : Sha512) (k : Fin K) (r : Request G) : Scalar := weight (b.who k) r.ids * chal sha r.ids r.message b.key r.D r.E

section

variable (sha : Sha512) (known : List (Equation K)) {used : List (Fin K × Request G)}

theorem follow_known {k : Fin K} {r : Request G} (h : b.Admits used k r) {q : Equation K}
    (hq : known.find? (fun q => decide (q.k = k ∧ q.ρ = factor b sha k r ∧ q.w = load b sha k r)) = some q) (F : Option Scalar → Attacker G K) :
    (Attacker.sign k r F).follow b sha known used = ((F (some q.z)).follow b sha known (used ++ [(k, r)])).bind fun p =>
      .done ({ p.1 with hashed := r.hashed sha b.key ++ p.1.hashed }, p.2) := by
  unfold factor load at hq
  rw [Attacker.follow, if_pos h]
  dsimp only
  rw [hq]

theorem follow_new {k : Fin K} {r : Request G} (h : b.Admits used k r)
    (hq : known.find? (fun q => decide (q.k = k ∧ q.ρ = factor b sha k r ∧ q.w = load b sha k r)) = none) (F : Option Scalar → Attacker G K) :
    (Attacker.sign k r F).follow b sha known used = .log (b.D k + factor b sha k r • b.E k + load b sha k r • b.share (b.who k)) fun z =>
      ((F (some z)).follow b sha known (used ++ [(k, r)])).bind fun p =>
        .done ({ p.1 with hashed := r.hashed sha b.key ++ p.1.hashed }, ⟨k, factor b sha k r, load b sha k r, z⟩ :: p.2) := by
  unfold factor load at hq ⊢
  rw [Attacker.follow, if_pos h]
  dsimp only
  rw [hq]

theorem follow_refuse {k : Fin K} {r : Request G} (h : ¬ b.Admits used k r) (F : Option Scalar → Attacker G K) :
    (Attacker.sign k r F).follow b sha known used = (F none).follow b sha known used := by
  rw [Attacker.follow, if_neg h]

variable (dl : G → Scalar)

/-- Whatever the answers are: one logarithm for each new equation, and at most one new equation for each session. -/
theorem follow_asked (F : Attacker G K) (used : List (Fin K × Request G)) :
    ((F.follow b sha known used).asked dl).length = ((F.follow b sha known used).value dl).2.length ∧
      (((F.follow b sha known used).value dl).2.map Equation.k).Nodup ∧
      ∀ q ∈ ((F.follow b sha known used).value dl).2, q.k ∉ used.map Prod.fst := by
  induction F generalizing used with
  | say m σ => exact ⟨rfl, List.nodup_nil, fun q hq => by cases hq⟩
  | hash x F ih =>
    rw [Attacker.follow, asked_bind, value_bind]
    simpa only [Logs.asked, Logs.value, List.append_nil] using ih (sha.sum x) used
  | sign k r F ih =>
    by_cases hk : b.Admits used k r
    · cases hq : known.find? (fun q => decide (q.k = k ∧ q.ρ = factor b sha k r ∧ q.w = load b sha k r)) with
      | some q =>
        rw [follow_known b sha known hk hq, asked_bind, value_bind]
        obtain ⟨h1, h2, h3⟩ := ih (some q.z) (used ++ [(k, r)])
        refine ⟨by simpa only [Logs.asked, Logs.value, List.append_nil] using h1, h2, fun q hq hm => h3 q hq ?_⟩
        rw [List.map_append]
        exact List.mem_append_left _ hm
      | none =>
        rw [follow_new b sha known hk hq]
        simp only [Logs.asked, Logs.value, asked_bind, value_bind, List.append_nil]
        generalize dl (b.D k + factor b sha k r • b.E k + load b sha k r • b.share (b.who k)) = z
        obtain ⟨h1, h2, h3⟩ := ih (some z) (used ++ [(k, r)])
        refine ⟨by rw [List.length_cons, List.length_cons, h1], ?_, ?_⟩
        · rw [List.map_cons, List.nodup_cons]
          refine ⟨fun hm => ?_, h2⟩
          obtain ⟨q, hq, he⟩ := List.mem_map.mp hm
          refine h3 q hq ?_
          rw [List.map_append]
          exact List.mem_append_right _ (by rw [he]; exact List.mem_singleton.mpr rfl)
        · intro q hq
          rcases List.mem_cons.mp hq with hq | hq
          · rw [hq]
            exact hk.1
          · intro hm
            refine h3 q hq ?_
            rw [List.map_append]
            exact List.mem_append_left _ hm
    · rw [follow_refuse b sha known hk]
      exact ih none used

/-- The equation is true. -/
def Holds (q : Equation K) : Prop := q.z = s.d q.k + q.ρ * s.e q.k + q.w * (b.slope (b.who q.k) * s.x + b.offset (b.who q.k))

end

section

variable (who : Fin K → UInt16) (slope offset : UInt16 → Scalar) (sha : Sha512) (known : List (Equation K)) (dl : G → Scalar)

theorem share_log (hdl : ∀ a : Scalar, dl (a • base) = a) (k : Fin K) (r : Request G) :
    dl ((s.board who slope offset : Board G K).D k + factor (s.board who slope offset : Board G K) sha k r • (s.board who slope offset : Board G K).E k +
      load (s.board who slope offset : Board G K) sha k r • (s.board who slope offset : Board G K).share (who k)) =
        s.share (s.board who slope offset : Board G K) sha k r := by
  rw [← hdl (s.share (s.board who slope offset : Board G K) sha k r)]
  congr 1
  unfold Secrets.share respond factor load Board.share
  show s.d k • base + rho sha r.ids r.message r.D r.E (who k) • s.e k • base +
    (weight (who k) r.ids * chal sha r.ids r.message (s.x • base) r.D r.E) • (slope (who k) • s.x • base + offset (who k) • base) = _
  show _ = (s.e k * rho sha r.ids r.message r.D r.E (who k) +
    weight (who k) r.ids * (slope (who k) * s.x + offset (who k)) * chal sha r.ids r.message (s.x • base) r.D r.E + s.d k) • (base : G)
  generalize rho sha r.ids r.message r.D r.E (who k) = ρ
  generalize chal sha r.ids r.message (s.x • base) r.D r.E = c
  rw [smul_smul, smul_smul, ← add_smul, ← add_smul, smul_smul, ← add_smul]
  congr 1
  ring

theorem share_equation (k : Fin K) (r : Request G) : s.share (s.board who slope offset : Board G K) sha k r =
    s.d k + factor (s.board who slope offset : Board G K) sha k r * s.e k + load (s.board who slope offset : Board G K) sha k r * (slope (who k) * s.x + offset (who k)) := by
  unfold Secrets.share respond factor load
  show s.e k * rho sha r.ids r.message r.D r.E (who k) +
    weight (who k) r.ids * (slope (who k) * s.x + offset (who k)) * chal sha r.ids r.message (s.x • base) r.D r.E + s.d k =
    s.d k + rho sha r.ids r.message r.D r.E (who k) * s.e k + weight (who k) r.ids * chal sha r.ids r.message (s.x • base) r.D r.E * (slope (who k) * s.x + offset (who k))
  ring

/-- With true logarithms it is the same as with the secrets, the new equations are true, each belongs to a request that was answered, and none was known. -/
theorem follow_value (hdl : ∀ a : Scalar, dl (a • base) = a) (hknown : ∀ q ∈ known, Holds (s.board who slope offset : Board G K) s q) (F : Attacker G K)
    (used : List (Fin K × Request G)) :
    ((F.follow (s.board who slope offset) sha known used).value dl).1 =
        F.play (s.board who slope offset) sha (s.share (s.board who slope offset : Board G K) sha) used ∧
      ∀ q ∈ ((F.follow (s.board who slope offset) sha known used).value dl).2, Holds (s.board who slope offset : Board G K) s q ∧
        (∃ r, (q.k, r) ∈ (F.play (s.board who slope offset) sha (s.share (s.board who slope offset : Board G K) sha) used).signed ∧
          q.ρ = factor (s.board who slope offset) sha q.k r ∧ q.w = load (s.board who slope offset) sha q.k r) ∧
        ∀ q' ∈ known, q'.k = q.k → q'.ρ = q.ρ → q'.w ≠ q.w := by
  induction F generalizing used with
  | say m σ => exact ⟨rfl, fun q hq => by cases hq⟩
  | hash x F ih =>
    obtain ⟨h1, h2⟩ := ih (sha.sum x) used
    rw [Attacker.follow, value_bind, play_hash]
    simp only [Logs.value]
    exact ⟨by rw [h1], h2⟩
  | sign k r F ih =>
    by_cases hk : (s.board who slope offset : Board G K).Admits used k r
    · rw [play_sign _ hk]
      cases hq : known.find? (fun q => decide (q.k = k ∧ q.ρ = factor (s.board who slope offset) sha k r ∧ q.w = load (s.board who slope offset) sha k r)) with
      | some q =>
        rw [follow_known _ sha known hk hq, value_bind]
        simp only [Logs.value]
        have hz : q.z = s.share (s.board who slope offset : Board G K) sha k r := by
          have h3 := List.find?_some hq
          simp only [decide_eq_true_eq] at h3
          obtain ⟨e1, e2, e3⟩ := h3
          have h4 := hknown q (List.mem_of_find?_eq_some hq)
          rw [share_equation, ← e2, ← e3, ← e1]
          exact h4
        obtain ⟨h1, h2⟩ := ih (some q.z) (used ++ [(k, r)])
        rw [hz] at h1 h2 ⊢
        exact ⟨by rw [h1], h2⟩
      | none =>
        rw [follow_new _ sha known hk hq]
        simp only [Logs.value, value_bind]
        rw [show (s.board who slope offset : Board G K).who k = who k from rfl, share_log s who slope offset sha dl hdl]
        obtain ⟨h1, h2⟩ := ih (some (s.share (s.board who slope offset : Board G K) sha k r)) (used ++ [(k, r)])
        refine ⟨by rw [h1], fun q hq' => ?_⟩
        rcases List.mem_cons.mp hq' with hq' | hq'
        · subst hq'
          refine ⟨?_, ⟨r, ?_, rfl, rfl⟩, ?_⟩
          · exact share_equation s who slope offset sha k r
          · exact (play_signed _ sha _ _ _).subset (List.mem_append_right _ (List.mem_singleton.mpr rfl))
          · intro q' hm e1 e2 e3
            have := List.find?_eq_none.mp hq q' hm
            simp only [decide_eq_true_eq] at this
            exact this ⟨e1, e2, e3⟩
        · exact h2 q hq'
    · rw [play_refuse _ hk, follow_refuse _ sha known hk]
      exact ih none used

end

/-! ### The solution -/

section

variable (x : Scalar) (eqs eqs' : List (Equation K)) (dl : G → Scalar)

/-- Is there an equation for the session? -/
def has (eqs : List (Equation K)) (k : Fin K) : Bool := (eqs.find? fun q => decide (q.k = k)).isSome

theorem nonces_asked (k : Fin K) (y : Scalar) (o o' : Option (Equation K)) :
    ((nonces b k y o o').asked dl).length + (if o.isSome then 1 else 0) + (if o'.isSome then 1 else 0) = 2 := by
  cases o <;> cases o' <;> rfl

theorem allNonces_asked (l : List (Fin K)) :
    ((allNonces b x eqs eqs' l).asked dl).length + (l.filter (has eqs)).length + (l.filter (has eqs')).length = 2 * l.length := by
  induction l with
  | nil => rfl
  | cons k l ih =>
    have h1 := nonces_asked b dl k (b.slope (b.who k) * x + b.offset (b.who k)) (eqs.find? fun q => decide (q.k = k)) (eqs'.find? fun q => decide (q.k = k))
    rw [allNonces, asked_bind, asked_bind]
    simp only [Logs.asked, List.append_nil, List.length_append, List.filter_cons, List.length_cons]
    change _ + (if has eqs k = true then 1 else 0) + (if has eqs' k = true then 1 else 0) = 2 at h1
    split <;> split <;> simp_all <;> omega

theorem has_length (h : (eqs.map Equation.k).Nodup) : ((List.finRange K).filter (has eqs)).length = eqs.length := by
  rw [← List.length_map (as := eqs) Equation.k]
  refine List.Perm.length_eq ((List.perm_ext_iff_of_nodup ((List.nodup_finRange K).filter _) h).mpr fun k => ?_)
  rw [List.mem_filter, List.mem_map]
  unfold has
  rw [List.find?_isSome]
  simp

/-- Whatever the answers are, `solve` asks for exactly `2 K` logarithms. -/
theorem solve_asked (F : Attacker G K) (sha : Sha512) (a : Block) : ((solve b F sha a).asked dl).length = 2 * K := by
  unfold solve
  rw [asked_bind]
  obtain ⟨h1, h2, -⟩ := follow_asked b sha [] dl F []
  generalize (F.follow b sha [] []).value dl = p at h1 h2 ⊢
  dsimp only
  rw [asked_bind]
  obtain ⟨h3, h4, -⟩ := follow_asked b (program sha (challengeInput p.1.signature.R b.key p.1.message) a.1 a.2) p.2 dl F []
  generalize (F.follow b (program sha (challengeInput p.1.signature.R b.key p.1.message) a.1 a.2) p.2 []).value dl = p' at h3 h4 ⊢
  rw [asked_bind]
  simp only [Logs.asked, List.append_nil, List.length_append]
  have h5 := allNonces_asked b ((p.1.signature.S - p'.1.signature.S) / (Props.Spec.challenge sha p.1.signature.R b.key p.1.message -
    Props.Spec.challenge (program sha (challengeInput p.1.signature.R b.key p.1.message) a.1 a.2) p'.1.signature.R b.key p'.1.message)) p.2 p'.2 dl (List.finRange K)
  rw [has_length _ h2, has_length _ h4, List.length_finRange] at h5
  omega

end

section

variable (who : Fin K → UInt16) (slope offset : UInt16 → Scalar) (eqs eqs' : List (Equation K)) (dl : G → Scalar)

theorem nonces_value (hdl : ∀ a : Scalar, dl (a • base) = a) (k : Fin K) (o o' : Option (Equation K))
    (ho : ∀ q, o = some q → q.k = k ∧ Holds (s.board who slope offset : Board G K) s q) (ho' : ∀ q, o' = some q → q.k = k ∧ Holds (s.board who slope offset : Board G K) s q)
    (hne : ∀ q q', o = some q → o' = some q' → q.ρ ≠ q'.ρ) :
    (nonces (s.board who slope offset : Board G K) k (slope (who k) * s.x + offset (who k)) o o').value dl = (s.d k, s.e k) := by
  have one : ∀ q : Equation K, q.k = k → Holds (s.board who slope offset : Board G K) s q →
      q.z = s.d k + q.ρ * s.e k + q.w * (slope (who k) * s.x + offset (who k)) := by
    rintro q rfl hq
    exact hq
  have hD : dl ((s.board who slope offset : Board G K).D k) = s.d k := hdl _
  have hE : dl ((s.board who slope offset : Board G K).E k) = s.e k := hdl _
  match o, o' with
  | none, none => simp only [nonces, Logs.value, hD, hE]
  | some q, none =>
    obtain ⟨h1, h2⟩ := ho q rfl
    simp only [nonces, Logs.value, hE, one q h1 h2]
    congr 1
    ring
  | none, some q =>
    obtain ⟨h1, h2⟩ := ho' q rfl
    simp only [nonces, Logs.value, hE, one q h1 h2]
    congr 1
    ring
  | some q, some q' =>
    obtain ⟨h1, h2⟩ := ho q rfl
    obtain ⟨h1', h2'⟩ := ho' q' rfl
    have hn := sub_ne_zero.mpr (hne q q' rfl rfl)
    have he : (q.z - q.w * (slope (who k) * s.x + offset (who k)) - (q'.z - q'.w * (slope (who k) * s.x + offset (who k)))) / (q.ρ - q'.ρ) = s.e k := by
      rw [div_eq_iff hn, one q h1 h2, one q' h1' h2']
      ring
    simp only [nonces, Logs.value, he]
    rw [one q h1 h2]
    congr 1
    ring

theorem allNonces_value (hdl : ∀ a : Scalar, dl (a • base) = a) (ho : ∀ q ∈ eqs, Holds (s.board who slope offset : Board G K) s q)
    (ho' : ∀ q ∈ eqs', Holds (s.board who slope offset : Board G K) s q) (hne : ∀ q ∈ eqs, ∀ q' ∈ eqs', q.k = q'.k → q.ρ ≠ q'.ρ) (l : List (Fin K)) :
    (allNonces (s.board who slope offset : Board G K) s.x eqs eqs' l).value dl = l.map fun k => (s.d k, s.e k) := by
  induction l with
  | nil => rfl
  | cons k l ih =>
    have found : ∀ {es : List (Equation K)} {q}, es.find? (fun q => decide (q.k = k)) = some q → q ∈ es ∧ q.k = k := by
      intro es q hq
      exact ⟨List.mem_of_find?_eq_some hq, by simpa using List.find?_some hq⟩
    rw [allNonces, value_bind, value_bind]
    rw [show (s.board who slope offset : Board G K).slope ((s.board who slope offset : Board G K).who k) * s.x +
      (s.board who slope offset : Board G K).offset ((s.board who slope offset : Board G K).who k) = slope (who k) * s.x + offset (who k) from rfl]
    rw [nonces_value s who slope offset dl hdl k _ _ (fun q hq => ⟨(found hq).2, ho q (found hq).1⟩) (fun q hq => ⟨(found hq).2, ho' q (found hq).1⟩)
      (fun q q' hq hq' => hne q (found hq).1 q' (found hq').1 ((found hq).2.trans (found hq').2.symm)), ih]
    rfl

/-- If the same nonces are used in both runs with the same binding factor then they are used for the same equation. -/
theorem load_eq {sha : Sha512} {str : List UInt8} {a : Block} {k : Fin K} {r r' : Request G} (hk : b.who k ∈ r.ids) (hk' : b.who k ∈ r'.ids)
    {R : G} {m : List UInt8} (hstr : str = challengeInput R b.key m) (hm : r.message ≠ m)
    (hcol : ∀ u ∈ r.hashed sha b.key, ∀ v ∈ r'.hashed (program sha str a.1 a.2) b.key, u ≠ v →
      (leValue (sha.sum u) : Scalar) ≠ (leValue ((program sha str a.1 a.2).sum v) : Scalar))
    (hkey : RGroup.bytesEd25519 b.key ≠ ((sha.sum r.message).drop 18).take 32)
    (hρ : factor b sha k r = factor b (program sha str a.1 a.2) k r') : load b sha k r = load b (program sha str a.1 a.2) k r' := by
  have hmem : ∀ {sha : Sha512} {r : Request G}, b.who k ∈ r.ids → bindingInput sha (b.who k) r.message (commitmentList r.ids r.D r.E) ∈ r.hashed sha b.key :=
    fun h => List.mem_cons_of_mem _ (List.mem_append_left _ (List.mem_map.mpr ⟨_, h, rfl⟩))
  have hs : bindingInput sha (b.who k) r.message (commitmentList r.ids r.D r.E) =
      bindingInput (program sha str a.1 a.2) (b.who k) r'.message (commitmentList r'.ids r'.D r'.E) := by
    by_contra hne
    exact hcol _ (hmem hk) _ (hmem hk') hne hρ
  unfold bindingInput at hs
  rw [List.append_assoc, List.append_assoc, List.append_assoc, List.append_assoc] at hs
  obtain ⟨_, hs⟩ := List.append_inj hs rfl
  obtain ⟨_, hs⟩ := List.append_inj hs rfl
  obtain ⟨hd, hs⟩ := List.append_inj hs (by rw [Sha512.length_sum, Sha512.length_sum])
  obtain ⟨hids, hDE⟩ := Props.C48_commitment_list_injective _ _ _ _ _ _ hs
  have hmm : r.message = r'.message := by
    by_contra hne
    exact hcol _ (List.mem_cons_self ..) _ (List.mem_cons_self ..) hne (by rw [hd])
  -- the binding factors
  have hb : ∀ i ∈ r.ids, rho (program sha str a.1 a.2) r'.ids r'.message r'.D r'.E i = rho sha r.ids r.message r.D r.E i := by
    intro i _
    unfold rho bindingFactor
    have e1 : bindingInput (program sha str a.1 a.2) i r'.message (commitmentList r'.ids r'.D r'.E) = bindingInput sha i r.message (commitmentList r.ids r.D r.E) := by
      unfold bindingInput
      rw [← hs, ← hd]
    rw [e1]
    have e2 : bindingInput sha i r.message (commitmentList r.ids r.D r.E) ≠ str := by
      rw [hstr]
      exact Props.C98_separated sha r.message b.key hkey i _ m R
    rw [show (program sha str a.1 a.2).sum (bindingInput sha i r.message (commitmentList r.ids r.D r.E)) =
      sha.sum (bindingInput sha i r.message (commitmentList r.ids r.D r.E)) from if_neg e2]
  have hR : groupNonce (program sha str a.1 a.2) r'.ids r'.message r'.D r'.E = groupNonce sha r.ids r.message r.D r.E := by
    unfold groupNonce nonce
    rw [← hids]
    rw [← hids] at hb
    congr 1
    refine List.map_congr_left fun i hi => ?_
    rw [hb i hi, (hDE i hi).1, (hDE i hi).2]
  unfold load
  rw [← hids]
  congr 1
  unfold chal Props.Spec.challenge
  rw [← hids] at hR
  rw [hR, ← hmm]
  have e3 : challengeInput (groupNonce sha r.ids r.message r.D r.E) b.key r.message ≠ str := by
    rw [hstr]
    intro h
    unfold challengeInput at h
    exact hm (List.append_inj h (by simp [RGroup.bytesEd25519_length])).2
  have e4 : (program sha str a.1 a.2).sum (challengeInput (groupNonce sha r.ids r.message r.D r.E) b.key r.message) =
      sha.sum (challengeInput (groupNonce sha r.ids r.message r.D r.E) b.key r.message) := if_neg e3
  unfold challengeInput at e4
  exact congrArg (fun l => (leValue l : Scalar)) e4.symm

/-- Two forgeries for the same string with different hash values give all the secrets, if hash values do not collide. -/
theorem solve_value (hdl : ∀ a : Scalar, dl (a • base) = a) (F : Attacker G K) (sha : Sha512) (a : Block) (z z' : Ending G K) (str : List UInt8)
    (hz : z = F.play (s.board who slope offset) sha (s.share (s.board who slope offset : Board G K) sha) [])
    (hstr : str = challengeInput z.signature.R (s.x • base) z.message)
    (hz' : z' = F.play (s.board who slope offset) (program sha str a.1 a.2) (s.share (s.board who slope offset : Board G K) (program sha str a.1 a.2)) [])
    (hstr' : challengeInput z'.signature.R (s.x • base) z'.message = str)
    (hF : z.Forged sha (s.x • base)) (hF' : z'.Forged (program sha str a.1 a.2) (s.x • base))
    (hc : (leValue (sha.sum str) : Scalar) ≠ scalarOf a)
    (hcol : ∀ u ∈ z.hashed, ∀ v ∈ z'.hashed, u ≠ v → (leValue (sha.sum u) : Scalar) ≠ (leValue ((program sha str a.1 a.2).sum v) : Scalar))
    (hkey : ∀ u ∈ z.hashed, RGroup.bytesEd25519 (s.x • base : G) ≠ ((sha.sum u).drop 18).take 32) :
    (solve (s.board who slope offset) F sha a).value dl = (s.x, List.ofFn fun k => (s.d k, s.e k)) := by
  unfold solve
  rw [value_bind]
  obtain ⟨h1, h2⟩ := follow_value s who slope offset sha [] dl hdl (fun q hq => by cases hq) F []
  rw [← hz] at h1 h2
  generalize hp : (F.follow (s.board who slope offset) sha [] []).value dl = p at h1 h2 ⊢
  dsimp only
  rw [h1]
  rw [show challengeInput z.signature.R (s.board who slope offset : Board G K).key z.message = str from hstr.symm]
  rw [value_bind]
  obtain ⟨h3, h4⟩ := follow_value s who slope offset (program sha str a.1 a.2) p.2 dl hdl (fun q hq => (h2 q hq).1) F []
  rw [← hz'] at h3 h4
  generalize (F.follow (s.board who slope offset) (program sha str a.1 a.2) p.2 []).value dl = p' at h3 h4 ⊢
  rw [value_bind, h3]
  have hRm : z'.signature.R = z.signature.R ∧ z'.message = z.message := by
    rw [hstr] at hstr'
    unfold challengeInput at hstr'
    obtain ⟨e1, e2⟩ := List.append_inj hstr' (by simp [RGroup.bytesEd25519_length])
    exact ⟨RGroup.bytesEd25519_injective _ _ (List.append_cancel_right e1), e2⟩
  have c1 : Props.Spec.challenge sha z.signature.R (s.x • base : G) z.message = (leValue (sha.sum str) : Scalar) := by rw [hstr]; rfl
  have c2 : Props.Spec.challenge (program sha str a.1 a.2) z'.signature.R (s.x • base : G) z'.message = scalarOf a := by
    rw [show Props.Spec.challenge (program sha str a.1 a.2) z'.signature.R (s.x • base : G) z'.message =
      (leValue ((program sha str a.1 a.2).sum (challengeInput z'.signature.R (s.x • base) z'.message)) : Scalar) from rfl, hstr']
    rw [show (program sha str a.1 a.2).sum str = a.1 from if_pos rfl]
    rfl
  have hx : (z.signature.S - z'.signature.S) / (Props.Spec.challenge sha z.signature.R (s.x • base : G) z.message -
      Props.Spec.challenge (program sha str a.1 a.2) z'.signature.R (s.x • base : G) z'.message) = s.x := by
    have f1 := hF.1
    have f2 := hF'.1
    rw [c1] at f1 ⊢
    rw [c2] at f2 ⊢
    rw [hRm.1] at f2
    have hd : (z.signature.S - z'.signature.S) • (base : G) = (((leValue (sha.sum str) : Scalar) - scalarOf a) * s.x) • (base : G) := by
      rw [sub_smul, f1, f2, mul_smul, sub_smul]
      abel
    rw [div_eq_iff (sub_ne_zero.mpr hc), mul_comm]
    exact smul_base_injective (G := G) hd
  rw [show (s.board who slope offset : Board G K).key = s.x • base from rfl, hx]
  rw [allNonces_value s who slope offset p.2 p'.2 dl hdl (fun q hq => (h2 q hq).1) (fun q hq => (h4 q hq).1) ?_]
  · rw [List.ofFn_eq_map]
    rfl
  · intro q hq q' hq' hk hρ
    obtain ⟨-, ⟨r, hr, hr1, hr2⟩, -⟩ := h2 q hq
    obtain ⟨-, ⟨r', hr', hr1', hr2'⟩, hnew⟩ := h4 q' hq'
    refine hnew q hq hk hρ ?_
    obtain ⟨-, g⟩ := play_hashed (s.board who slope offset) sha (s.share (s.board who slope offset : Board G K) sha) F []
    obtain ⟨-, g'⟩ := play_hashed (s.board who slope offset) (program sha str a.1 a.2) (s.share (s.board who slope offset : Board G K) (program sha str a.1 a.2)) F []
    rw [← hz] at g
    rw [← hz'] at g'
    obtain ⟨g1, g2⟩ := (g _ hr).resolve_left (by simp)
    obtain ⟨g1', g2'⟩ := (g' _ hr').resolve_left (by simp)
    rw [hr2, hr2']
    rw [hr1, hr1'] at hρ
    rw [← hk] at hρ g1' g2' ⊢
    exact load_eq (s.board who slope offset) g1 g1' hstr (hF.2 _ hr) (fun u hu v hv => hcol u (g2 u hu) v (g2' v hv))
      (hkey _ (g2 _ (List.mem_cons_self ..))) hρ

end

end Verif.OneMore
