import Verif.Lemmas.Sim
import Verif.Model.Heap
import Mathlib.Data.List.Nodup

/-!
The heap model of key generation refines the model by value, as long as the messages a session is given do not share cells with
the session.
-/

namespace Verif

variable {G : Type} [RGroup G]

namespace Heap

theorem cell_write (h : Heap G) (p : Addr) (v : G) (a : Addr) : (h.write p v).cell a = if a = p then v else h.cell a := rfl

theorem cell_addLoop_other (h : Heap G) {ps qs : List Addr} {a : Addr} (ha : a ∉ ps) : (h.addLoop ps qs).cell a = h.cell a := by
  induction ps generalizing h qs with
  | nil => rfl
  | cons p ps ih =>
    cases qs with
    | nil => rfl
    | cons q qs =>
      rw [List.mem_cons, not_or] at ha
      unfold addLoop
      rw [ih _ ha.2, cell_write, if_neg ha.1]

theorem read_congr {h h' : Heap G} {ps : List Addr} (hh : ∀ p ∈ ps, h'.cell p = h.cell p) : h'.read ps = h.read ps :=
  List.map_congr_left hh

theorem read_addLoop (h : Heap G) {ps qs : List Addr} (hlen : ps.length = qs.length) (hnd : ps.Nodup) (hdisj : ∀ p ∈ ps, p ∉ qs) :
    (h.addLoop ps qs).read ps = List.zipWith (· + ·) (h.read ps) (h.read qs) := by
  induction ps generalizing h qs with
  | nil => rfl
  | cons p ps ih =>
    cases qs with
    | nil => cases hlen
    | cons q qs =>
      unfold addLoop
      rw [List.nodup_cons] at hnd
      have hpq : p ∉ q :: qs := hdisj p List.mem_cons_self
      have h1 : (h.write p (h.cell p + h.cell q)).read ps = h.read ps := read_congr fun a ha => by
        rw [cell_write, if_neg]; rintro rfl; exact hnd.1 ha
      have h2 : (h.write p (h.cell p + h.cell q)).read qs = h.read qs := read_congr fun a ha => by
        rw [cell_write, if_neg]; rintro rfl; exact hpq (List.mem_cons_of_mem _ ha)
      have := ih (h.write p (h.cell p + h.cell q)) (Nat.succ.inj hlen) hnd.2 fun a ha hq =>
        hdisj a (List.mem_cons_of_mem _ ha) (List.mem_cons_of_mem _ hq)
      show ((_ : Heap G).cell p :: (_ : Heap G).read ps) = _
      rw [this, h1, h2, cell_addLoop_other _ hnd.1, cell_write, if_pos rfl]
      rfl

theorem read_addLoop_self (h : Heap G) {ps : List Addr} (hnd : ps.Nodup) : (h.addLoop ps ps).read ps = (h.read ps).map fun x => x + x := by
  induction ps generalizing h with
  | nil => rfl
  | cons p ps ih =>
    unfold addLoop
    rw [List.nodup_cons] at hnd
    have h1 : (h.write p (h.cell p + h.cell p)).read ps = h.read ps := read_congr fun a ha => by
      rw [cell_write, if_neg]; rintro rfl; exact hnd.1 ha
    show ((_ : Heap G).cell p :: (_ : Heap G).read ps) = _
    rw [ih _ hnd.2, h1, cell_addLoop_other _ hnd.1, cell_write, if_pos rfl]
    rfl

theorem next_addLoop (h : Heap G) (ps qs : List Addr) : (h.addLoop ps qs).next = h.next := by
  induction ps generalizing h qs with
  | nil => rfl
  | cons p ps ih => cases qs with
    | nil => rfl
    | cons q qs => exact ih _ _

theorem next_add (h : Heap G) (ps qs : List Addr) : (h.add ps qs).next = h.next := by
  unfold add; split
  · rfl
  · exact next_addLoop _ _ _

theorem cell_add_other (h : Heap G) {ps : List Addr} (qs : List Addr) {a : Addr} (ha : a ∉ ps) : (h.add ps qs).cell a = h.cell a := by
  unfold add; split
  · rfl
  · exact cell_addLoop_other _ ha

theorem cell_reset (h : Heap G) (ps : List Addr) (a : Addr) : (h.reset ps).cell a = if a ∈ ps then 0 else h.cell a := by
  induction ps generalizing h with
  | nil => simp [reset]
  | cons p ps ih =>
    unfold reset
    rw [ih, cell_write]
    by_cases h1 : a ∈ ps
    · simp [h1]
    · by_cases h2 : a = p <;> simp [h1, h2]

theorem cell_resetLoop (h : Heap G) (m : GoMap (Exponent Addr)) (a : Addr) :
    (KeygenHeap.resetLoop h m).cell a = if ∃ e ∈ m, a ∈ e.2 then 0 else h.cell a := by
  induction m generalizing h with
  | nil => simp [KeygenHeap.resetLoop]
  | cons e m ih =>
    obtain ⟨k, p⟩ := e
    unfold KeygenHeap.resetLoop
    rw [ih, cell_reset]
    by_cases h1 : ∃ e ∈ m, a ∈ e.2
    · rw [if_pos h1, if_pos]
      obtain ⟨e, he, ha⟩ := h1
      exact ⟨e, List.mem_cons_of_mem _ he, ha⟩
    · rw [if_neg h1]
      by_cases h2 : a ∈ p
      · rw [if_pos h2, if_pos ⟨(k, p), List.mem_cons_self, h2⟩]
      · rw [if_neg h2, if_neg]
        rintro ⟨e, he, ha⟩
        rcases List.mem_cons.mp he with rfl | he
        · exact h2 ha
        · exact h1 ⟨e, he, ha⟩

theorem read_alloc (h : Heap G) (vs : List G) : (h.alloc vs).1.read (h.alloc vs).2 = vs := by
  unfold alloc read
  rw [List.map_map]
  apply List.ext_getElem
  · simp
  · intro i h1 h2
    simp [h2]

theorem cell_alloc (h : Heap G) (vs : List G) {a : Addr} (ha : a < h.next) : (h.alloc vs).1.cell a = h.cell a := by
  simp [alloc, ha]

theorem mem_alloc {h : Heap G} {vs : List G} {a : Addr} (ha : a ∈ (h.alloc vs).2) : h.next ≤ a ∧ a < (h.alloc vs).1.next := by
  simp only [alloc, List.mem_map, List.mem_range] at ha ⊢
  obtain ⟨i, hi, rfl⟩ := ha
  exact ⟨Nat.le_add_right _ _, Nat.add_lt_add_left hi _⟩

theorem nodup_alloc (h : Heap G) (vs : List G) : (h.alloc vs).2.Nodup :=
  List.Nodup.map (fun _ _ h => Nat.add_left_cancel h) List.nodup_range

/-- A message with the elements its pointers point to. -/
def deref (h : Heap G) (m : Message Addr) : Message G where
  header := m.header
  keyGen1 := m.keyGen1.map fun k => ⟨k.proof, h.read k.commitments⟩
  keyGen2 := m.keyGen2
  sign1 := m.sign1.map fun k => ⟨h.cell k.Di, h.cell k.Ei⟩
  sign2 := m.sign2

/-- The content of a message is determined by the cells it points to. -/
theorem deref_congr {h h' : Heap G} {m : Message Addr} (h1 : ∀ k, m.keyGen1 = some k → h'.read k.commitments = h.read k.commitments)
    (h2 : ∀ k, m.sign1 = some k → h'.cell k.Di = h.cell k.Di ∧ h'.cell k.Ei = h.cell k.Ei) : h'.deref m = h.deref m := by
  unfold deref
  congr 1
  · cases hk : m.keyGen1 with
    | none => rfl
    | some k => simp [h1 k hk]
  · cases hk : m.sign1 with
    | none => rfl
    | some k => simp [h2 k hk]

end Heap

namespace KeygenHeap

open Keygen (Stage)

/-- The round with the pointers followed. -/
def view (r : Round G) : Keygen.Round G where
  stage := r.stage
  selfID := r.selfID
  partyIDs := r.partyIDs
  threshold := r.threshold
  secret := r.secret
  polynomial := r.polynomial
  commitmentsSum := r.commitmentsSum.map r.heap.read
  commitments := r.commitments.map fun e => (e.1, r.heap.read e.2)
  hasOutput := r.hasOutput
  output := r.output

/-- The cells of a live round: its own are new since `h₀` and pairwise different, those it got from messages are older, and the
older ones have not been written. -/
structure Separate (h₀ : Heap G) (r : Round G) : Prop where
  next : h₀.next ≤ r.heap.next
  old : ∀ p, p < h₀.next → r.heap.cell p = h₀.cell p
  sum : ∀ ps, r.commitmentsSum = some ps → ps.Nodup ∧ ∀ p ∈ ps, h₀.next ≤ p ∧ p < r.heap.next
  given : ∀ e ∈ r.commitments, ∀ p ∈ e.2, p < h₀.next

/-- The pointers of a message are older than `h₀`. -/
def Older (h₀ : Heap G) (m : Message Addr) : Prop := ∀ k, m.keyGen1 = some k → ∀ p ∈ k.commitments, p < h₀.next

def Rel (h₀ : Heap G) (a : Round G) (b : Keygen.Round G) : Prop := b = view a ∧ Separate h₀ a

def End (a : Round G) (b : Keygen.Round G) : Prop := b = view a

def Made (a : Round G) (o : List (Message Addr)) (o' : List (Message G)) : Prop := o' = o.map a.heap.deref ∧ (a.stage = .r2 → o = [])

def Out (a : Round G) (o : List (Message Addr)) (o' : List (Message G)) : Prop := o' = o.map a.heap.deref

section

variable {α β γ δ ε α' β' : Type}

theorem outRel_bind {Q : α → β → Prop} {S : γ → δ → Prop} {Q' : α' → β' → Prop} {x : Outcome (ε × γ) α} {y : Outcome (ε × δ) β}
    {f : α → Outcome (ε × γ) α'} {g : β → Outcome (ε × δ) β'} (h : OutRel Q S x y) (hf : ∀ a b, x = .ok a → y = .ok b → Q a b → OutRel Q' S (f a) (g b)) :
    OutRel Q' S (x >>= f) (y >>= g) := by
  cases x with
  | ok a => cases y with
    | ok b => exact hf a b rfl rfl h
    | _ => exact h.elim
  | err e => cases y with
    | err e' => exact h
    | _ => exact h.elim
  | panic => cases y with
    | panic => trivial
    | _ => exact h.elim

theorem outRel_deref {S : γ → δ → Prop} {f : α → β} (x : Option α) :
    OutRel (fun a b => b = f a) S (Outcome.deref x : Outcome (ε × γ) α) (Outcome.deref (x.map f) : Outcome (ε × δ) β) := by
  cases x with
  | none => trivial
  | some a => exact rfl

theorem outRel_lift {S : Round G → Keygen.Round G → Prop} {a : Round G} {b : Keygen.Round G} (h : S a b) (x : GoRes α) :
    OutRel Eq S (lift a x) (Keygen.lift b x) := by
  cases x with
  | ok v => exact rfl
  | err e => exact ⟨rfl, h⟩
  | panic => trivial

/-- The result with its value changed. -/
def mapRes (f : α → β) : GoRes α → GoRes β
  | .ok a => .ok (f a)
  | .err e => .err e
  | .panic => .panic

theorem outRel_lift_map {S : Round G → Keygen.Round G → Prop} {a : Round G} {b : Keygen.Round G} (h : S a b) {f : α → β} {x : GoRes α} {y : GoRes β}
    (hxy : y = mapRes f x) :
    OutRel (fun u v => v = f u) S (lift a x) (Keygen.lift b y) := by
  subst hxy
  cases x with
  | ok v => exact rfl
  | err e => exact ⟨rfl, h⟩
  | panic => trivial

end

theorem generate0_sim (sha : Sha512) {h₀ : Heap G} {a : Round G} {b : Keygen.Round G} (h : Rel h₀ a b) (coins : Coins) (hst : a.stage = .r0) :
    OutRel (fun x y => Rel h₀ x.1 y.1 ∧ Made x.1 x.2 y.2) (Rel h₀) (generate0 sha coins a) (Keygen.generate0 sha coins b) := by
  have hr := h
  obtain ⟨rfl, hs⟩ := h
  unfold generate0 Keygen.generate0
  refine outRel_bind (outRel_lift hr _) ?_
  rintro poly _ _ _ rfl
  simp only [Heap.read_alloc]
  refine outRel_bind (outRel_lift hr _) ?_
  rintro pub _ _ _ rfl
  refine outRel_bind (outRel_lift hr _) ?_
  rintro proof _ _ _ rfl
  refine outRel_bind (outRel_lift hr _) ?_
  rintro x _ _ _ rfl
  refine outRel_bind (outRel_lift hr _) ?_
  rintro share _ _ _ rfl
  refine ⟨⟨?_, ?_, ?_, ?_, ?_⟩, ?_, ?_⟩
  · show Keygen.Round.mk _ _ _ _ _ _ _ _ _ _ = Keygen.Round.mk _ _ _ _ _ _ _ _ _ _
    congr 1
    · simp only [Option.map_some, Heap.read_alloc]
    · refine List.map_congr_left fun e he => ?_
      show (e.1, a.heap.read e.2) = (e.1, _)
      rw [Heap.read_congr]
      intro p hp
      exact (Heap.cell_alloc _ _ (lt_of_lt_of_le (hs.given e he p hp) hs.next)).symm
  · exact le_trans hs.next (by simp [Heap.alloc])
  · intro p hp
    rw [← hs.old p hp]
    exact Heap.cell_alloc _ _ (lt_of_lt_of_le hp hs.next)
  · intro ps hps
    cases hps
    refine ⟨Heap.nodup_alloc _ _, fun p hp => ?_⟩
    obtain ⟨h1, h2⟩ := Heap.mem_alloc hp
    exact ⟨le_trans hs.next h1, h2⟩
  · exact hs.given
  · show [_] = [_]
    congr 1
    simp only [Heap.deref, Message.newKeyGen1, Option.map_some, Option.map_none, Heap.read_alloc]
    rfl
  · intro h
    have h : a.stage = .r2 := h
    rw [hst] at h; cases h

theorem process1_sim (sha : Sha512) {h₀ : Heap G} {a : Round G} {b : Keygen.Round G} (h : Rel h₀ a b) {v : Option (Message Addr)}
    (hP : ∀ m, v = some m → Older h₀ m) : OutRel (Rel h₀) (Rel h₀) (process1 sha a v) (Keygen.process1 sha b (v.map h₀.deref)) := by
  have hr := h
  obtain ⟨rfl, hs⟩ := h
  unfold process1 Keygen.process1
  refine outRel_bind (outRel_deref v) ?_
  rintro m _ hm - rfl
  have hv : v = some m := by cases v with
    | none => cases hm
    | some _ => cases hm; rfl
  refine outRel_bind (outRel_deref m.keyGen1) ?_
  rintro k _ hk - rfl
  have hk : m.keyGen1 = some k := by
    revert hk; cases m.keyGen1 with
    | none => intro h; cases h
    | some _ => intro h; cases h; rfl
  have hold : ∀ p ∈ k.commitments, p < h₀.next := hP m hv k hk
  have hread : a.heap.read k.commitments = h₀.read k.commitments := Heap.read_congr fun p hp => hs.old p (hold p hp)
  simp only [hread]
  refine outRel_bind (outRel_lift hr _) ?_
  rintro pub _ _ _ rfl
  refine outRel_bind (outRel_lift hr _) ?_
  rintro valid _ _ _ rfl
  split
  · exact ⟨rfl, hr⟩
  · refine outRel_bind (outRel_deref (f := a.heap.read) a.commitmentsSum) ?_
    rintro ps _ hps - rfl
    have hps : a.commitmentsSum = some ps := by
      revert hps; cases a.commitmentsSum with
      | none => intro h; cases h
      | some _ => intro h; cases h; rfl
    obtain ⟨hnd, hown⟩ := hs.sum ps hps
    have hdisj : ∀ p ∈ ps, p ∉ k.commitments := fun p hp hq => absurd (hold p hq) (not_lt.mpr (hown p hp).1)
    have hother : ∀ p, p < h₀.next → (a.heap.add ps k.commitments).cell p = a.heap.cell p := fun p hp =>
      Heap.cell_add_other _ _ fun hm => absurd hp (not_lt.mpr (hown p hm).1)
    refine ⟨?_, ?_, ?_, ?_, ?_⟩
    · show Keygen.Round.mk _ _ _ _ _ _ _ _ _ _ = Keygen.Round.mk _ _ _ _ _ _ _ _ _ _
      congr 1
      · show some _ = Option.map _ a.commitmentsSum
        rw [hps, Option.map_some]
        congr 1
        unfold Exponent.add Heap.add
        have hl : List.length (a.heap.read ps) = ps.length := List.length_map _
        have hl' : List.length (h₀.read k.commitments) = k.commitments.length := List.length_map _
        rw [hl, hl']
        by_cases hlen : ps.length = k.commitments.length
        · rw [if_neg (not_not.mpr hlen), if_neg (not_not.mpr hlen)]
          show List.zipWith _ _ _ = _
          rw [Heap.read_addLoop _ hlen hnd hdisj, hread]
        · rw [if_pos hlen, if_pos hlen]
      · show GoMap.set (a.commitments.map fun e => (e.1, a.heap.read e.2)) m.header.fromID (h₀.read k.commitments) =
          (a.commitments.set m.header.fromID k.commitments).map fun e => (e.1, (a.heap.add ps k.commitments).read e.2)
        rw [← hread, set_mapped]
        refine List.map_congr_left fun e he => ?_
        rw [Heap.read_congr (h := a.heap) (h' := a.heap.add ps k.commitments)]
        intro p hp
        apply hother
        rcases mem_set (k' := e.1) (v' := e.2) he with h | h
        · rw [h] at hp; exact hold p hp
        · exact hs.given e h p hp
    · rw [Heap.next_add]; exact hs.next
    · intro p hp; rw [← hs.old p hp]; exact hother p hp
    · intro ps' hps'
      have hps' : a.commitmentsSum = some ps' := hps'
      rw [hps] at hps'; cases hps'
      refine ⟨hnd, fun p hp => ?_⟩
      rw [Heap.next_add]
      exact hown p hp
    · intro e he p hp
      rcases mem_set (k' := e.1) (v' := e.2) he with h | h
      · rw [h] at hp; exact hold p hp
      · exact hs.given e h p hp

theorem generate1Loop_sim (h : Heap G) (selfID : ID) (poly : Poly) (ids : List ID) :
    (Keygen.generate1Loop selfID poly ids : GoRes (List (Message G))) =
      mapRes (List.map h.deref) (generate1Loop selfID poly ids) := by
  induction ids with
  | nil => rfl
  | cons id ids ih =>
    unfold generate1Loop Keygen.generate1Loop
    split
    · exact ih
    · cases id.scalar with
      | ok x =>
        simp only [Outcome.ok_bind]
        cases Poly.evaluate poly x with
        | ok v =>
          simp only [Outcome.ok_bind]
          rw [ih]
          cases generate1Loop selfID poly ids <;> rfl
        | err | panic => rfl
      | err | panic => rfl

theorem generate1_sim {h₀ : Heap G} {a : Round G} {b : Keygen.Round G} (h : Rel h₀ a b) (hst : a.stage = .r1) :
    OutRel (fun x y => Rel h₀ x.1 y.1 ∧ Made x.1 x.2 y.2) (Rel h₀) (generate1 a) (Keygen.generate1 b) := by
  have hr := h
  obtain ⟨rfl, hs⟩ := h
  unfold generate1 Keygen.generate1
  refine outRel_bind (Q := Eq) (by
    show OutRel Eq _ _ (Outcome.deref a.polynomial)
    cases a.polynomial with
    | none => trivial
    | some _ => exact rfl) ?_
  rintro poly _ - - rfl
  refine outRel_bind (outRel_lift_map hr (f := List.map a.heap.deref) (generate1Loop_sim a.heap _ _ _)) ?_
  rintro out _ - - rfl
  refine ⟨⟨rfl, hs.next, hs.old, hs.sum, hs.given⟩, rfl, ?_⟩
  intro h
  have h : a.stage = .r2 := h
  rw [hst] at h; cases h

theorem get_mapped {V W : Type} (m : GoMap V) (f : V → W) (k : ID) : GoMap.get? (m.map fun e => (e.1, f e.2)) k = (m.get? k).map f := by
  induction m with
  | nil => rfl
  | cons e m ih =>
    obtain ⟨k', v⟩ := e
    simp only [List.map_cons, GoMap.get?]
    split
    · rfl
    · exact ih

theorem process2_sim {h₀ : Heap G} {a : Round G} {b : Keygen.Round G} (h : Rel h₀ a b) (v : Option (Message Addr)) :
    OutRel (Rel h₀) (Rel h₀) (process2 a v) (Keygen.process2 b (v.map h₀.deref)) := by
  have hr := h
  obtain ⟨rfl, hs⟩ := h
  unfold process2 Keygen.process2
  refine outRel_bind (outRel_deref v) ?_
  rintro m _ - - rfl
  refine outRel_bind (Q := Eq) (by
    show OutRel Eq _ _ (Outcome.deref m.keyGen2)
    cases m.keyGen2 with
    | none => trivial
    | some _ => exact rfl) ?_
  rintro k _ - - rfl
  simp only []
  refine outRel_bind (Q := fun u v => v = a.heap.read u) (by
    have := get_mapped a.commitments a.heap.read m.header.fromID
    show OutRel _ _ _ (Outcome.deref (GoMap.get? (a.commitments.map fun e => (e.1, a.heap.read e.2)) m.header.fromID))
    rw [this]
    exact outRel_deref _) ?_
  rintro c _ - - rfl
  refine outRel_bind (outRel_lift hr _) ?_
  rintro x _ _ _ rfl
  refine outRel_bind (outRel_lift hr _) ?_
  rintro e _ _ _ rfl
  split
  · exact ⟨rfl, hr⟩
  · exact ⟨rfl, hs.next, hs.old, hs.sum, hs.given⟩

theorem generate2_sim {h₀ : Heap G} {a : Round G} {b : Keygen.Round G} (h : Rel h₀ a b) :
    OutRel (fun x y => Rel h₀ x.1 y.1 ∧ Made x.1 x.2 y.2) (Rel h₀) (generate2 a) (Keygen.generate2 b) := by
  have hr := h
  obtain ⟨rfl, hs⟩ := h
  unfold generate2 Keygen.generate2
  refine outRel_bind (outRel_deref (f := a.heap.read) a.commitmentsSum) ?_
  rintro ps _ - - rfl
  refine outRel_bind (outRel_lift hr _) ?_
  rintro shares _ - - rfl
  refine outRel_bind (outRel_lift hr _) ?_
  rintro gk _ - - rfl
  show OutRel _ _ (if a.hasOutput = false then _ else _) (if a.hasOutput = false then _ else _)
  split
  · trivial
  · exact ⟨⟨rfl, hs.next, hs.old, hs.sum, hs.given⟩, rfl, fun _ => rfl⟩

theorem reset_sim {h₀ : Heap G} {a : Round G} {b : Keygen.Round G} (h : Rel h₀ a b) : OptRel End (reset a) (Keygen.reset b) := by
  obtain ⟨rfl, hs⟩ := h
  unfold reset Keygen.reset
  show OptRel End _ (a.polynomial >>= fun p => (a.commitmentsSum.map a.heap.read) >>= fun c => _)
  cases a.polynomial with
  | none => trivial
  | some p =>
    cases hc : a.commitmentsSum with
    | none => trivial
    | some c =>
      show Keygen.Round.mk _ _ _ _ _ _ _ _ _ _ = Keygen.Round.mk _ _ _ _ _ _ _ _ _ _
      have hz : ∀ q, q ∈ c → (resetLoop (a.heap.reset c) a.commitments).cell q = 0 := by
        intro q hq
        rw [Heap.cell_resetLoop, Heap.cell_reset, if_pos hq]
        split <;> rfl
      have hz' : ∀ e ∈ a.commitments, ∀ q, q ∈ e.2 → (resetLoop (a.heap.reset c) a.commitments).cell q = 0 := by
        intro e he q hq
        rw [Heap.cell_resetLoop, if_pos ⟨e, he, hq⟩]
      have hread : ∀ (ps : List Addr), (∀ q ∈ ps, (resetLoop (a.heap.reset c) a.commitments).cell q = 0) →
          (resetLoop (a.heap.reset c) a.commitments).read ps = Exponent.reset (a.heap.read ps) := by
        intro ps h
        unfold Heap.read Exponent.reset
        rw [List.map_map]
        exact List.map_congr_left h
      congr 1
      · show some _ = some _
        rw [hread c hz]
      · show List.map _ (a.commitments.map _) = _
        rw [List.map_map]
        refine List.map_congr_left fun e he => ?_
        show (e.1, Exponent.reset (a.heap.read e.2)) = (e.1, _)
        rw [hread e.2 (hz' e he)]

/-- Key generation with pointers simulates key generation by value. -/
theorem sim (sha : Sha512) (h₀ : Heap G) : Sim (impl sha) (Keygen.impl sha) h₀.deref (Older h₀) (Rel h₀) End Made Out where
  header _ := rfl
  selfID a b h := by
    rcases h with ⟨rfl, _⟩ | rfl <;> rfl
  partyIDs a b h := by obtain ⟨rfl, _⟩ := h; rfl
  process a b v h hP := by
    have hst : b.stage = a.stage := by rw [h.1]; rfl
    simp only [impl, Keygen.impl, hst]
    cases a.stage with
    | r0 => exact h
    | r1 => exact process1_sim sha h hP
    | r2 => exact process2_sim h v
  generate a b ord ord' coins h := by
    have hst : b.stage = a.stage := by rw [h.1]; rfl
    simp only [impl, Keygen.impl, hst]
    cases hs : a.stage with
    | r0 => exact generate0_sim sha h coins hs
    | r1 => exact generate1_sim h hs
    | r2 => exact generate2_sim h
  next a b h := by
    have hst : b.stage = a.stage := by rw [h.1]; rfl
    simp only [impl, Keygen.impl, hst]
    obtain ⟨rfl, hs⟩ := h
    cases a.stage with
    | r0 => exact ⟨rfl, hs.next, hs.old, hs.sum, hs.given⟩
    | r1 => exact ⟨rfl, hs.next, hs.old, hs.sum, hs.given⟩
    | r2 => trivial
  reset a b h := reset_sim h
  outNil _ := rfl
  outNext a a' o o' h hn := by
    simp only [impl] at hn
    cases hs : a.stage <;> rw [hs] at hn <;> cases hn <;> exact h.1
  outLast a a' o o' h hn _ := by
    simp only [impl] at hn
    have hs : a.stage = .r2 := by
      cases hs : a.stage <;> rw [hs] at hn <;> first | rfl | cases hn
    have ho := h.2 hs
    have := h.1
    subst ho this
    rfl

end KeygenHeap

end Verif
