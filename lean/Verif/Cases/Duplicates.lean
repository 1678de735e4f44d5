import Verif.Cases.Sign
import Verif.Props.Duplicates

/-!
For each theorem of `Props/Duplicates.lean` a concrete case that meets its hypotheses.
-/

namespace Verif.Cases

open State Props Props.Demo

namespace Dup

/-- Party 2 is listed twice. -/
def twice : IDSlice := [1, 2, 2, 3]

/-- `C108_keygen_accepts`. -/
theorem kaccept : ∃ s : State Toy (Keygen.Round Toy), Keygen.newKeygenState toySha 1 twice 1 10 0 = .ok s :=
  C108_keygen_accepts 1 twice 1 10 0 (by decide) (by decide) (by decide) (by decide) (by decide)

/-- `C108_stuck`, `C108_keygen`: party 2 sends its commitments and `ProcessAll` is called, also after time has passed. -/
example : ∃ (s₀ s : State Toy (Keygen.Round Toy)) (h : List (Op Toy × Ret Toy)), Keygen.newKeygenState toySha 1 twice 1 10 0 = .ok s₀ ∧
    Hist (Keygen.impl toySha) s₀ h s ∧ h.length = 4 ∧ s.done = false ∧ Spec.emitted h = [] ∧ s.round.output.pub = none := by
  obtain ⟨s₀, h₀⟩ := kaccept
  have hh : ∃ h s, Hist (Keygen.impl toySha) s₀ h s ∧ h.length = 4 := by
    obtain ⟨r₀, h1, rfl⟩ := newKeygenState_ok.mp h₀
    have a1 := Hist.snoc (Hist.nil (impl := Keygen.impl toySha) (s := newBaseState (Keygen.impl toySha) r₀ 10 0)) (op := .handle com2) rfl
    have hr : (Keygen.impl toySha).selfID r₀ = 1 ∧ (Keygen.impl toySha).partyIDs r₀ = twice := by
      unfold Keygen.newRound Keygen.newBaseRound at h1
      simp only [Outcome.bind_eq_ok, Outcome.failIf_eq_ok, Outcome.pure_def, Outcome.ok.injEq] at h1
      obtain ⟨_, _, _, _, _, _, rfl⟩ := h1
      exact ⟨rfl, rfl⟩
    have hs := (C108_stuck (Keygen.impl_stable toySha) (r₀ := r₀) (by rw [hr.1, hr.2]; decide) (by rw [hr.2]; decide) (by rw [hr.2]; decide) a1).2.1
      .insertion (coins [1])
    have a2 := Hist.snoc a1 (op := .processAll .insertion (coins [1])) (by simp only [step]; rw [hs]; rfl)
    have a3 := Hist.snoc a2 (op := .advance 100) rfl
    have a4 := Hist.snoc a3 (op := .handle com3) rfl
    exact ⟨_, _, a4, rfl⟩
  obtain ⟨h, s, hh, hl⟩ := hh
  obtain ⟨g1, _, g2, g3, _⟩ := C108_keygen 1 twice 1 10 0 s₀ h₀ (by decide) (by decide) hh
  exact ⟨s₀, s, h, h₀, hh, hl, g1, g2, g3⟩

/-- `C108_sign`: signer 2 twice, and a timeout. -/
theorem saccept : ∃ s, Sign.newSignState sumSha twice (skey 1) key [1, 2, 3] 10 0 = .ok s :=
  C42_accepts (skey 1) key twice [1, 2, 3] 10 0 (by decide) (by decide) (by decide) (by decide +kernel)
def r : Sign.Round Toy := match Sign.newRound twice (skey 1) key [1, 2, 3] with
  | .ok r => r
  | _ => r1
theorem rnew : Sign.newRound twice (skey 1) key [1, 2, 3] = .ok r := by
  obtain ⟨s, hs⟩ := saccept
  obtain ⟨x, hx, _⟩ := newSignState_ok.mp hs
  unfold r
  rw [hx]
theorem snew : Sign.newSignState sumSha twice (skey 1) key [1, 2, 3] 10 0 = .ok (start r) := newSignState_ok.mpr ⟨_, rnew, rfl⟩
def dops : List (Op Toy) := [.processAll .insertion (coins [13, 14]), .handle n2, .advance 10, .fire, .callback]
theorem dhist : Hist SI (start r) (safter (start r) dops).1 (safter (start r) dops).2 := shist _ (by decide +kernel)
example := C108_sign (skey 1) key twice [1, 2, 3] 10 0 _ snew (by decide) (by decide) dhist
example : (safter (start r) dops).2.done = true := by decide +kernel

/-- `C108_sign_output`, `C108_keygen_output`, `C108_progress`: the sessions that succeed. -/
example := C108_sign_output (skey 1) key ids [1, 2, 3] 10 0 _ new1 (by decide) s4
example := C108_keygen_output 1 ids 1 10 0 _ session1 (by decide) hist3
example := C108_progress (Sign.impl_stable sumSha) (r₀ := r1) (by decide +kernel) (by decide +kernel) s4 (Or.inl (by decide +kernel))

/-- `C108_wraps`: signer 2 is listed 65537 times, which the count of the code takes for two signers. -/
def many : IDSlice := 1 :: List.replicate 65537 2
theorem many_length : many.length - many.dedup.length = 65536 := by
  have : many.dedup = [1, 2] := by
    unfold many
    rw [List.dedup_cons_of_notMem (by rw [List.mem_replicate]; decide), List.replicate_dedup (by decide)]
  rw [this, many, List.length_cons, List.length_replicate]
  rfl
theorem maccept : ∃ s, Sign.newSignState sumSha many (skey 1) key [1, 2, 3] 10 0 = .ok s := by
  have hmem : ∀ id ∈ many, id = 1 ∨ id = 2 := by
    intro id hid
    rcases List.mem_cons.mp hid with h | h
    · exact Or.inl h
    · exact Or.inr (List.mem_replicate.mp h).2
  refine C42_accepts (skey 1) key many [1, 2, 3] 10 0 ?_ (by decide) List.mem_cons_self ?_
  · refine List.pairwise_cons.mpr ⟨fun a ha => ?_, List.pairwise_replicate.mpr (Or.inr (by decide))⟩
    rw [(List.mem_replicate.mp ha).2]; decide
  · intro id hid
    rcases hmem id hid with rfl | rfl <;> decide +kernel
example : ∃ s s' out, Sign.newSignState sumSha many (skey 1) key [1, 2, 3] 10 0 = .ok s ∧
    processAll SI .insertion (coins [13, 14]) s = some (s', [out]) := by
  obtain ⟨s, hs⟩ := maccept
  obtain ⟨s', h⟩ := (C108_wraps (skey 1) key many [1, 2, 3] 10 0 s hs .insertion (coins [13, 14])).1 (by rw [many_length])
  exact ⟨s, s', _, hs, h⟩

end Dup

end Verif.Cases
