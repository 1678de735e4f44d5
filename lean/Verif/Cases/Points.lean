import Verif.Props.Ristretto

/-!
The theorems of `Props/Ristretto` that have hypotheses, applied to concrete coordinates: the generator, its multiples, and the generator plus a point
of order four.
-/

namespace Verif.Cases

open Verif Verif.Props Verif.Curve Verif.Spec

/-- Coordinates of the generator, of twice the generator, and of the generator with another third coordinate. -/
abbrev P1 : Point := Point.generator
abbrev P2 : Point := Point.add Point.generator Point.generator
abbrev P3 : Point := Point.add Point.generator Point.identity

theorem P1_stands : Stands P1 (base : RG) := stands_generator
theorem P2_stands : Stands P2 (base + base : RG) := stands_generator.add stands_generator
theorem P3_stands : Stands P3 (base : RG) := by
  have := stands_generator.add stands_identity
  rwa [add_zero] at this

theorem P1_rep : ∃ A, Rep P1 A ∧ Curve.Even A := let ⟨A, h, e, _⟩ := P1_stands; ⟨A, h, e⟩
theorem P2_rep : ∃ A, Rep P2 A ∧ Curve.Even A := let ⟨A, h, e, _⟩ := P2_stands; ⟨A, h, e⟩
theorem P3_rep : ∃ A, Rep P3 A ∧ Curve.Even A := let ⟨A, h, e, _⟩ := P3_stands; ⟨A, h, e⟩

theorem P1_valid : Valid P1 := let ⟨_, h, _⟩ := P1_rep; h.valid
theorem P2_valid : Valid P2 := let ⟨_, h, _⟩ := P2_rep; h.valid
theorem P3_valid : Valid P3 := let ⟨_, h, _⟩ := P3_rep; h.valid

theorem P13_equal : Ristretto.equal P1 P3 = true := by decide +kernel
theorem P12_differ : Ristretto.equal P1 P2 = false := by decide +kernel

example : ∃ A C, Rep P1 A ∧ Rep P2 C ∧ 4 • (A - C) ≠ 0 := by
  obtain ⟨A, hA, -⟩ := P1_rep
  obtain ⟨C, hC, -⟩ := P2_rep
  refine ⟨A, C, hA, hC, fun h => ?_⟩
  have := (C57_equal_iff hA hC).mpr h
  rw [P12_differ] at this
  exact absurd this (by decide)

/-- `C57_representation` on two coordinates of the generator. -/
example : Ristretto.equal P1 P2 = Ristretto.equal (Point.add Point.identity P1) P2 := by
  obtain ⟨C, hC, -⟩ := P2_rep
  have h : Rep P1 B := rep_generator
  exact C57_representation h (by have := rep_add rep_identity h; rwa [zero_add] at this) hC hC

example := C57_compatible P1_valid P3_valid P2_valid P2_valid P13_equal (C57_equivalence.1 P2 P2_valid)

example := C57_valid P1_valid P2_valid 12345

example : ∃ A, ∃ s C, SameElement A C ∧ Encodes s C ∧ (Ristretto.bytes P2).length = 32 ∧ leNat (Ristretto.bytes P2) = s.val :=
  let ⟨A, hA, eA⟩ := P2_rep
  ⟨A, C58_bytes_spec hA eA⟩

example : Ristretto.bytes P1 = Ristretto.bytes P3 := by
  obtain ⟨A, hA, eA⟩ := P1_rep
  obtain ⟨C, hC, eC⟩ := P3_rep
  exact (C58_bytes_eq_iff hA eA hC eC).mpr P13_equal

example : ∃ Q C, Ristretto.setCanonicalBytes (Ristretto.bytes P2) = .ok Q ∧ Rep Q C ∧ Curve.Even C ∧ Ristretto.equal P2 Q = true :=
  let ⟨_, hA, eA⟩ := P2_rep
  C58_roundtrip hA eA

example : Ristretto.bytesEd25519 P1 = Ristretto.bytesEd25519 P3 := by
  obtain ⟨A, hA, eA⟩ := P1_rep
  obtain ⟨C, hC, eC⟩ := P3_rep
  exact (C59_eq_iff hA eA hC eC).mpr P13_equal

example : Ristretto.bytesEd25519 P1 ≠ Ristretto.bytesEd25519 P2 := by
  obtain ⟨A, hA, eA⟩ := P1_rep
  obtain ⟨C, hC, eC⟩ := P2_rep
  exact fun h => absurd ((C59_eq_iff hA eA hC eC).mp h) (by decide +kernel)

example : ∃ P A, Ristretto.setUniformBytes (List.replicate 64 77) = .ok P ∧ Rep P A ∧ Curve.Even A := C60_ok (by decide)

example : ∃ Q C, Ristretto.unmarshalText (Ristretto.marshalText P2) = .ok Q ∧ Rep Q C ∧ Curve.Even C ∧ Ristretto.equal P2 Q = true :=
  let ⟨_, hA, eA⟩ := P2_rep
  C61_roundtrip hA eA

example := C68_arithmetic P1_stands P2_stands 5 7

/-- As many scalars as points, and one more. -/
example : ∃ P, Ristretto.multiScalarMult [5, 7] [P1, P2] = .ok P ∧ Stands P (((5 : Scalar) • (base : RG)) + ((7 : Scalar) • (base + base : RG) + 0)) := by
  rcases C68_multiScalarMult [5, 7] (p := [P1, P2]) (g := [base, base + base]) (.cons P1_stands (.cons P2_stands .nil)) with h | h
  · exact absurd rfl h.1
  · exact h.2

example : Ristretto.multiScalarMult [5, 7, 9] [P1, P2] = .panic := by
  rcases C68_multiScalarMult [5, 7, 9] (p := [P1, P2]) (g := [base, base + base]) (.cons P1_stands (.cons P2_stands .nil)) with h | h
  · exact h.2
  · exact absurd h.1 (by decide)

example : Ristretto.bytes P2 = RGroup.bytes (base + base : RG) ∧ Ristretto.bytesEd25519 P2 = .ok (RGroup.bytesEd25519 (base + base : RG)) :=
  C68_encodings P2_stands

end Verif.Cases
