import Verif.Props.HashToGroup

/-! Concrete cases for C111. -/

namespace Verif.Cases

open Verif Curve Spec Props

/-- The generator is an element for which the bounds hold. -/
example : {t : Fp | ∃ P, Ristretto.mapToPoint t = .ok P ∧ Ristretto.equal P Point.generator = true}.ncard ≤ 32 :=
  C111_map rep_generator even_B

/-- The element that 5 is mapped to is hit, also by -5. -/
example : ∃ P, Ristretto.mapToPoint 5 = .ok P ∧ Ristretto.mapToPoint (-5) = .ok P ∧ (5 : Fp) ≠ -5 ∧
    2 ≤ {t : Fp | ∃ P', Ristretto.mapToPoint t = .ok P' ∧ Ristretto.equal P' P = true}.ncard := by
  obtain ⟨P, A, h1, h2, h3⟩ := mapToPoint_ok 5
  have h4 := (C111_sign 5).trans h1
  have hne : (5 : Fp) ≠ -5 := by decide +kernel
  have he : Ristretto.equal P P = true := (equal_iff_cls h2 h3 h2 h3).mpr rfl
  refine ⟨P, h1, h4, hne, ?_⟩
  rw [← Set.ncard_pair hne]
  refine Set.ncard_le_ncard ?_ (Set.toFinite _)
  rintro t (rfl | rfl)
  · exact ⟨P, h1, he⟩
  · exact ⟨P, h4, he⟩

/-- Zero is mapped to the neutral element. -/
example : ∃ P, Ristretto.mapToPoint 0 = .ok P ∧ Ristretto.equal P Point.identity = true := by
  have h : (match Ristretto.mapToPoint 0 with | .ok P => Ristretto.equal P Point.identity | _ => false) = true := by decide +kernel
  revert h
  cases Ristretto.mapToPoint 0 with
  | ok P => exact fun h => ⟨P, rfl, h⟩
  | err => simp
  | panic => simp

/-- `C111_spread`. -/
example : {b : Block | ∃ P, Ristretto.setUniformBytes b.1 = .ok P ∧ Ristretto.equal P Point.generator = true}.ncard ≤ 2 ^ 263 :=
  C111_spread rep_generator even_B

example : Spec.prob (fun b : Block => ∃ P, Ristretto.setUniformBytes b.1 = .ok P ∧ Ristretto.equal P Point.generator = true) ≤ 1 / 2 ^ 249 :=
  C111_probability rep_generator even_B

/-- Two different strings of 64 bytes that give the same element: the highest bit of each half is not used. -/
example : (List.replicate 64 0 : Bytes) ≠ List.replicate 63 0 ++ [128] ∧
    Ristretto.setUniformBytes (List.replicate 64 0) = Ristretto.setUniformBytes (List.replicate 63 0 ++ [128]) := by
  refine ⟨by decide, ?_⟩
  rfl

end Verif.Cases
