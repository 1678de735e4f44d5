import Verif.Props.Print
import Verif.Cases.Points
import Verif.Cases.Json

/-!
The theorems on what the programs print, applied to concrete runs.
-/

namespace Verif.Cases

open Verif Verif.Props Verif.Cmd Verif.Curve Polynomial
open Verif.Spec.Json (ascii)

/-- `keygen 2 3`. -/
example (sha : Sha512) (env : Env) := C95_keygen_text (G := Toy) (sha := sha) env (ascii "2") (ascii "3") 2 3 (by decide) (by decide) (by decide) (by decide) (by decide)

/-- `keygen 99 100`, which the usage text forbids. -/
example (sha : Sha512) (env : Env) := C95_keygen_text (G := RG) (sha := sha) env (ascii "99") (ascii "100") 99 100 (by decide) (by decide) (by decide) (by decide) (by decide)

/-- `keygen 2 3` in a directory that cannot be written to. -/
example (sha : Sha512) (env : Env) := C95_write_error_ignored (G := Toy) (sha := sha) env (some [1, 2]) (ascii "2") (ascii "3") 2 3 (by decide) (by decide)
  (by decide) (by decide) (by decide)

/-- `C95_file`: a run that ends, and one that does not. -/
example (sha : Sha512) (env : Env) : ∃ file, keygenFile (G := Toy) sha env true none [ascii "2", ascii "3"] = some (Json.writeFile (file : File Toy)) := by
  obtain ⟨_, F, h, _⟩ := C95_keygen_text (G := Toy) (sha := sha) env (ascii "2") (ascii "3") 2 3 (by decide) (by decide) (by decide) (by decide) (by decide)
  exact ⟨_, (C95_file env none _).1 _ ((C95_keygen_ends env _).trans h)⟩

example (sha : Sha512) (env : Env) : keygenFile (G := Toy) sha env true (some [1, 2]) [ascii "2", ascii "x"] = some [1, 2] :=
  (C95_file env (some [1, 2]) _).2 fun b h => by
    obtain ⟨_, h⟩ := (C95_keygen_success env _).1 ⟨b, h⟩
    cases h

/-- `C95_signer_text` with the file of `cmd/keygen` for three parties. -/
example (sha : Sha512) (env : Env) (hc : env.coins 0 = nonces) (ord : MapOrder) : ∃ (sig : Signature RG) (w : Verif.Spec.Print) (pub : Public RG),
    Verif.Spec.Shows (signerTalk (G := RG) sha env ord
      (fun _ => some (Json.writeFile (Spec.keyFile (Spec.firstIDs 3) 1 (C 5 + C 7 * X) : File RG))) [ascii "keygenout.json", [7, 8]]).out
        (ascii "(t, n) = (" ++ w.num pub.threshold.toNat ++ ascii ", " ++ w.num (pub.partyIDs.length % 65536) ++ ascii ")\nSuccess: signature is\nr: " ++
          w.hex (RGroup.bytes sig.R) ++ ascii "\ns: " ++ w.hex sig.S.bytes ++ ascii "\n") := by
  obtain ⟨sig, h, _⟩ := C84_signs (sha := sha) env ord 3 (by decide) 1 (by decide) (C 5 + C 7 * X) degree_one
    (Json.writeFile (Spec.keyFile (Spec.firstIDs 3) 1 (C 5 + C 7 * X) : File RG))
    ⟨[], _, [], (List.append_nil _).symm, Json.Ws.nil, Json.indent_text 1 0 _ (Json.ofFile_plain _), Json.Ws.nil⟩ [7, 8] (by rw [hc]; decide +kernel)
  obtain ⟨w, file, message, data, v, secrets, pub, -, -, -, -, h5, -⟩ := C95_signer_text (sha := sha) env ord
    (fun _ => some (Json.writeFile (Spec.keyFile (Spec.firstIDs 3) 1 (C 5 + C 7 * X) : File RG))) [ascii "keygenout.json", [7, 8]] sig
    ((C95_signer_ends env ord _ _).trans h)
  exact ⟨sig, w, pub, h5⟩

/-! ### A printed pair that Ed25519 accepts

The Ed25519 encoding of 70 times the generator is also the ristretto255 encoding of some element. -/

/-- 70 times the generator. -/
def seventy : RG := (70 : Scalar) • base

theorem seventy_stands : Stands (Point.scalarMult 70 Point.generator) seventy := stands_generator.scalarMult 70

theorem seventy_bytes : ∃ R : RG, RGroup.bytes R = RGroup.bytesEd25519 seventy := by
  have h := (C68_encodings seventy_stands).2
  have h1 : Ristretto.bytesEd25519 (Point.scalarMult 70 Point.generator) = .ok (
      (match Ristretto.bytesEd25519 (Point.scalarMult 70 Point.generator) with | .ok b => b | _ => [])) := by rw [h]
  rcases setCanonicalBytes_stands (RGroup.bytesEd25519 seventy) with ⟨_, R, _, hR, _⟩ | ⟨he, _⟩
  · exact ⟨R, RGroup.bytes_set _ _ hR⟩
  · rw [h, Outcome.ok.injEq] at h1
    rw [h1] at he
    exact absurd he (by decide +kernel)

/-- A hash that is 1 on inputs that begin with certain bytes and 0 on others. -/
def marked (b : Bytes) : Sha512 where
  sum x := if x.take 32 = b then 1 :: List.replicate 63 0 else List.replicate 64 0
  length_sum x := by split <;> rfl

/-- `C95_not_a_signature`: a valid signature such that what is printed for it is accepted as it is printed, under a hash made for the purpose. -/
theorem printed_accepted : ∃ (sha : Sha512) (A : RG) (sig : Signature RG), PublicKey.verify sha A [7, 8] sig = .ok true ∧
    Ed25519.verify sha (PublicKey.toEd25519 A) [7, 8] (RGroup.bytes sig.R ++ sig.S.bytes) = .ok true := by
  obtain ⟨R, hR⟩ := seventy_bytes
  have one : Spec.challenge (marked (RGroup.bytesEd25519 R)) R (seventy - R) [7, 8] = 1 := by
    unfold Spec.challenge marked
    simp only
    rw [if_pos (by rw [List.append_assoc, List.take_left' (RGroup.bytesEd25519_length _)])]
    decide +kernel
  have zero : Spec.printedChallenge (marked (RGroup.bytesEd25519 R)) ⟨R, 70⟩ (seventy - R) [7, 8] = 0 := by
    unfold Spec.printedChallenge marked
    simp only
    rw [if_neg (by
      rw [List.append_assoc, List.take_left' (RGroup.bytes_length _)]
      exact RG.bytes_ne_bytesEd25519 R)]
    decide +kernel
  refine ⟨marked (RGroup.bytesEd25519 R), seventy - R, ⟨R, 70⟩, ?_, ?_⟩
  · obtain ⟨b, h1, h2⟩ := C50_verify_iff (marked (RGroup.bytesEd25519 R)) (seventy - R) [7, 8] ⟨R, 70⟩
    rw [h1, Outcome.ok.injEq, h2]
    simp only
    rw [one, one_smul, add_sub_cancel]
    rfl
  · rw [verify_printed, zero, zero_smul, sub_zero]
    simp only
    rw [hR, show (70 : Scalar) • (base : RG) = seventy from rfl, decide_eq_true rfl]

example : ∃ (sha : Sha512) (A : RG) (sig : Signature RG), A ≠ 0 ∧ Spec.printedChallenge sha sig A [7, 8] ≠ Spec.challenge sha sig.R A [7, 8] := by
  obtain ⟨sha, A, sig, h1, h2⟩ := printed_accepted
  obtain ⟨h3, h4, -⟩ := C95_not_a_signature A [7, 8] sig h1 h2
  exact ⟨sha, A, sig, h3, h4⟩

end Verif.Cases
