import Verif.Cases.Keys
import Verif.Cases.Network
import Verif.Props.Json

/-! The theorems of `Props/Json` that have hypotheses, applied to concrete texts and keys. -/

namespace Verif.Cases

open Verif Verif.Props Verif.Json Verif.Spec.Json Verif.Cmd Polynomial

/-- A text with white space, all kinds of values, and a name that occurs twice. -/
abbrev sampleText : Bytes := ascii " { \"a\" : [ 1, -2.5e+3 , true ],\n\"a\":null } "

theorem sample_document : ∃ v, Document v sampleText ∧ Nested 10000 v := by
  obtain ⟨v, h⟩ := Option.isSome_iff_exists.mp (show (parse sampleText).isSome = true by decide +kernel)
  exact ⟨v, (C81_reads_grammar _ v).mp h⟩

example : ∃! v, Document v sampleText :=
  let ⟨v, h, _⟩ := sample_document
  ⟨v, h, fun _ h' => C81_unambiguous h' h⟩

/-- `C81_strings`: the letter a, an escape, and the clef of the example in RFC 8259, section 7. -/
example : parse (ascii "\"a\\n\\uD834\\udd1E\"") = some (.str (0x61 :: 0x0A :: String.utf8EncodeChar (Char.ofNat 0x1D11E))) := by
  have h4 : Hex4Is (ascii "D834") 0xD834 := ⟨_, _, _, _, 0xD, 8, 3, 4, rfl, .inr rfl, .inl rfl, .inl rfl, .inl rfl, rfl⟩
  have h4' : Hex4Is (ascii "dd1E") 0xDD1E := ⟨_, _, _, _, 0xD, 0xD, 1, 0xE, rfl, .inl rfl, .inl rfl, .inl rfl, .inr rfl, rfl⟩
  have e : (Char.ofNat 0x1D11E).toNat = 0x1D11E := by decide +kernel
  have h := C81_strings (Means.char (c := 'a') (by decide) (by decide) (by decide) (.esc (c := 0x6E) (d := 0x0A) (by decide)
    (.pair (c := Char.ofNat 0x1D11E) (h := ascii "D834") (h' := ascii "dd1E") (by rw [e]; decide) (by rw [e]; exact h4) (by rw [e]; exact h4') .nil)))
  rw [List.append_nil] at h
  rw [show ascii "\"a\\n\\uD834\\udd1E\"" = 0x22 :: (String.utf8EncodeChar 'a' ++ 0x5C :: 0x6E :: (0x5C :: 0x75 :: ascii "D834" ++ 0x5C :: 0x75 :: ascii "dd1E")) ++ [0x22] by
    decide +kernel, h]
  rfl

/-- `C81_every_string`: the first byte of a character of two bytes that is followed by a letter, and half of a pair of surrogates. -/
abbrev brokenString : Bytes := 0xC3 :: 0x28 :: ascii "\\uD834x"

theorem brokenString_chars : Chars brokenString :=
  .plain (by decide) (by decide) (by decide) (.plain (by decide) (by decide) (by decide)
    (.unicode (h1 := 0x44) (h2 := 0x38) (h3 := 0x33) (h4 := 0x34) (.inr (by decide)) (.inl (by unfold Digit; decide)) (.inl (by unfold Digit; decide)) (.inl (by unfold Digit; decide))
      (.plain (by decide) (by decide) (by decide) .nil)))

example : ∃ t, Means brokenString t ∧ (∀ t', Means brokenString t' → t' = t) ∧ ∃ cs : List Char, t = cs.flatMap String.utf8EncodeChar :=
  C81_every_string brokenString_chars

example : Means brokenString (fffd ++ 0x28 :: (fffd ++ [0x78])) := by
  have := means_unquote brokenString_chars
  rwa [show unquote brokenString = fffd ++ 0x28 :: (fffd ++ [0x78]) by decide +kernel] at this

/-- `C82_roundtrip` with white space around the text. -/
example : readSecretShare (G := Toy) (ascii " \n" ++ writeSecretShare (SecretShare.new 258 77 : SecretShare Toy) ++ ascii "\t") = .ok (SecretShare.new 258 77) :=
  C82_roundtrip 258 77 _ ⟨_, _, _, rfl, by unfold Ws; decide, compact_text _ (ofSecretShare_plain _), by unfold Ws; decide⟩

/-- The key of the polynomial `5 + 7 X` for parties 1 and 2. -/
abbrev key12 : Public Toy := ⟨[1, 2], 1, [(1, Toy.of 12), (2, Toy.of 19)], Toy.of 5⟩

example := C83_text key12 (by decide)

theorem key12_interpolates : Interpolates key12.partyIDs.length key12.shares.get? key12.groupKey := by
  refine ⟨C 5 + C 7 * X, (Polynomial.degree_lt_iff_coeff_zero _ _).mpr fun m hm => ?_, ?_, ?_⟩
  · exact Polynomial.coeff_eq_zero_of_natDegree_lt (lt_of_le_of_lt degree_one (lt_of_lt_of_le (by decide) hm))
  · intro id g h
    have hid : id = 1 ∨ id = 2 := by
      have := GoMap.get?_eq_none (m := key12.shares) (k := id)
      by_contra hn
      rw [not_or] at hn
      rw [this.mpr (by simp [GoMap.keys, hn.1, hn.2])] at h
      cases h
    obtain rfl | rfl := hid
    · rw [← Option.some.inj h]; simp only [eval_add, eval_C, eval_mul, eval_X]; decide +kernel
    · rw [← Option.some.inj h]; simp only [eval_add, eval_C, eval_mul, eval_X]; decide +kernel
  · simp only [eval_add, eval_C, eval_mul, eval_X]; decide +kernel

/-- `C83_roundtrip`: the hypotheses hold for this key. -/
theorem key12_read (ord : MapOrder) : ∃ p', readPublic ord (ascii " \n" ++ writePublic key12 ++ ascii "\t") = .ok p' ∧ SamePublic p' key12 := by
  refine C83_roundtrip ord key12 (by decide) (by decide) (by decide) (fun id => ?_) (by decide) key12_interpolates _
    ⟨_, _, _, rfl, by unfold Ws; decide, compact_text _ (ofPublic_plain _), by unfold Ws; decide⟩
  rw [show (∃ g, key12.shares.get? id = some g) ↔ id ∈ key12.shares.keys from by
    rw [← Option.ne_none_iff_exists', ne_eq, GoMap.get?_eq_none, not_not]]
  rfl

/-- `C83_accepted` and `C83_accepts` at the text just read. -/
example (ord ord' : MapOrder) : ∃ (v : Value) (p p' : Public Toy), PublicIs v p ∧ readPublic ord' (ascii " \n" ++ writePublic key12 ++ ascii "\t") = .ok p' ∧ SamePublic p' p := by
  obtain ⟨p, h, _⟩ := key12_read ord
  obtain ⟨v, h1, h2⟩ := C83_accepted ord _ p h
  obtain ⟨p', h3⟩ := C83_accepts ord' _ v p h1 h2
  exact ⟨v, p, p', h2, h3⟩

/-- `C83_roundtrip_newPublic` and `C83_roundtrip_newPublic_layout` with the shares of parties 7 and 2. -/
example (ord' : MapOrder) : ∃ p p₁ p₂ : Public Toy, readPublic ord' (writePublic p) = .ok p₁ ∧ readPublic ord' (ascii " \n" ++ writePublic p ++ ascii "\t") = .ok p₂ := by
  obtain ⟨p, h⟩ := two_public
  obtain ⟨p₁, h1, _⟩ := C83_roundtrip_newPublic MapOrder.insertion ord' two (by decide) 1 p h
  obtain ⟨p₂, h2, _⟩ := C83_roundtrip_newPublic_layout MapOrder.insertion ord' two (by decide) 1 p h (ascii " \n" ++ writePublic p ++ ascii "\t")
    ⟨_, _, _, rfl, by unfold Ws; decide, compact_text _ (ofPublic_plain _), by unfold Ws; decide⟩
  exact ⟨p, p₁, p₂, h1, h2⟩

/-! ### The file of keys -/

example := C84_text (G := Toy) [10, 2, 7] (by decide) (by decide) 1 (C 5 + C 7 * X)

/-- `C84_signs` with the file of `cmd/keygen` and a line feed at its end, and `C84_printed_is_valid` at the signature that it gives;
`C84_accepts` and `C84_accepted` with the same file. -/
example (sha : Sha512) (env : Env) (hc : env.coins 0 = nonces) (ord : MapOrder) : ∃ (b : Bytes) (sig : Signature Curve.RG) (v : Value) (secrets : _) (pub : Public Curve.RG),
    signerText sha env ord b [7, 8] = .done sig ∧ Readable v b ∧ KeysIs v secrets (some pub) ∧ ∃ keys : Keys Curve.RG, readFile ord b = .ok keys ∧ KeysIs v keys.secrets.get? keys.shares := by
  obtain ⟨sig, h, _⟩ := C84_signs (sha := sha) env ord 3 (by decide) 1 (by decide) (C 5 + C 7 * X) degree_one
    (writeFile (Spec.keyFile (Spec.firstIDs 3) 1 (C 5 + C 7 * X) : File Curve.RG) ++ ascii "\n")
    ⟨[], _, _, rfl, Ws.nil, indent_text 1 0 _ (ofFile_plain _), by unfold Ws; decide⟩ [7, 8] (by rw [hc]; decide +kernel)
  obtain ⟨v, secrets, pub, h1, h2, _⟩ := C84_printed_is_valid env ord _ _ sig h
  obtain ⟨keys, h3, _⟩ := C84_accepts ord _ v secrets (some pub) h1 h2
  obtain ⟨v', h4, h5⟩ := C84_accepted ord _ keys h3
  rw [C81_unambiguous h4.1 h1.1] at h5
  exact ⟨_, sig, v, secrets, pub, h, h1, h2, keys, h3, h5⟩

end Verif.Cases
