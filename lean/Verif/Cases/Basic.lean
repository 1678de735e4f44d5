import Verif.Props.Party
import Verif.Props.Polynomial
import Verif.Props.Messages

/-!
The theorems of `Props/Party`, `Props/Polynomial` and `Props/Messages` that have hypotheses, applied to concrete identifiers, polynomials and messages.
-/

namespace Verif.Cases

open Verif Verif.Props

/-! ### Identifiers -/

example : (IDSlice.new [9, 4, 65535, 2]).Pairwise (· < ·) := C04_newIDSlice_strict (by decide)

example : IDSlice.contains [2, 4, 9, 65535] 9 = true := (C05_contains_iff_mem (by decide) 9).mpr (by decide)

example : IDSlice.contains [2, 4, 9, 65535] 8 ≠ true := fun h => absurd ((C05_contains_iff_mem (by decide) 8).mp h) (by decide)

example : (4 : ID) ∈ ([4, 9, 2] : IDSlice) := C05_contains_sound [4, 9, 2] 4 (by decide +kernel)

example : IDSlice.isSubsetOf [9, 9, 2] [2, 4, 9] = true := (C06_isSubsetOf_iff [9, 9, 2] (by decide)).mpr (by decide)

example : ID.lagrange 4 [2, 4, 9] = ID.lagrange 4 [9, 2, 4] := C08_lagrange_order_free (by decide) 4

example : ID.lagrange 4 [2, 4, 9] = .ok ((2 / (2 - 4)) * ((9 / (9 - 4)) * 1)) := C08_lagrange_closed_form (by decide) (by decide)

example : ID.randID 513 ≠ 0 ∧ (513 ≠ 0 → (ID.randID 513).toNat = 513) := C09_randID_ne_zero 513 (by decide)

example : newPartySlice 65534 65535 = some ((List.range' 1 65534).map UInt16.ofNat) :=
  C09_newPartySlice_partial 65534 (by decide) 65535 (by decide)

example : ([1, 2, 3] : IDSlice).Pairwise (· < ·) ∧ (0 : ID) ∉ ([1, 2, 3] : IDSlice) ∧ ([1, 2, 3] : IDSlice).length = 3 :=
  C09_newPartySlice_valid 3 10 [1, 2, 3] (by decide)

/-! ### Polynomials -/

example : Poly.evaluate [5, 3, 2] 7 = .ok (∑ i ∈ Finset.range 3, ([5, 3, 2] : Poly).getD i 0 * 7 ^ i) := C10_evaluate _ 7 (by decide)

example : ∃ y, Poly.evaluate [5, 3, 2] 7 = .ok y ∧ Exponent.evaluate (Exponent.ofPoly [5, 3, 2] : Exponent Toy) 7 = .ok (y • base) :=
  C11_evaluate_exponent _ 7 (by decide)

example : Exponent.evaluateHorner [Toy.of 5, Toy.of 3] 7 = Exponent.evaluate [Toy.of 5, Toy.of 3] 7 :=
  (C11_evaluators_agree [Toy.of 5, Toy.of 3] 7 (by decide)).2.2.1

example : ∃ m, Exponent.evaluateMulti [Toy.of 5, Toy.of 3] [4, 9] [] = .ok m ∧
    (∀ id ∈ ([4, 9] : List ID), ∃ e, Exponent.evaluate [Toy.of 5, Toy.of 3] (id.toNat : Scalar) = .ok e ∧ m.get? id = some e) ∧
    ∀ id, id ∉ ([4, 9] : List ID) → m.get? id = none := C11_evaluateMulti _ _ (by decide)

example : ∃ r, Exponent.add [Toy.of 5, Toy.of 3] [Toy.of 1, Toy.of 8] = .ok r ∧ r.length = 2 :=
  let ⟨r, h, l, _⟩ := C12_add_ok [Toy.of 5, Toy.of 3] [Toy.of 1, Toy.of 8] rfl
  ⟨r, h, l⟩

/-- The encoding of an `Exponent` with two coefficients. -/
abbrev expBytes : Bytes := Exponent.marshalBinary [Toy.of 7, Toy.of 9]

theorem expBytes_ok : (Exponent.unmarshalBinary expBytes : GoRes (Exponent Toy)) = .ok [Toy.of 7, Toy.of 9] := (C13_roundtrip_partial _ (by decide)).1

example : Exponent.marshalBinary [Toy.of 7, Toy.of 9] = expBytes := C13_canonical expBytes _ expBytes_ok

example : 1 ≤ [Toy.of 7, Toy.of 9].length ∧ [Toy.of 7, Toy.of 9].length ≤ 65535 :=
  C13_accepted_nonempty expBytes _ expBytes_ok (by decide +kernel)

example : Poly.new 3 11 (fun i => i + 5) = .ok (shamirList 11 fun j : Fin 3 => (j.val : Scalar) + 5) :=
  C15_shamirList_is_newPolynomial 3 (by decide) 11 fun i => i + 5

/-! ### Headers and messages -/

example : Header.marshalBinary ⟨2, 7, 9⟩ = .ok [2, 0, 7, 0, 9] ∧ Header.size ⟨2, 7, 9⟩ = 5 := C18_remarshal [2, 0, 7, 0, 9, 77, 78] ⟨2, 7, 9⟩ (by decide)

example : Header.unmarshalBinary [3, 1, 7, 0, 0] = .ok ⟨3, 263, 0⟩ := C18_roundtrip ⟨3, 263, 0⟩ _ (by decide)

example : Header.isBroadcast ⟨3, 263, 0⟩ = true ↔ (3 : MsgType) ≠ 2 := C18_broadcast ⟨3, 263, 0⟩ (by decide)

/-- A message of the first signing round. -/
abbrev msg : Message Toy := Message.newSign1 4 (Toy.of 3) (Toy.of 9)

/-- Its encoding. -/
abbrev msgBytes : Bytes := [3, 0, 4, 0, 0] ++ (RGroup.bytes (Toy.of 3) ++ RGroup.bytes (Toy.of 9))

theorem msg_marshal : Message.marshalBinary msg = .ok msgBytes := by decide +kernel

theorem msg_unmarshal : Message.unmarshalBinary (Message.fresh : Message Toy) msgBytes = .ok msg := by
  obtain ⟨b, h1, -, h3⟩ := C19_sign1 4 (by decide) (Toy.of 3) (Toy.of 9)
  rw [Outcome.ok.inj (msg_marshal.symm.trans h1)]
  exact h3

example : Message.bytesAppend msg [1, 2, 3] = .ok ([1, 2, 3] ++ msgBytes) := C23_message_append msg _ _ msg_marshal

example : ∃ b, Message.marshalBinary (Message.newKeyGen2 7 9 55 : Message Toy) = .ok b ∧
    b.length = (Message.newKeyGen2 7 9 55 : Message Toy).size ∧
    Message.unmarshalBinary Message.fresh b = .ok (Message.newKeyGen2 7 9 55 : Message Toy) := C19_keyGen2 7 9 (by decide) (by decide) 55

/-- `C19_sign1` is used in `msg_unmarshal`. -/
example : ∃ b, Message.marshalBinary msg = .ok b ∧ b.length = msg.size ∧ Message.unmarshalBinary Message.fresh b = .ok msg :=
  C19_sign1 4 (by decide) _ _

example : ∃ b, Message.marshalBinary (Message.newSign2 7 55 : Message Toy) = .ok b ∧ b.length = (Message.newSign2 7 55 : Message Toy).size ∧
    Message.unmarshalBinary Message.fresh b = .ok (Message.newSign2 7 55 : Message Toy) := C19_sign2 7 (by decide) 55

example : Message.marshalBinary msg = .ok msgBytes := C20_canonical msg msgBytes msg_unmarshal (by decide)

example (b : Bytes) (hb : Message.unmarshalBinary (Message.fresh : Message Toy) b = .ok msg) : msgBytes = b :=
  C20_injective msg msgBytes b msg_unmarshal hb (by decide)

/-- Two messages with the same bytes: one carries, besides its own payload, one of another type. -/
example : ({ msg with sign2 := some ⟨5⟩ } : Message Toy).header = msg.header :=
  C20_types_disjoint { msg with sign2 := some ⟨5⟩ } msg msgBytes (by decide +kernel) msg_marshal

example := C21_accepted_partial (Message.fresh : Message Toy) msg msgBytes msg_unmarshal

/-- The other case: a header with one byte after it, in a used receiver. -/
example := C21_accepted_partial msg { msg with header := ⟨2, 7, 9⟩ } [2, 0, 7, 0, 9, 1] (by decide +kernel)

example : Message.unmarshalBinary Message.fresh [4, 0, 7, 0, 0] = .ok ({ header := ⟨4, 7, 0⟩ } : Message Toy) :=
  C21_bare_header_accepted 4 7 0 (by decide)

example := C21_stale_payload (G := Toy) 7 8 9 (by decide) (by decide) (by decide) 55

example : Message.equal msg { msg with sign2 := some ⟨5⟩ } = true :=
  (C24_equal_iff msg { msg with sign2 := some ⟨5⟩ } _ _ rfl rfl).mpr ⟨rfl, rfl⟩

example : Message.equal msg { msg with sign2 := some ⟨5⟩ } = true :=
  (C24_equal_wire msg { msg with sign2 := some ⟨5⟩ } msgBytes msgBytes msg_marshal (by decide +kernel)).mpr rfl

example := C24_equivalence msg { msg with sign2 := some ⟨5⟩ } (Message.newSign2 7 55) (by decide) (by decide) (by decide)

end Verif.Cases
