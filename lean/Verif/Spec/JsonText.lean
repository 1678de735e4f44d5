import Verif.Spec.Json
import Verif.Spec.Party
import Verif.Spec.Base64
import Verif.Model.Eddsa
import Mathlib.Algebra.Polynomial.Eval.Defs
import Mathlib.Algebra.Polynomial.Degree.Defs

/-!
How `encoding/json` reads an object into a struct, said without an algorithm: which members belong to a field, and which of them counts;
and what a secret share and the public data of a key look like.
-/

namespace Verif.Spec.Json

open Verif.Json (Value)

/-- A string of ASCII characters as bytes. -/
def ascii (s : String) : Bytes := s.toList.map fun c => UInt8.ofNat c.toNat

/-- The same letter up to case, or the same byte. -/
def SameLetter (c d : UInt8) : Prop := c = d ∨ (0x41 ≤ c.toNat ∧ c.toNat ≤ 0x5A ∧ d.toNat = c.toNat + 0x20) ∨
  (0x41 ≤ d.toNat ∧ d.toNat ≤ 0x5A ∧ c.toNat = d.toNat + 0x20)

/-- The key names the field: equal up to case, where the Kelvin sign counts as a `k` and the long s as an `s`. -/
inductive Names : Bytes → Bytes → Prop
  | nil : Names [] []
  | letter {c d n k} : SameLetter c d → Names n k → Names (c :: n) (d :: k)
  | kelvin {c n k} : c ∈ ascii "kK" → Names n k → Names (c :: n) (0xE2 :: 0x84 :: 0xAA :: k)
  | longS {c n k} : c ∈ ascii "sS" → Names n k → Names (c :: n) (0xC5 :: 0xBF :: k)

/-- The members of an object for a field: each either leaves the field alone or sets it, and the field gets what the last one that sets it
says; if there is none it stays `a`. -/
def FieldIs {α : Type} (name : Bytes) (keeps : Value → Prop) (sets : Value → α → Prop) (a : α) (l : List (Bytes × Value)) (a' : α) : Prop :=
  (∀ p ∈ l, Names name p.1 → keeps p.2 ∨ ∃ x, sets p.2 x) ∧
  ((∃ l₁ p l₂, l = l₁ ++ p :: l₂ ∧ Names name p.1 ∧ sets p.2 a' ∧ ∀ q ∈ l₂, Names name q.1 → keeps q.2) ∨
    ((∀ p ∈ l, Names name p.1 → keeps p.2) ∧ a' = a))

/-- A number without fraction and exponent, of at most 64 bits.  (A plus sign would be accepted, but in JSON no number has one.) -/
def IntIs (v : Value) (i : Int) : Prop :=
  ∃ sign ds, v = .num (sign ++ ds) ∧ IsDecimal ds ∧ -2 ^ 63 ≤ i ∧ i < 2 ^ 63 ∧
    (((sign = [] ∨ sign = ascii "+") ∧ i = decimalValue ds) ∨ (sign = ascii "-" ∧ i = -(decimalValue ds : Int)))

/-- A number for a byte; null stands for 0. -/
def ByteIs (v : Value) (c : UInt8) : Prop := (v = .null ∧ c = 0) ∨ ∃ lit, v = .num lit ∧ IsDecimal lit ∧ decimalValue lit = c.toNat

/-- A base64 text, line breaks in it not counting, the unused bits of the last digit being arbitrary. -/
def Base64Is (s : Bytes) (b : Bytes) : Prop := ∃ r, Base64.Encodes (s.filter fun c => c ≠ 0x0A ∧ c ≠ 0x0D) b r

/-- A value for a `[]byte`. -/
def BytesIs (v : Value) (b : Bytes) : Prop :=
  (v = .null ∧ b = []) ∨ (∃ s, v = .str s ∧ Base64Is s b) ∨ ∃ vs, v = .arr vs ∧ List.Forall₂ ByteIs vs b

/-- A value for a pointer to a group element whose encoding is given by `enc`. -/
def ElementIs {G : Type} (enc : G → Bytes) (v : Value) (g : Option G) : Prop :=
  (v = .null ∧ g = none) ∨ ∃ s x, v = .str s ∧ g = some x ∧ Base64Is s (enc x)

/-- A key of a map: an ID in decimal; leading zeros do not count. -/
def KeyIs (k : Bytes) (id : ID) : Prop := IsDecimal k ∧ decimalValue k = id.toNat

/-- The members of an object for a field that is a map: the entries of all the objects given for it, from the last null on. -/
inductive MapField {α : Type} (name : Bytes) (entry : Value → α → Prop) : List (ID × α) → List (Bytes × Value) → List (ID × α) → Prop
  | done {e} : MapField name entry e [] e
  | other {e k v l e'} : ¬ Names name k → MapField name entry e l e' → MapField name entry e ((k, v) :: l) e'
  | reset {e k l e'} : Names name k → MapField name entry [] l e' → MapField name entry e ((k, .null) :: l) e'
  | add {e k s es l e'} : Names name k → List.Forall₂ (fun p x => KeyIs p.1 x.1 ∧ entry p.2 x.2) s es → MapField name entry (e ++ es) l e' →
      MapField name entry e ((k, .obj s) :: l) e'

/-- The last entry for an ID. -/
def lastEntry {α : Type} (es : List (ID × α)) (id : ID) : Option α := (es.reverse.find? fun x => x.1 == id).map Prod.snd

/-- Ways to write natural numbers in decimal without leading zeros and bytes in base64 without slack. -/
structure Writing where
  num : Nat → Bytes
  num_is : ∀ n, IntPart (num n) ∧ IsDecimal (num n) ∧ decimalValue (num n) = n
  base64 : Bytes → Bytes
  base64_is : ∀ b, Base64.Encodes (base64 b) b 0

variable {G : Type} [RGroup G]

/-- The low 16 bits of a Go `int`. -/
def Low16 (i : Int) (x : UInt16) : Prop := ∃ q : Int, i = 65536 * q + x.toNat

/-- A secret share: the fields `id` and `secret`; without an `id` the ID is 0. -/
def SecretShareIs (v : Value) (sk : SecretShare G) : Prop :=
  ∃ l i, v = .obj l ∧ FieldIs (ascii "id") (fun v => v = .null) IntIs 0 l i ∧ FieldIs (ascii "secret") (fun _ => False) BytesIs [] l sk.secret.bytes ∧
    Low16 i sk.id ∧ sk.pub = sk.secret • base

/-- The values of a polynomial of degree below their number, times the base point; `key` belongs to its value at 0. -/
def Interpolates (n : Nat) (share : ID → Option G) (key : G) : Prop :=
  ∃ f : Polynomial Scalar, f.degree < n ∧ (∀ id g, share id = some g → g = f.eval (id.toNat : Scalar) • base) ∧ key = f.eval 0 • base

/-- The public data of a key: the fields `t`, `groupkey` and `shares`. -/
def PublicIs (v : Value) (p : Public G) : Prop :=
  ∃ l t es, v = .obj l ∧ FieldIs (ascii "t") (fun v => v = .null) IntIs 0 l t ∧
    FieldIs (ascii "groupkey") (fun _ => False) (ElementIs RGroup.bytes) none l (some p.groupKey) ∧ MapField (ascii "shares") (ElementIs RGroup.bytes) [] l es ∧
    Low16 t p.threshold ∧ p.shares.WF ∧ (∀ id, lastEntry es id = (p.shares.get? id).map some) ∧ lastEntry es 0 = none ∧
    p.partyIDs.Pairwise (· < ·) ∧ (∀ id, id ∈ p.partyIDs ↔ ∃ g, p.shares.get? id = some g) ∧
    (p.threshold = 65535 ∨ p.threshold.toNat + 1 ≤ p.partyIDs.length) ∧ Interpolates p.partyIDs.length p.shares.get? p.groupKey

/-- A value for a pointer: null for nil. -/
def PtrIs {α : Type} (is : Value → α → Prop) (v : Value) (o : Option α) : Prop := (v = .null ∧ o = none) ∨ ∃ x, o = some x ∧ is v x

/-- The same public data; the two maps may be listed in different orders. -/
def SamePublic (p p' : Public G) : Prop :=
  p.partyIDs = p'.partyIDs ∧ p.threshold = p'.threshold ∧ p.groupKey = p'.groupKey ∧ p.shares.Perm p'.shares

/-- The file of keys: the fields `Secrets` and `Shares`; null for a file without either. -/
def KeysIs (v : Value) (secrets : ID → Option (Option (SecretShare G))) (shares : Option (Public G)) : Prop :=
  (v = .null ∧ (∀ id, secrets id = none) ∧ shares = none) ∨
  ∃ l es, v = .obj l ∧ MapField (ascii "Secrets") (PtrIs SecretShareIs) [] l es ∧ (∀ id, secrets id = lastEntry es id) ∧
    FieldIs (ascii "Shares") (fun _ => False) (PtrIs PublicIs) none l shares

end Verif.Spec.Json
