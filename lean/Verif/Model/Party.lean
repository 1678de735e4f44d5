import Verif.Model.Scalar
import Mathlib.Data.Nat.Digits.Defs
import Mathlib.Data.List.Sort

/-!
`pkg/frost/party`: party identifiers and lists of them; `helpers.NewPartySlice`.
-/

namespace Verif

/-- `type ID uint16`, `type Size = ID` (pkg/frost/party/id.go:22-27). -/
abbrev ID := UInt16

namespace ID

/-- `(id ID) Scalar()` (pkg/frost/party/id.go:29-41). -/
def scalar (id : ID) : GoRes Scalar := do
  let bytes ← putLE16 (List.replicate 32 0) id
  Outcome.deref (Scalar.setCanonicalBytes bytes)

/-- `(id ID) Bytes()` (pkg/frost/party/id.go:43-49). -/
def bytes (id : ID) : Bytes := be16 id

/-- `FromBytes` (pkg/frost/party/id.go:56-64). -/
def fromBytes (b : Bytes) : GoRes ID := do
  Outcome.failIf (b.length < 2) .tooShort
  readBE16 b

/-- `strconv.FormatUint(n, 10)`: ASCII decimal digits, most significant first (standard library, simplified to its
contract). -/
def formatUint (n : Nat) : Bytes :=
  if n = 0 then [48] else (Nat.digits 10 n).reverse.map fun d => UInt8.ofNat (48 + d)

/-- `(id ID) MarshalText()` and `String()` (pkg/frost/party/id.go:51-54, 76-79). -/
def marshalText (id : ID) : Bytes := formatUint id.toNat

/-- The digit loop of `strconv.ParseUint(s, 10, 16)` (standard library, followed line by line; the 64-bit overflow test
`n >= cutoff` is omitted because `n ≤ 65535` there). -/
def parseLoop : Bytes → Nat → GoRes Nat
  | [], n => .ok n
  | c :: cs, n =>
    if 48 ≤ c.toNat ∧ c.toNat ≤ 57 then
      let n1 := n * 10 + (c.toNat - 48)
      if n1 > 65535 then .err .textRange else parseLoop cs n1
    else .err .textSyntax

/-- `strconv.ParseUint(s, 10, 16)`: the empty string is a syntax error. -/
def parseUint16 (s : Bytes) : GoRes Nat :=
  if s.isEmpty then .err .textSyntax else parseLoop s 0

/-- `(id *ID) UnmarshalText(text)` (pkg/frost/party/id.go:81-93); `_MAX` is `MaxUint32` (line 20). -/
def unmarshalText (text : Bytes) : GoRes ID := do
  let idUint ← parseUint16 text
  Outcome.failIf (idUint > 4294967295) .textRange
  return UInt16.ofNat idUint

/-- `RandID()` (pkg/frost/party/id.go:66-74), as a function of the value `r` returned by `rand.Int31n(65536)`. -/
def randID (r : Nat) : ID := if r = 0 then UInt16.ofNat (r + 1) else UInt16.ofNat r

/-- Loop body and loop of `Lagrange` (pkg/frost/party/id.go:127-142): state is `(num, denum, foundSelfInIDs)`. -/
def lagrangeLoop (id : ID) (xJ : Scalar) : List ID → Scalar × Scalar × Bool → GoRes (Scalar × Scalar × Bool)
  | [], st => .ok st
  | partyID :: rest, (num, denum, found) =>
    if partyID = id then lagrangeLoop id xJ rest (num, denum, true)
    else do
      let xM ← partyID.scalar
      let num := num * xM
      let xM := xM - xJ
      let denum := denum * xM
      lagrangeLoop id xJ rest (num, denum, found)

/-- `(id ID) Lagrange(partyIDs)` (pkg/frost/party/id.go:113-154). -/
def lagrange (id : ID) (partyIDs : List ID) : GoRes Scalar := do
  Outcome.failIf (id = 0) .idZero
  let xJ ← id.scalar
  let (num, denum, found) ← lagrangeLoop id xJ partyIDs (1, 1, false)
  Outcome.failIf (found = false) .idNotInSet
  Outcome.failIf (denum = 0) .denominatorZero
  return num * denum⁻¹

end ID

/-- `type IDSlice []ID` (pkg/frost/party/idslice.go:7-8). -/
abbrev IDSlice := List ID

namespace IDSlice

/-- `Copy` (pkg/frost/party/idslice.go:55-61): a fresh slice with the same contents. -/
def copy (ids : IDSlice) : IDSlice := ids

/-- `NewIDSlice` (pkg/frost/party/idslice.go:10-15).  `sort.Slice` is the library's sorting routine; on integers every
correct sort gives the same list, here insertion sort. -/
def new (partyIDs : List ID) : IDSlice := (copy partyIDs).insertionSort (· ≤ ·)

/-- `sort.Search(n, f)` of the standard library, the binary search over `[i, j)`. -/
def search (f : Nat → Bool) (i j : Nat) : Nat :=
  if _h : i < j then
    let h := (i + j) / 2
    if !f h then search f (h + 1) j else search f i h
  else i
termination_by j - i
decreasing_by all_goals omega

/-- `Contains` (pkg/frost/party/idslice.go:17-25).  The closure's `ids[i]` is in range whenever `sort.Search` calls it
(`search` only probes indices below `n`), so its bound check is not represented. -/
def contains (ids : IDSlice) (id : ID) : Bool :=
  let n := ids.length
  let i := search (fun i => decide (id ≤ ids.getD i 0)) 0 n
  decide (i < n) && (ids.getD i 0 == id)

/-- `N()` (pkg/frost/party/idslice.go:27-30): the length converted to `uint16`. -/
def N (ids : IDSlice) : UInt16 := UInt16.ofNat ids.length

/-- `IsSubsetOf` (pkg/frost/party/idslice.go:32-40). -/
def isSubsetOf : IDSlice → IDSlice → Bool
  | [], _ => true
  | id :: rest, o => if !contains o id then false else isSubsetOf rest o

/-- The loop of `Equal` (pkg/frost/party/idslice.go:47-51); `o[idx]` panics when out of range. -/
def equalLoop : IDSlice → IDSlice → Nat → GoRes Bool
  | [], _, _ => .ok true
  | id :: rest, o, idx => do
    let x ← Outcome.deref o[idx]?
    if x ≠ id then return false else equalLoop rest o (idx + 1)

/-- `Equal` (pkg/frost/party/idslice.go:42-53). -/
def equal (ids o : IDSlice) : GoRes Bool :=
  if ids.length ≠ o.length then return false else equalLoop ids o 0

end IDSlice

/-- The loop of `helpers.NewPartySlice` (pkg/helpers/parties.go:14-16), `i` counting in `uint16`; `fuel` bounds the number of
loop tests and the result is `none` if the loop has not ended by then. -/
def newPartySliceLoop (n : UInt16) : Nat → UInt16 → List ID → Option (List ID)
  | 0, _, _ => none
  | fuel + 1, i, acc => if i ≤ n then newPartySliceLoop n fuel (i + 1) (acc ++ [i]) else some acc

/-- `helpers.NewPartySlice` (pkg/helpers/parties.go:11-18). -/
def newPartySlice (n : UInt16) (fuel : Nat) : Option IDSlice := newPartySliceLoop n fuel 1 []

/-- `helpers.GenerateSet` (pkg/helpers/parties.go:20-22). -/
def generateSet (n : UInt16) (fuel : Nat) : Option IDSlice := (newPartySlice n fuel).map IDSlice.new

end Verif
