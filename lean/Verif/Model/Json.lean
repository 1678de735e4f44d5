import Verif.Model.Bytes

/-!
The text layer of `encoding/json` of the Go standard library, used at pkg/eddsa/secret_share.go:66 and 75, pkg/eddsa/public.go:73 and
84, pkg/eddsa/public_key.go:45 and 50, cmd/keygen/keygen.go:132 and cmd/signer/signer.go:50.  The library is not in /repo; what is
here follows its documentation and source: `json.Unmarshal` first checks the whole text (`checkValid`), so that text which is not JSON
is refused before anything is stored, and then walks through it.  Here the text is read into a tree once and the tree is walked.
-/

namespace Verif.Json

/-- A JSON value.  Numbers keep their text, as in `literalStore`; strings are unquoted; the members of an object are in the order of the
text, with repetitions. -/
inductive Value
  | null
  | bool (b : Bool)
  | num (lit : Bytes)
  | str (s : Bytes)
  | arr (l : List Value)
  | obj (l : List (Bytes × Value))

/-- `isSpace` of scan.go: space, tab, carriage return, newline. -/
def isSpace (c : UInt8) : Bool := c = 32 ∨ c = 9 ∨ c = 13 ∨ c = 10

/-- White space is skipped (scan.go, `scanSkipSpace`). -/
def skipWs (b : Bytes) : Bytes := b.dropWhile isSpace

/-- `'0' <= c && c <= '9'`. -/
def isDigit (c : UInt8) : Bool := 48 ≤ c.toNat ∧ c.toNat ≤ 57

/-- `'0' <= c && c <= '9' || 'a' <= c && c <= 'f' || 'A' <= c && c <= 'F'` (scan.go, `stateInStringEscU`). -/
def isHex (c : UInt8) : Bool := isDigit c ∨ (97 ≤ c.toNat ∧ c.toNat ≤ 102) ∨ (65 ≤ c.toNat ∧ c.toNat ≤ 70)

/-- The characters after a backslash that `stateInStringEsc` of scan.go accepts besides `u`: `b f n r t \ / "`. -/
def isEsc (c : UInt8) : Bool := c = 98 ∨ c = 102 ∨ c = 110 ∨ c = 114 ∨ c = 116 ∨ c = 92 ∨ c = 47 ∨ c = 34

/-- `stateInString` of scan.go and the states it leads to: what is between the quotes, and the rest after the closing quote. -/
def scanString : Bytes → Option (Bytes × Bytes)
  | [] => none
  | c :: r =>
    if c = 34 then some ([], r)
    else if c = 92 then
      match r with
      | e :: r =>
        if isEsc e then (scanString r).map fun (s, rest) => (92 :: e :: s, rest)
        else if e = 117 then
          match r with
          | h1 :: h2 :: h3 :: h4 :: r =>
            if isHex h1 ∧ isHex h2 ∧ isHex h3 ∧ isHex h4 then
              (scanString r).map fun (s, rest) => (92 :: 117 :: h1 :: h2 :: h3 :: h4 :: s, rest)
            else none
          | _ => none
        else none
      | [] => none
    else if c.toNat < 32 then none
    else (scanString r).map fun (s, rest) => (c :: s, rest)

/-- The value of a hexadecimal digit (decode.go, `getu4`). -/
def hexVal (c : UInt8) : Nat := if c.toNat ≤ 57 then c.toNat - 48 else if c.toNat ≤ 70 then c.toNat - 55 else c.toNat - 87

/-- `getu4` of decode.go. -/
def hex4 (a b c d : UInt8) : Nat := ((hexVal a * 16 + hexVal b) * 16 + hexVal c) * 16 + hexVal d

/-- `utf8.EncodeRune`. -/
def encodeRune (r : Nat) : Bytes :=
  if r < 128 then [UInt8.ofNat r]
  else if r < 2048 then [UInt8.ofNat (192 + r / 64), UInt8.ofNat (128 + r % 64)]
  else if r < 65536 then [UInt8.ofNat (224 + r / 4096), UInt8.ofNat (128 + r / 64 % 64), UInt8.ofNat (128 + r % 64)]
  else [UInt8.ofNat (240 + r / 262144), UInt8.ofNat (128 + r / 4096 % 64), UInt8.ofNat (128 + r / 64 % 64), UInt8.ofNat (128 + r % 64)]

/-- The UTF-8 encoding of `unicode.ReplacementChar`. -/
def replacement : Bytes := [239, 191, 189]

/-- `utf16.DecodeRune`: the character of a pair of surrogates. -/
def surrogates (r1 r2 : Nat) : Option Nat :=
  if 0xD800 ≤ r1 ∧ r1 < 0xDC00 ∧ 0xDC00 ≤ r2 ∧ r2 < 0xE000 then some ((r1 - 0xD800) * 1024 + (r2 - 0xDC00) + 0x10000) else none

/-- `lo <= c && c <= hi` for a byte. -/
def within (lo hi : Nat) (c : UInt8) : Bool := lo ≤ c.toNat ∧ c.toNat ≤ hi

/-- `utf8.DecodeRune` on text starting with a byte of at least 128: the number of bytes after the first of the character at its start,
`none` if there is no valid one. -/
def utf8Tail : Bytes → Option Nat
  | c0 :: c1 :: r =>
    if within 0xC2 0xDF c0 ∧ within 0x80 0xBF c1 then some 1
    else match r with
      | c2 :: r =>
        if ((c0 = 0xE0 ∧ within 0xA0 0xBF c1) ∨ (within 0xE1 0xEC c0 ∧ within 0x80 0xBF c1) ∨ (c0 = 0xED ∧ within 0x80 0x9F c1) ∨
            (within 0xEE 0xEF c0 ∧ within 0x80 0xBF c1)) ∧ within 0x80 0xBF c2 then some 2
        else match r with
          | c3 :: _ =>
            if ((c0 = 0xF0 ∧ within 0x90 0xBF c1) ∨ (within 0xF1 0xF3 c0 ∧ within 0x80 0xBF c1) ∨ (c0 = 0xF4 ∧ within 0x80 0x8F c1)) ∧
              within 0x80 0xBF c2 ∧ within 0x80 0xBF c3 then some 3
            else none
          | [] => none
      | [] => none
  | _ => none

/-- The character for a one-letter escape (decode.go, `unquoteBytes`). -/
def unescape (e : UInt8) : UInt8 :=
  if e = 98 then 8 else if e = 102 then 12 else if e = 110 then 10 else if e = 114 then 13 else if e = 116 then 9 else e

/-- `unquoteBytes` of decode.go on what is between the quotes; `k` bytes of a character already looked at are copied first.  Bytes that
are not UTF-8 and unpaired surrogates become the replacement character. -/
def unquoteFrom : Nat → Bytes → Bytes
  | _, [] => []
  | k + 1, c :: r => c :: unquoteFrom k r
  | 0, c :: r =>
    if c = 92 then
      match r with
      | e :: r =>
        if e = 117 then
          match r with
          | h1 :: h2 :: h3 :: h4 :: r =>
            let r1 := hex4 h1 h2 h3 h4
            if 0xD800 ≤ r1 ∧ r1 < 0xE000 then
              match r with
              | b :: u :: g1 :: g2 :: g3 :: g4 :: r' =>
                if b = 92 ∧ u = 117 then
                  match surrogates r1 (hex4 g1 g2 g3 g4) with
                  | some x => encodeRune x ++ unquoteFrom 0 r'
                  | none => replacement ++ unquoteFrom 0 (b :: u :: g1 :: g2 :: g3 :: g4 :: r')
                else replacement ++ unquoteFrom 0 (b :: u :: g1 :: g2 :: g3 :: g4 :: r')
              | r => replacement ++ unquoteFrom 0 r
            else encodeRune r1 ++ unquoteFrom 0 r
          | _ => []
        else unescape e :: unquoteFrom 0 r
      | [] => []
    else if c.toNat < 128 then c :: unquoteFrom 0 r
    else match utf8Tail (c :: r) with
      | some k => c :: unquoteFrom k r
      | none => replacement ++ unquoteFrom 0 r

/-- `unquoteBytes` of decode.go. -/
def unquote (raw : Bytes) : Bytes := unquoteFrom 0 raw

/-- `stateE`, `stateESign` and `stateE0` of scan.go, after the `e`. -/
def scanExp (lit : Bytes) (b : Bytes) : Option (Bytes × Bytes) :=
  match b with
  | c :: r =>
    let (sign, r) := if c = 43 ∨ c = 45 then ([c], r) else ([], c :: r)
    let ds := r.takeWhile isDigit
    if ds = [] then none else some (lit ++ sign ++ ds, r.dropWhile isDigit)
  | [] => none

/-- `state0` of scan.go as far as it concerns the exponent. -/
def scanTail (lit : Bytes) (b : Bytes) : Option (Bytes × Bytes) :=
  match b with
  | c :: r => if c = 101 ∨ c = 69 then scanExp (lit ++ [c]) r else some (lit, c :: r)
  | [] => some (lit, [])

/-- `state0` and `stateDot` of scan.go: after the integer part. -/
def scanFrac (lit : Bytes) (b : Bytes) : Option (Bytes × Bytes) :=
  match b with
  | c :: r =>
    if c = 46 then
      let ds := r.takeWhile isDigit
      if ds = [] then none else scanTail (lit ++ 46 :: ds) (r.dropWhile isDigit)
    else scanTail lit (c :: r)
  | [] => scanTail lit []

/-- `stateBeginValue` (for numbers), `stateNeg`, `state1` of scan.go: the number at the start of the text and the rest. -/
def scanInt (sign : Bytes) (b : Bytes) : Option (Bytes × Bytes) :=
  match b with
  | c :: r =>
    if c = 48 then scanFrac (sign ++ [48]) r
    else if isDigit c then scanFrac (sign ++ (c :: r).takeWhile isDigit) ((c :: r).dropWhile isDigit)
    else none
  | [] => none

/-- A number with its sign. -/
def scanNumber (b : Bytes) : Option (Bytes × Bytes) :=
  match b with
  | c :: r => if c = 45 then scanInt [45] r else scanInt [] (c :: r)
  | [] => none

/-- The rest after a fixed word (`stateT`, `stateTr`, ... of scan.go). -/
def expect : Bytes → Bytes → Option Bytes
  | [], b => some b
  | c :: w, b => match b with
    | d :: r => if d = c then expect w r else none
    | [] => none

mutual

/-- `stateBeginValue` of scan.go: the value at the start of the text and the rest; the first argument bounds the nesting and the number
of elements, the length of the text is always enough. -/
def value : Nat → Bytes → Option (Value × Bytes)
  | 0, _ => none
  | n + 1, b =>
    match skipWs b with
    | [] => none
    | c :: r =>
      if c = 123 then
        match skipWs r with
        | d :: r' => if d = 125 then some (.obj [], r') else (members n r).map fun (l, rest) => (.obj l, rest)
        | [] => none
      else if c = 91 then
        match skipWs r with
        | d :: r' => if d = 93 then some (.arr [], r') else (elements n r).map fun (l, rest) => (.arr l, rest)
        | [] => none
      else if c = 34 then (scanString r).map fun (raw, rest) => (.str (unquote raw), rest)
      else if c = 116 then (expect [114, 117, 101] r).map fun rest => (.bool true, rest)
      else if c = 102 then (expect [97, 108, 115, 101] r).map fun rest => (.bool false, rest)
      else if c = 110 then (expect [117, 108, 108] r).map fun rest => (.null, rest)
      else (scanNumber (c :: r)).map fun (lit, rest) => (.num lit, rest)

/-- `stateBeginValue` and `stateEndValue` of scan.go inside an array with at least one element. -/
def elements : Nat → Bytes → Option (List Value × Bytes)
  | 0, _ => none
  | n + 1, b =>
    match value n b with
    | none => none
    | some (v, r) =>
      match skipWs r with
      | [] => none
      | c :: r =>
        if c = 44 then (elements n r).map fun (l, rest) => (v :: l, rest)
        else if c = 93 then some ([v], r)
        else none

/-- `stateBeginString`, `stateEndValue` and `stateBeginValue` of scan.go inside an object with at least one member. -/
def members : Nat → Bytes → Option (List (Bytes × Value) × Bytes)
  | 0, _ => none
  | n + 1, b =>
    match skipWs b with
    | [] => none
    | q :: r =>
      if q ≠ 34 then none
      else match scanString r with
        | none => none
        | some (raw, r) =>
          match skipWs r with
          | [] => none
          | c :: r =>
            if c ≠ 58 then none
            else match value n r with
              | none => none
              | some (v, r) =>
                match skipWs r with
                | [] => none
                | c :: r =>
                  if c = 44 then (members n r).map fun (l, rest) => ((unquote raw, v) :: l, rest)
                  else if c = 125 then some ([(unquote raw, v)], r)
                  else none

end

mutual

/-- How many arrays and objects are around the innermost value: the largest length of `parseState` in scan.go. -/
def depth : Value → Nat
  | .arr l => depthElems l + 1
  | .obj l => depthMembers l + 1
  | .null => 0
  | .bool _ => 0
  | .num _ => 0
  | .str _ => 0

def depthElems : List Value → Nat
  | [] => 0
  | v :: l => max (depth v) (depthElems l)

def depthMembers : List (Bytes × Value) → Nat
  | [] => 0
  | (_, v) :: l => max (depth v) (depthMembers l)

end

/-- `maxNestingDepth` of scan.go, there since Go 1.15. -/
def maxNestingDepth : Nat := 10000

/-- `checkValid` of scan.go: the whole text is one value, with white space around it, and not nested too deep (`pushParseState`). -/
def parse (b : Bytes) : Option Value :=
  match value (b.length + 1) b with
  | some (v, r) => if skipWs r = [] ∧ depth v ≤ maxNestingDepth then some v else none
  | none => none

/-- A string as `json.Marshal` writes it.  Simplified: no character of `s` needs an escape; the strings that the code of /repo marshals
are decimal numbers, base64 and the names of fields. -/
def quote (s : Bytes) : Bytes := 34 :: s ++ [34]

mutual

/-- The text that `json.Marshal` writes for a value. -/
def compact : Value → Bytes
  | .null => [110, 117, 108, 108]
  | .bool true => [116, 114, 117, 101]
  | .bool false => [102, 97, 108, 115, 101]
  | .num lit => lit
  | .str s => quote s
  | .arr l => 91 :: compactElems l ++ [93]
  | .obj l => 123 :: compactMembers l ++ [125]

/-- The elements of an array, separated by commas. -/
def compactElems : List Value → Bytes
  | [] => []
  | [v] => compact v
  | v :: l => compact v ++ 44 :: compactElems l

/-- The members of an object, separated by commas. -/
def compactMembers : List (Bytes × Value) → Bytes
  | [] => []
  | [(k, v)] => quote k ++ 58 :: compact v
  | (k, v) :: l => quote k ++ 58 :: compact v ++ 44 :: compactMembers l

end

/-- `newline(dst, prefix, indent, depth)` of indent.go with an empty prefix and `w` spaces (one in cmd/keygen/keygen.go:132, four in
pkg/eddsa/public_test.go:62). -/
def newline (w depth : Nat) : Bytes := 10 :: List.replicate (w * depth) 32

mutual

/-- The text that `json.MarshalIndent(v, "", indent)`, with `w` spaces for `indent`, writes for a value at the given depth (indent.go, `Indent`). -/
def indent (w depth : Nat) : Value → Bytes
  | .arr [] => [91, 93]
  | .arr l => 91 :: indentElems w (depth + 1) l ++ newline w depth ++ [93]
  | .obj [] => [123, 125]
  | .obj l => 123 :: indentMembers w (depth + 1) l ++ newline w depth ++ [125]
  | v => compact v

/-- The elements of an array, each on its own line. -/
def indentElems (w depth : Nat) : List Value → Bytes
  | [] => []
  | [v] => newline w depth ++ indent w depth v
  | v :: l => newline w depth ++ indent w depth v ++ 44 :: indentElems w depth l

/-- The members of an object, each on its own line. -/
def indentMembers (w depth : Nat) : List (Bytes × Value) → Bytes
  | [] => []
  | [(k, v)] => newline w depth ++ quote k ++ 58 :: 32 :: indent w depth v
  | (k, v) :: l => newline w depth ++ quote k ++ 58 :: 32 :: indent w depth v ++ 44 :: indentMembers w depth l

end

end Verif.Json
