import Verif.Model.Json
import Verif.Model.Base64
import Verif.Model.Cmd

/-!
The JSON that the code of /repo writes and reads, as bytes: `SecretShare` (pkg/eddsa/secret_share.go:59-84), `Public`
(pkg/eddsa/public.go:65-100), `PublicKey` (pkg/eddsa/public_key.go:43-51), `Element` (pkg/ristretto/ristretto.go:422-438), `party.ID` as the
key of a map (pkg/frost/party/id.go:76-93) and the file of cmd/keygen and cmd/signer (cmd/keygen/keygen.go:121-140,
cmd/signer/signer.go:36-54).

`json.Unmarshal` (standard library, decode.go) is followed for these types.  An error of an `UnmarshalJSON` or `UnmarshalText` method ends
it at once.  A value of the wrong type is noted (`saveError`), decoding goes on, and the error is returned at the end; the flag beside
a result says whether one was noted.  Decoding goes on for the sake of panics only: what it stores is not used when there is an error.

The methods get the bytes of their value and parse them again; here they get the value.
-/

namespace Verif.Json

variable {G : Type} [RGroup G]

/-- Upper case ASCII letters in lower case (`foldRune` of fold.go, restricted to ASCII). -/
def foldByte (c : UInt8) : UInt8 := if 65 ≤ c.toNat ∧ c.toNat ≤ 90 then c + 32 else c

/-- `foldName` of fold.go: the names of fields are compared without regard to case.  Two characters outside ASCII fold to a letter:
the Kelvin sign (U+212A) to `k` and the long s (U+017F) to `s`.  Simplified: other characters outside ASCII are left alone, which makes no difference
when comparing with a name in ASCII. -/
def foldKey : Bytes → Bytes
  | [] => []
  | [c] => [foldByte c]
  | [c, d] => if c = 0xC5 ∧ d = 0xBF then [115] else foldByte c :: foldKey [d]
  | c :: d :: e :: r =>
    if c = 0xE2 ∧ d = 0x84 ∧ e = 0xAA then 107 :: foldKey r
    else if c = 0xC5 ∧ d = 0xBF then 115 :: foldKey (e :: r)
    else foldByte c :: foldKey (d :: e :: r)

/-- Whether a member of an object goes into the field of the given name (decode.go, `object`).  A field with exactly the name of the key
is preferred to one equal up to case; here no two fields of a struct are equal up to case. -/
def isField (name key : Bytes) : Bool := foldKey key = foldKey name

/-- The names of the fields: `id` and `secret` (pkg/eddsa/secret_share.go:60-61). -/
def nameID : Bytes := [105, 100]
def nameSecret : Bytes := [115, 101, 99, 114, 101, 116]

/-- `t`, `groupkey` and `shares` (pkg/eddsa/public.go:66-68). -/
def nameT : Bytes := [116]
def nameGroupKey : Bytes := [103, 114, 111, 117, 112, 107, 101, 121]
def nameSharesMap : Bytes := [115, 104, 97, 114, 101, 115]

/-- `Secrets` and `Shares` (cmd/keygen/keygen.go:122-123, cmd/signer/signer.go:37-38). -/
def nameSecrets : Bytes := [83, 101, 99, 114, 101, 116, 115]
def nameShares : Bytes := [83, 104, 97, 114, 101, 115]

/-- A value for an `int` holding `old` (decode.go, `literalStore`): `strconv.ParseInt(s, 10, 64)` of the text of a number; null changes
nothing.  `Cmd.atoi` has the contract of `ParseInt` with 64 bits. -/
def decodeInt (old : Int) : Value → Int × Bool
  | .num lit =>
    match Cmd.atoi lit with
    | some n => (n, false)
    | none => (old, true)
  | .null => (old, false)
  | _ => (old, true)

/-- A value for a byte (decode.go, `literalStore`): `strconv.ParseUint(s, 10, 64)` and `OverflowUint`. -/
def decodeByte : Value → UInt8 × Bool
  | .num lit =>
    match if lit.isEmpty then none else Cmd.digits lit 0 with
    | some n => if n ≤ 255 then (UInt8.ofNat n, false) else (0, true)
    | none => (0, true)
  | .null => (0, false)
  | _ => (0, true)

/-- A value for a `[]byte` holding `old` (decode.go, `literalStore` and `array`): base64 in a string, or an array of numbers; null gives
nil.  Simplified: a null in an array gives 0 also where the array overwrites a longer slice of an earlier member of the same name. -/
def decodeBytes (old : Bytes) : Value → Bytes × Bool
  | .null => ([], false)
  | .str s =>
    match Base64.decode s with
    | some b => (b, false)
    | none => (old, true)
  | .arr l => (l.map fun v => (decodeByte v).1, l.any fun v => (decodeByte v).2)
  | _ => (old, true)

/-- The members of an object for `jsonSecretShare` (pkg/eddsa/secret_share.go:59-62): other names are skipped, later members
overwrite earlier ones. -/
def secretMembers : List (Bytes × Value) → SecretShare.Json → Bool → SecretShare.Json × Bool
  | [], out, bad => (out, bad)
  | (k, v) :: l, out, bad =>
    if isField nameID k then
      let (id, b) := decodeInt out.id v
      secretMembers l ⟨id, out.secret⟩ (bad || b)
    else if isField nameSecret k then
      let (secret, b) := decodeBytes out.secret v
      secretMembers l ⟨out.id, secret⟩ (bad || b)
    else secretMembers l out bad

/-- `UnmarshalJSON` of `SecretShare` (pkg/eddsa/secret_share.go:72-84): `var out jsonSecretShare; json.Unmarshal(data, &out)`, and then
what `SecretShare.unmarshalJSON` says.  Null leaves `out` as it is. -/
def secretShare (v : Value) : GoRes (SecretShare G) :=
  match v with
  | .obj l =>
    match secretMembers l ⟨0, []⟩ false with
    | (_, true) => .err .json
    | (out, false) => SecretShare.unmarshalJSON out
  | .null => SecretShare.unmarshalJSON ⟨0, []⟩
  | _ => .err .json

/-- `UnmarshalText` of `Element` (pkg/ristretto/ristretto.go:428-438). -/
def elementText (s : Bytes) : GoRes G := do
  let eb ← Outcome.orErr (Base64.decode s) .base64
  Outcome.orErr (RGroup.setCanonicalBytes eb) .nonCanonical

/-- A value for a `*Element` in a map: null gives nil, a string goes to `UnmarshalText`. -/
def elementPtr : Value → GoRes (Option G × Bool)
  | .null => .ok (none, false)
  | .str s => do
    let g ← elementText s
    return (some g, false)
  | _ => .ok (none, true)

/-- A value for a `map[party.ID]*Element` (decode.go, `object`): each value is read, then its key by `ID.UnmarshalText`; a later member
with the same key overwrites an earlier one. -/
def sharesMembers : List (Bytes × Value) → GoMap (Option G) → Bool → GoRes (GoMap (Option G) × Bool)
  | [], m, bad => .ok (m, bad)
  | (k, v) :: l, m, bad => do
    let (e, b) ← elementPtr v
    let id ← ID.unmarshalText k
    sharesMembers l (m.set id e) (bad || b)

/-- A value for a `*PublicKey` (pkg/eddsa/public_key.go:48-51): null gives nil, everything else goes to `UnmarshalJSON`, that is to a
`json.Unmarshal` of its own. -/
def publicKeyPtr : Value → GoRes (Option G)
  | .null => .ok none
  | .str s => do
    let g ← elementText s
    return some g
  | _ => .err .json

/-- The members of an object for `sharesJSON` (pkg/eddsa/public.go:65-69).  A map already there is added to. -/
def publicMembers : List (Bytes × Value) → Public.Json G → Bool → GoRes (Public.Json G × Bool)
  | [], out, bad => .ok (out, bad)
  | (k, v) :: l, out, bad =>
    if isField nameT k then
      let (t, b) := decodeInt out.threshold v
      publicMembers l ⟨t, out.groupKey, out.shares⟩ (bad || b)
    else if isField nameGroupKey k then do
      let key ← publicKeyPtr v
      publicMembers l ⟨out.threshold, key, out.shares⟩ bad
    else if isField nameSharesMap k then
      match v with
      | .null => publicMembers l ⟨out.threshold, out.groupKey, []⟩ bad
      | .obj s => do
        let (m, b) ← sharesMembers s out.shares false
        publicMembers l ⟨out.threshold, out.groupKey, m⟩ (bad || b)
      | _ => publicMembers l out true
    else publicMembers l out bad

/-- `UnmarshalJSON` of `Public` (pkg/eddsa/public.go:80-100); `ord` is the order of iteration in `NewPublic`. -/
def publicJson (ord : MapOrder) (v : Value) : GoRes (Public G) :=
  match v with
  | .obj l => do
    let (out, bad) ← publicMembers l ⟨0, none, []⟩ false
    if bad then .err .json else Public.unmarshalJSON ord out
  | .null => Public.unmarshalJSON ord ⟨0, none, []⟩
  | _ => .err .json

/-- A value for a `*SecretShare`: null gives nil, everything else goes to `UnmarshalJSON`. -/
def secretPtr : Value → GoRes (Option (SecretShare G))
  | .null => .ok none
  | v => do
    let s ← secretShare v
    return some s

/-- A value for a `map[party.ID]*SecretShare`. -/
def secretsMembers : List (Bytes × Value) → GoMap (Option (SecretShare G)) → GoRes (GoMap (Option (SecretShare G)))
  | [], m => .ok m
  | (k, v) :: l, m => do
    let s ← secretPtr v
    let id ← ID.unmarshalText k
    secretsMembers l (m.set id s)

/-- `type KeyGenOutput struct` (cmd/signer/signer.go:36-39) as it is filled. -/
structure Keys (G : Type) where
  secrets : GoMap (Option (SecretShare G))
  shares : Option (Public G)

/-- A value for a `*Public`: null gives nil, everything else goes to `UnmarshalJSON`. -/
def publicPtr (ord : MapOrder) : Value → GoRes (Option (Public G))
  | .null => .ok none
  | v => do
    let p ← publicJson ord v
    return some p

/-- The members of an object for `KeyGenOutput`. -/
def fileMembers (ord : MapOrder) : List (Bytes × Value) → Keys G → Bool → GoRes (Keys G × Bool)
  | [], out, bad => .ok (out, bad)
  | (k, v) :: l, out, bad =>
    if isField nameSecrets k then
      match v with
      | .null => fileMembers ord l ⟨[], out.shares⟩ bad
      | .obj s => do
        let m ← secretsMembers s out.secrets
        fileMembers ord l ⟨m, out.shares⟩ bad
      | _ => fileMembers ord l out true
    else if isField nameShares k then do
      let p ← publicPtr ord v
      fileMembers ord l ⟨out.secrets, p⟩ bad
    else fileMembers ord l out bad

/-- `json.Unmarshal(jsonData, &kgOutput)` (cmd/signer/signer.go:50) of a value. -/
def fileJson (ord : MapOrder) (v : Value) : GoRes (Keys G) :=
  match v with
  | .obj l => do
    let (out, bad) ← fileMembers ord l ⟨[], none⟩ false
    if bad then .err .json else return out
  | .null => .ok ⟨[], none⟩
  | _ => .err .json

/-- `UnmarshalJSON` of `SecretShare` (pkg/eddsa/secret_share.go:72-84) of bytes. -/
def readSecretShare (data : Bytes) : GoRes (SecretShare G) :=
  match parse data with
  | none => .err .json
  | some v => secretShare v

/-- `UnmarshalJSON` of `Public` (pkg/eddsa/public.go:80-100) of bytes. -/
def readPublic (ord : MapOrder) (data : Bytes) : GoRes (Public G) :=
  match parse data with
  | none => .err .json
  | some v => publicJson ord v

/-- `json.Unmarshal(jsonData, &kgOutput)` (cmd/signer/signer.go:50). -/
def readFile (ord : MapOrder) (data : Bytes) : GoRes (Keys G) :=
  match parse data with
  | none => .err .json
  | some v => fileJson ord v

/-- `main` of `cmd/signer` from line 50 on (cmd/signer/signer.go:50-128) for the bytes of the file; a file without `Shares` leaves a nil
pointer, which line 60 dereferences. -/
def signerText (sha : Sha512) (env : Cmd.Env) (ord : MapOrder) (data message : Bytes) : Cmd.End (Signature G) := do
  let keys ← Cmd.End.ofRes (readFile ord data)
  let pub ← Cmd.End.deref keys.shares
  Cmd.signerMain sha env keys.secrets pub message

/-- `main` of `cmd/signer` (cmd/signer/signer.go:24-129) with the arguments after the program name; `read` gives the bytes of a file,
`none` if it cannot be read. -/
def signer (sha : Sha512) (env : Cmd.Env) (ord : MapOrder) (read : Bytes → Option Bytes) (args : List Bytes) : Cmd.End (Signature G) :=
  match args with
  | [filename, message] =>
    match read filename with
    | none => .failed .error
    | some data => signerText sha env ord data message
  | _ => .usage

/-- `strconv.AppendInt(b, i, 10)`, by which `json.Marshal` writes an `int`. -/
def formatInt (i : Int) : Bytes := if i < 0 then 45 :: ID.formatUint i.natAbs else ID.formatUint i.natAbs

/-- Strings are compared byte by byte. -/
def lessEq : Bytes → Bytes → Bool
  | [], _ => true
  | _ :: _, [] => false
  | c :: s, d :: t => if c = d then lessEq s t else c < d

/-- `json.Marshal` writes the members of a map in the order of their keys as strings (encode.go, `mapEncoder`). -/
def mapMembers {α : Type} (f : α → Value) (m : GoMap α) : List (Bytes × Value) :=
  (m.map fun (id, a) => (ID.marshalText id, f a)).mergeSort fun x y => lessEq x.1 y.1

/-- What `json.Marshal` makes of a `jsonSecretShare` (pkg/eddsa/secret_share.go:66-69); a `[]byte` is written in base64. -/
def ofSecretShare (j : SecretShare.Json) : Value :=
  .obj [(nameID, .num (formatInt j.id)), (nameSecret, .str (Base64.encode j.secret))]

/-- What `json.Marshal` makes of a `*Element`: null, or a string with the result of `MarshalText` (pkg/ristretto/ristretto.go:422-426). -/
def ofElement : Option G → Value
  | none => .null
  | some g => .str (Base64.encode (RGroup.bytes g))

/-- What `json.Marshal` makes of a `sharesJSON` (pkg/eddsa/public.go:73-77); a `*PublicKey` is written as its element
(pkg/eddsa/public_key.go:43-46).  Simplified: a nil map, which would be written as null, is not distinguished from an empty one. -/
def ofPublic (j : Public.Json G) : Value :=
  .obj [(nameT, .num (formatInt j.threshold)), (nameGroupKey, ofElement j.groupKey), (nameSharesMap, .obj (mapMembers ofElement j.shares))]

/-- What `json.MarshalIndent` makes of a `*SecretShare` in a map. -/
def ofSecretPtr : Option SecretShare.Json → Value
  | none => .null
  | some j => ofSecretShare j

/-- What `json.MarshalIndent` makes of a `*Public`. -/
def ofPublicPtr : Option (Public.Json G) → Value
  | none => .null
  | some j => ofPublic j

/-- What `json.MarshalIndent` makes of a `KeyGenOutput` (cmd/keygen/keygen.go:121-132). -/
def ofFile (f : Cmd.File G) : Value :=
  .obj [(nameSecrets, .obj (mapMembers ofSecretPtr f.secrets)), (nameShares, ofPublicPtr f.shares)]

/-- `MarshalJSON` of `SecretShare` (pkg/eddsa/secret_share.go:64-70). -/
def writeSecretShare (sk : SecretShare G) : Bytes := compact (ofSecretShare (SecretShare.marshalJSON sk))

/-- `MarshalJSON` of `Public` (pkg/eddsa/public.go:71-78). -/
def writePublic (s : Public G) : Bytes := compact (ofPublic (Public.marshalJSON s))

/-- `json.MarshalIndent(kgOutput, "", " ")` (cmd/keygen/keygen.go:132): the bytes of keygenout.json. -/
def writeFile (f : Cmd.File G) : Bytes := indent 1 0 (ofFile f)

/-- `main` of `cmd/keygen` (cmd/keygen/keygen.go:26-143) with the arguments after the program name: the bytes it writes to keygenout.json. -/
def keygenText (sha : Sha512) (env : Cmd.Env) (args : List Bytes) : Cmd.End Bytes := do
  let file ← Cmd.keygen (G := G) sha env args
  return writeFile file

end Verif.Json
