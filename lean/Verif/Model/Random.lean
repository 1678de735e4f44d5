import Verif.Model.Keygen
import Verif.Model.Sign

/-!
Where the random scalars come from: `crypto/rand`.  The rest of the model takes the scalars that are drawn as an argument (`Coins`); here the same
functions read them from a source of bytes that may fail or give less than it was asked for, and the calls of the source are counted.
-/

namespace Verif.Random

/-- `rand.Reader` of `crypto/rand`, an `io.Reader`: what its call number `k` returns when it is given a buffer of `n` bytes, the bytes written into the
buffer (at most `n` of what is given here) and whether there was an error. -/
abbrev Source := Nat → Nat → Bytes × Bool

/-- A computation that calls the source: from the number of the next call to what it returns and the number of the next call after it; `none` if it
does not return. -/
abbrev Rand (ε α : Type) := Nat → Option (Outcome ε α × Nat)

namespace Rand

variable {ε α β : Type}

/-- What does not call the source. -/
def lift (x : Outcome ε α) : Rand ε α := fun k => some (x, k)

/-- One after the other; an error or a panic ends it. -/
def bind (x : Rand ε α) (f : α → Rand ε β) : Rand ε β := fun k => match x k with
  | none => none
  | some (.ok a, k') => f a k'
  | some (.err e, k') => some (.err e, k')
  | some (.panic, k') => some (.panic, k')

instance : Monad (Rand ε) where
  pure a := lift (.ok a)
  bind := bind

end Rand

/-- `n, err := rand.Reader.Read(b)` for a buffer of length `n`: the bytes written. -/
def read (src : Source) (k n : Nat) : Bytes × Bool := ((src k n).1.take n, (src k n).2)

/-- `io.ReadFull(rand.Reader, b)`, which is `rand.Read(b)`, for a buffer of length `n` of which `got` is filled: calls `Read` until the buffer is full or
there is an error; the bytes if it is full (standard library, not in the repository). -/
def readFull (src : Source) (n : Nat) (got : Bytes) (k : Nat) : Option (Option Bytes × Nat) :=
  if n ≤ got.length then some (some got, k)
  else
    let r := read src k (n - got.length)
    if r.2 then some (if n ≤ (got ++ r.1).length then some (got ++ r.1) else none, k + 1)
    else readFull src n (got ++ r.1) (k + 1)
partial_fixpoint

variable {ε : Type}

/-- `SetScalarRandom(s)` and `NewScalarRandom()` (pkg/internal/scalar/scalar.go:11-27): one call of `rand.Reader.Read` with a buffer of 64 zeros; the number
of bytes read is not looked at.  `SetUniformBytes` does not fail, since the buffer has 64 bytes. -/
def setScalarRandom (src : Source) : Rand ε Scalar := fun k =>
  let r := read src k 64
  if r.2 then some (.panic, k + 1)
  else some (.ok (Scalar.setUniformBytes 0 (r.1 ++ List.replicate (64 - r.1.length) 0)).1, k + 1)

/-- One turn of the loop of `NewPolynomial` (pkg/internal/polynomial/polynomial.go:27-31). -/
def coefficient (src : Source) : Rand ε Scalar := fun k => match readFull src 64 [] k with
  | none => none
  | some (none, k') => some (.panic, k')
  | some (some b, k') => some (.ok (Scalar.setUniformBytes 0 b).1, k')

/-- The loop of `NewPolynomial` (pkg/internal/polynomial/polynomial.go:26-32): `n` coefficients. -/
def coefficients (src : Source) : Nat → Rand ε (List Scalar)
  | 0 => pure []
  | n + 1 => do
    let c ← coefficient src
    let rest ← coefficients src n
    return c :: rest

/-- `NewPolynomial(degree, constant)` (pkg/internal/polynomial/polynomial.go:17-35); for degree 65535 the slice is empty and `coefficients[0]` panics. -/
def newPolynomial (src : Source) (degree : UInt16) (constant : Scalar) : Rand ε Poly := do
  if degree = 65535 then Rand.lift .panic
  else
    let rest ← coefficients src degree.toNat
    return constant :: rest

variable {G : Type} [RGroup G]

/-- `round0.GenerateMessages()` of the key generation (pkg/frost/keygen/round0.go:15-40), with `NewSchnorrProof` (pkg/internal/zk/schnorr.go:38-53), which
draws its nonce first. -/
def keygen0 (sha : Sha512) (src : Source) (r : Keygen.Round G) : Rand (StateErr × Keygen.Round G) (Keygen.Round G × List (Message G)) := do
  let secret ← setScalarRandom src
  let poly ← newPolynomial src r.threshold secret
  let sum : Exponent G := Exponent.ofPoly poly
  let pub ← Rand.lift (Keygen.lift r (Exponent.constant sum))
  let k ← setScalarRandom src
  let proof ← Rand.lift (Keygen.lift r (Schnorr.new sha r.selfID pub Keygen.ctx secret k))
  let x ← Rand.lift (Keygen.lift r r.selfID.scalar)
  let share ← Rand.lift (Keygen.lift r (Poly.evaluate poly x))
  let r := { r with secret := share, polynomial := some poly, commitmentsSum := some sum }
  return (r, [Message.newKeyGen1 r.selfID proof sum])

/-- `round0.GenerateMessages()` of signing (pkg/frost/sign/round0.go:13-27). -/
def sign0 (src : Source) (r : Sign.Round G) : Rand (StateErr × Sign.Round G) (Sign.Round G × List (Message G)) := do
  let selfParty ← Rand.lift (Outcome.deref (r.parties.get? r.selfID))
  let d ← setScalarRandom src
  let D : G := d • base
  let e ← setScalarRandom src
  let E : G := e • base
  let r := { r with d := d, e := e, parties := r.parties.set r.selfID { selfParty with Di := some D, Ei := some E } }
  return (r, [Message.newSign1 r.selfID D E])

/-- `GenerateSecrets(set, threshold)` (pkg/helpers/keys.go:11-22). -/
def generateSecrets (src : Source) (set : IDSlice) (threshold : UInt16) : Rand GoErr (Scalar × GoMap (SecretShare G)) := do
  if threshold ≥ IDSlice.N set then Rand.lift .panic
  else
    let secret ← setScalarRandom src
    let poly ← newPolynomial src threshold secret
    let shares ← Rand.lift (generateSecretsLoop poly set [])
    return (secret, shares)

end Verif.Random
