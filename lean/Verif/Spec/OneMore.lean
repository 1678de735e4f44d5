import Verif.Spec.Life
import Verif.Spec.View
import Verif.Spec.Random

/-!
Somebody who takes part in any number of signing sessions of honest signers and then wants to forge a signature; and somebody else who uses this to find
more discrete logarithms than are told.

None of this is code of the repository: it is the specification of what a forgery is, and of the problem it is reduced to.
-/

namespace Verif.Spec

variable {G : Type} [RGroup G] {K : Nat}

/-- An algorithm that may ask for discrete logarithms, and whose result is in `α`. -/
inductive Logs (G α : Type) where
  | done (a : α)
  | log (g : G) (next : Scalar → Logs G α)

namespace Logs

variable {α β : Type}

/-- One algorithm after the other. -/
def bind : Logs G α → (α → Logs G β) → Logs G β
  | done a, f => f a
  | log g next, f => log g fun s => (next s).bind f

/-- The result when the answers are those of `dl`. -/
def value (dl : G → Scalar) : Logs G α → α
  | done a => a
  | log g next => (next (dl g)).value dl

/-- What is asked then. -/
def asked (dl : G → Scalar) : Logs G α → List G
  | done _ => []
  | log g next => g :: (next (dl g)).asked dl

end Logs

/-- What a signer is told in a session: the signers, the message, and the commitments of all. -/
structure Request (G : Type) where
  ids : List UInt16
  message : List UInt8
  D : UInt16 → G
  E : UInt16 → G

/-- An algorithm that asks for hash values and for signature shares, and then says a message and a signature.  What it does next depends on the answers it got so
far.  The honest signers have drawn `K` pairs of nonces, one for each session. -/
inductive Attacker (G : Type) (K : Nat) where
  | say (message : List UInt8) (signature : Signature G)
  | hash (s : List UInt8) (next : List UInt8 → Attacker G K)
  | sign (k : Fin K) (r : Request G) (next : Option Scalar → Attacker G K)

/-- What is public: the group key, and for each session the honest signer and its commitments.  The secret share of signer `i` is `slope i` times the secret
of the key plus `offset i`: this is so for somebody who knows `t` shares. -/
structure Board (G : Type) (K : Nat) where
  key : G
  who : Fin K → UInt16
  D : Fin K → G
  E : Fin K → G
  slope : UInt16 → Scalar
  offset : UInt16 → Scalar

/-- The secrets that belong to it. -/
structure Secrets (K : Nat) where
  x : Scalar
  d : Fin K → Scalar
  e : Fin K → Scalar

/-- What is public if the secrets are `s`. -/
def Secrets.board (s : Secrets K) (who : Fin K → UInt16) (slope offset : UInt16 → Scalar) : Board G K where
  key := s.x • RGroup.base
  who := who
  D k := s.d k • RGroup.base
  E k := s.e k • RGroup.base
  slope := slope
  offset := offset

/-- The strings that a signer hashes for its share: the message, one string for each binding factor, and the string of the challenge. -/
def Request.hashed (sha : Sha512) (A : G) (r : Request G) : List (List UInt8) :=
  r.message :: ((r.ids.map fun i => bindingInput sha i r.message (commitmentList r.ids r.D r.E)) ++
    [challengeInput (groupNonce sha r.ids r.message r.D r.E) A r.message])

/-- The signer of session `k` answers once, and only if it is one of the signers and its own commitments are in the list. -/
def Board.Admits (b : Board G K) (used : List (Fin K × Request G)) (k : Fin K) (r : Request G) : Prop :=
  k ∉ used.map Prod.fst ∧ b.who k ∈ r.ids ∧ r.D (b.who k) = b.D k ∧ r.E (b.who k) = b.E k

instance (b : Board G K) (used : List (Fin K × Request G)) (k : Fin K) (r : Request G) : Decidable (b.Admits used k r) := by
  unfold Board.Admits
  infer_instance

/-- The share of the signer of session `k`, by the FROST paper. -/
def Secrets.share (s : Secrets K) (b : Board G K) (sha : Sha512) (k : Fin K) (r : Request G) : Scalar :=
  respond sha r.ids r.message b.key r.D r.E (b.who k) (s.d k) (s.e k) (weight (b.who k) r.ids * (b.slope (b.who k) * s.x + b.offset (b.who k)))

/-- How it ended: what was said, which requests the signers have answered, which strings were hashed. -/
structure Ending (G : Type) (K : Nat) where
  message : List UInt8
  signature : Signature G
  signed : List (Fin K × Request G)
  hashed : List (List UInt8)

namespace Attacker

/-- The honest signers answer with `share`.  Whoever verifies the signature hashes one more string. -/
def play (b : Board G K) (sha : Sha512) (share : Fin K → Request G → Scalar) : Attacker G K → List (Fin K × Request G) → Ending G K
  | say m σ, used => ⟨m, σ, used, [challengeInput σ.R b.key m]⟩
  | hash s next, used =>
    let z := (next (sha.sum s)).play b sha share used
    { z with hashed := s :: z.hashed }
  | sign k r next, used =>
    if b.Admits used k r then
      let z := (next (some (share k r))).play b sha share (used ++ [(k, r)])
      { z with hashed := r.hashed sha b.key ++ z.hashed }
    else (next none).play b sha share used

end Attacker

/-- The signature verifies, and no honest signer has signed its message. -/
def Ending.Forged (z : Ending G K) (sha : Sha512) (A : G) : Prop :=
  z.signature.S • (RGroup.base : G) = z.signature.R + Props.Spec.challenge sha z.signature.R A z.message • A ∧ ∀ p ∈ z.signed, p.2.message ≠ z.message

/-- An equation `z = d + ρ e + w s` for the nonces of session `k`; `s` is the share of its signer. -/
structure Equation (K : Nat) where
  k : Fin K
  ρ : Scalar
  w : Scalar
  z : Scalar

/-- The public share of a signer. -/
def Board.share (b : Board G K) (i : UInt16) : G := b.slope i • b.key + b.offset i • (RGroup.base : G)

namespace Attacker

/-- Without the secrets: the share is the logarithm of `D + [ρ]E + [w]Y`.  It is asked for unless the same equation is among those known already.  The
result are also the equations that are new. -/
def follow (b : Board G K) (sha : Sha512) (known : List (Equation K)) :
    Attacker G K → List (Fin K × Request G) → Logs G (Ending G K × List (Equation K))
  | say m σ, used => .done (⟨m, σ, used, [challengeInput σ.R b.key m]⟩, [])
  | hash s next, used =>
    ((next (sha.sum s)).follow b sha known used).bind fun p => .done ({ p.1 with hashed := s :: p.1.hashed }, p.2)
  | sign k r next, used =>
    if b.Admits used k r then
      let ρ := rho sha r.ids r.message r.D r.E (b.who k)
      let w := weight (b.who k) r.ids * chal sha r.ids r.message b.key r.D r.E
      match known.find? fun q => decide (q.k = k ∧ q.ρ = ρ ∧ q.w = w) with
      | some q => ((next (some q.z)).follow b sha known (used ++ [(k, r)])).bind fun p =>
          .done ({ p.1 with hashed := r.hashed sha b.key ++ p.1.hashed }, p.2)
      | none => .log (b.D k + ρ • b.E k + w • b.share (b.who k)) fun z =>
          ((next (some z)).follow b sha known (used ++ [(k, r)])).bind fun p =>
            .done ({ p.1 with hashed := r.hashed sha b.key ++ p.1.hashed }, ⟨k, ρ, w, z⟩ :: p.2)
    else (next none).follow b sha known used

end Attacker

/-- The nonces of session `k` from at most two equations and as many logarithms as are missing.  `s` is the share of its signer. -/
def nonces (b : Board G K) (k : Fin K) (s : Scalar) : Option (Equation K) → Option (Equation K) → Logs G (Scalar × Scalar)
  | none, none => .log (b.D k) fun d => .log (b.E k) fun e => .done (d, e)
  | some q, none => .log (b.E k) fun e => .done (q.z - q.ρ * e - q.w * s, e)
  | none, some q => .log (b.E k) fun e => .done (q.z - q.ρ * e - q.w * s, e)
  | some q, some q' =>
    let e := ((q.z - q.w * s) - (q'.z - q'.w * s)) / (q.ρ - q'.ρ)
    .done (q.z - q.ρ * e - q.w * s, e)

/-- The nonces of all the sessions in the list. -/
def allNonces (b : Board G K) (x : Scalar) (eqs eqs' : List (Equation K)) : List (Fin K) → Logs G (List (Scalar × Scalar))
  | [] => .done []
  | k :: l => (nonces b k (b.slope (b.who k) * x + b.offset (b.who k)) (eqs.find? fun q => decide (q.k = k)) (eqs'.find? fun q => decide (q.k = k))).bind fun p =>
      (allNonces b x eqs eqs' l).bind fun ps => .done (p :: ps)

/-- The attacker is run twice; in the second run the string that the verifier hashed in the first has the value `a`.  The two signatures give the secret of the
key, and then the equations give the nonces. -/
def solve (b : Board G K) (F : Attacker G K) (sha : Sha512) (a : Block) : Logs G (Scalar × List (Scalar × Scalar)) :=
  (F.follow b sha [] []).bind fun p =>
    let sha' := program sha (challengeInput p.1.signature.R b.key p.1.message) a.1 a.2
    (F.follow b sha' p.2 []).bind fun p' =>
      let c := Props.Spec.challenge sha p.1.signature.R b.key p.1.message
      let c' := Props.Spec.challenge sha' p'.1.signature.R b.key p'.1.message
      let x := (p.1.signature.S - p'.1.signature.S) / (c - c')
      (allNonces b x p.2 p'.2 (List.finRange K)).bind fun ps => .done (x, ps)

/-- The share of signer `i` is `weightOfKey T i` times the secret of the key plus `fromShares T y i`, if those in `T` have the shares `y`: Lagrange
interpolation. -/
noncomputable def weightOfKey (T : List ID) (i : UInt16) : Scalar := (Lagrange.basis (nodes T) id 0).eval (ID.val i)

@[inherit_doc weightOfKey]
noncomputable def fromShares (T : List ID) (y : ID → Scalar) (i : UInt16) : Scalar := (T.map fun j => (Lagrange.basis (nodes T) id j.val).eval (ID.val i) * y j).sum

/-- The share of the honest signer of session `k`, whose secret share is the value of `f`; `A` is the group key. -/
def dealtShare (f : List Scalar) (A : G) (sha : Sha512) (who : Fin K → UInt16) (d e : Fin K → Scalar) (k : Fin K) (r : Request G) : Scalar :=
  respond sha r.ids r.message A r.D r.E (who k) (d k) (e k) (weight (who k) r.ids * evalAt f (ID.val (who k)))

/-- What `t` parties do who are told their shares, the commitments to the polynomial and the commitments of the honest signers; in `C` are the coins they
toss. -/
abbrev Coalition (G : Type) (K t : Nat) (C : Type) : Type := (Fin t → Scalar) → List G → (Fin K → G) → (Fin K → G) → C → Attacker G K

namespace Coalition

variable {t : Nat} {C : Type}

/-- A dealer has shared the secret of the key with the polynomial of coefficients `c`. -/
def play (F : Coalition G K t C) (T : Fin t → ID) (who : Fin K → UInt16) (sha : Sha512) (s : Secrets K) (c : Fin t → Scalar) (toss : C) : Ending G K :=
  let f := s.x :: List.ofFn c
  (F (fun j => evalAt f (T j).val) (f.map fun a => a • RGroup.base) (fun k => s.d k • RGroup.base) (fun k => s.e k • RGroup.base) toss).play
    (s.board who (fun _ => 0) fun _ => 0) sha (dealtShare f (s.x • RGroup.base) sha who s.d s.e) []

/-- Without the secrets: `y` takes the place of the shares. -/
noncomputable def solve (F : Coalition G K t C) (T : Fin t → ID) (who : Fin K → UInt16) (sha : Sha512) (A : G) (D E : Fin K → G) (y : Fin t → Scalar) (toss : C)
    (a : Block) : Logs G (Scalar × List (Scalar × Scalar)) :=
  let y' := Function.extend T y fun _ => 0
  Verif.Spec.solve ⟨A, who, D, E, weightOfKey (List.ofFn T), fromShares (List.ofFn T) y'⟩ (F y (commitmentsFrom t (List.ofFn T) A y') D E toss) sha a

end Coalition

/-- Parties who also contribute to the key: they are told their shares of the contribution of the others, the commitments to that, and the commitments of the
honest signers, and then say the coefficients of their own contribution. -/
abbrev Joiners (G : Type) (K t : Nat) (C : Type) : Type :=
  (Fin t → Scalar) → List G → (Fin K → G) → (Fin K → G) → C → (Fin (t + 1) → Scalar) × Attacker G K

namespace Joiners

variable {t : Nat} {C : Type}

/-- What they do when the contribution of the others has the coefficients `s.x` and `c`. -/
def does (F : Joiners G K t C) (T : Fin t → ID) (s : Secrets K) (c : Fin t → Scalar) (toss : C) : (Fin (t + 1) → Scalar) × Attacker G K :=
  let f := s.x :: List.ofFn c
  F (fun j => evalAt f (T j).val) (f.map fun a => a • RGroup.base) (fun k => s.d k • RGroup.base) (fun k => s.e k • RGroup.base) toss

/-- The secret of the key and the nonces. -/
def secrets (F : Joiners G K t C) (T : Fin t → ID) (s : Secrets K) (c : Fin t → Scalar) (toss : C) : Secrets K := ⟨s.x + (F.does T s c toss).1 0, s.d, s.e⟩

/-- The key is shared with the sum of both contributions. -/
def play (F : Joiners G K t C) (T : Fin t → ID) (who : Fin K → UInt16) (sha : Sha512) (s : Secrets K) (c : Fin t → Scalar) (toss : C) : Ending G K :=
  let f := List.zipWith (· + ·) (s.x :: List.ofFn c) (List.ofFn (F.does T s c toss).1)
  let s' := F.secrets T s c toss
  (F.does T s c toss).2.play (s'.board who (fun _ => 0) fun _ => 0) sha (dealtShare f (s'.x • RGroup.base) sha who s.d s.e) []

/-- Without the secrets: `y` takes the place of the shares, and `A` is the public contribution of the others. -/
noncomputable def solve (F : Joiners G K t C) (T : Fin t → ID) (who : Fin K → UInt16) (sha : Sha512) (A : G) (D E : Fin K → G) (y : Fin t → Scalar) (toss : C)
    (a : Block) : Logs G (Scalar × List (Scalar × Scalar)) :=
  let y' := Function.extend T y fun _ => 0
  let r := F y (commitmentsFrom t (List.ofFn T) A y') D E toss
  let slope := weightOfKey (List.ofFn T)
  let offset := fun i => fromShares (List.ofFn T) y' i + evalAt (List.ofFn r.1) (ID.val i) - slope i * r.1 0
  (Verif.Spec.solve ⟨A + r.1 0 • RGroup.base, who, D, E, slope, offset⟩ r.2 sha a).bind fun p => .done (p.1 - r.1 0, p.2)

end Joiners

/-- The hash function with values at the strings in `dom`. -/
def oracle (sha : Sha512) (dom : Finset (List UInt8)) (O : dom → Block) : Sha512 where
  sum s := if h : s ∈ dom then (O ⟨s, h⟩).1 else sha.sum s
  length_sum s := by
    split
    · exact (O _).2
    · exact sha.length_sum s

end Verif.Spec
