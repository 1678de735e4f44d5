import Verif.Spec.Print
import Verif.Props.Json
import Verif.Curve.Differ
import Verif.Model.Sha512

/-!
C95: what `cmd/keygen` and `cmd/signer` print.
-/

namespace Verif.Cmd.Talk

open Verif

variable {α β : Type}

theorem bind_result (x : Talk α) (f : α → Talk β) : (x >>= f).result = x.result >>= fun a => (f a).result := by
  show (Talk.bind x f).result = End.bind x.result _
  unfold Talk.bind End.bind
  cases x.result <;> rfl

theorem pure_result (a : α) : (pure a : Talk α).result = End.done a := rfl

theorem of_result (x : End α) : (Talk.of x).result = x := by cases x <;> rfl

theorem say_result (b : Bytes) : (Talk.say b).result = End.done () := rfl

theorem done_bind (x : Talk α) (f : α → Talk β) {a : α} (h : x.result = .done a) : (x >>= f).out = x.out ++ (f a).out := by
  show (Talk.bind x f).out = _
  unfold Talk.bind
  rw [h]

theorem of_done_bind (x : End α) (f : α → Talk β) {a : α} (h : x = .done a) : (Talk.of x >>= f).out = (f a).out := by
  rw [done_bind _ _ ((of_result x).trans h), h]
  rfl

theorem say_bind (b : Bytes) (f : Unit → Talk β) : (Talk.say b >>= f).out = .text b :: (f ()).out := rfl

/-- The last thing that is printed belongs to how the program ends. -/
def ending (fin : α → List Piece) : End α → List Piece
  | .failed c => complaint c
  | .done a => fin a
  | _ => []

/-- What is printed is `pre` and then what belongs to the end. -/
def Tells (pre : List Piece) (x : Talk α) (fin : α → List Piece) : Prop := x.out = pre ++ ending fin x.result

theorem tells_of (x : End α) : Tells [] (Talk.of x) fun _ => [] := by cases x <;> rfl

theorem tells_pure (a : α) : Tells [] (pure a : Talk α) fun _ => [] := rfl

theorem tells_say (b : Bytes) : Tells [.text b] (Talk.say b) fun _ => [] := rfl

theorem Tells.bind {pre : List Piece} {x : Talk α} {f : α → Talk β} {fin : β → List Piece} (hx : Tells pre x fun _ => [])
    (hf : ∀ a, x.result = .done a → Tells [] (f a) fin) : Tells pre (x >>= f) fin := by
  unfold Tells at *
  rw [bind_result]
  show (Talk.bind x f).out = pre ++ ending fin (End.bind x.result _)
  unfold Talk.bind End.bind
  cases h : x.result with
  | done a => rw [hx, h]; simp only [ending, List.append_nil]; rw [hf a h]; rfl
  | _ => rw [hx, h]; rfl

theorem tells_of_done {pre : List Piece} {x : End α} {a : α} {f : α → Talk β} {fin : β → List Piece} (hx : x = .done a) (hf : Tells pre (f a) fin) :
    Tells pre (Talk.of x >>= f) fin := by
  subst hx
  exact hf

theorem Tells.cons {b : Bytes} {pre : List Piece} {f : Unit → Talk β} {fin : β → List Piece} (hf : Tells pre (f ()) fin) :
    Tells (.text b :: pre) (Talk.say b >>= f) fin := by
  unfold Tells at *
  rw [bind_result]
  show Piece.text b :: (f ()).out = _
  rw [hf]
  rfl

end Verif.Cmd.Talk

namespace Verif.Props

open State Cmd Polynomial
open Verif.Spec.Json (ascii)
open Verif.Cmd.Talk (of_result bind_result say_result pure_result)

variable {G : Type} [RGroup G] {sha : Sha512}

/-! ### The ends -/

omit [RGroup G] in
theorem ite_result {α : Type} (c : Prop) [Decidable c] (x y : Talk α) : (if c then x else y).result = if c then x.result else y.result := by
  split <;> rfl

theorem keygenSecretsTalk_result (states : GoMap (Option (State G (Keygen.Round G)))) (pub : Public G) (l : List ID) (acc : GoMap (SecretShare G)) :
    (keygenSecretsTalk states pub l acc).result = keygenSecrets states pub l acc := by
  induction l generalizing acc with
  | nil => rfl
  | cons a l ih =>
    rw [keygenSecretsTalk, keygenSecrets]
    simp only [bind_result, of_result, say_result, done_bind, ih]

theorem keygenRunTalk_result (env : Env) (t n : Int) : (keygenRunTalk (G := G) sha env t n).result = keygenRun sha env t n := by
  unfold keygenRunTalk keygenRun
  simp only [bind_result, of_result, ite_result, say_result, done_bind, keygenSecretsTalk_result, pure_result]
  rfl

/-- C95: the program with its output ends as it does without. -/
theorem C95_keygen_ends (env : Env) (args : List Bytes) : (keygenTalk (G := G) sha env args).result = keygen sha env args := by
  rcases args with _ | ⟨a₁, _ | ⟨a₂, _ | ⟨a₃, l⟩⟩⟩
  · rfl
  · rfl
  · unfold keygenTalk keygen
    cases h₁ : atoi a₁ with
    | none => simp only [h₁]; rfl
    | some t =>
      cases h₂ : atoi a₂ with
      | none => simp only [h₁, h₂]; rfl
      | some n =>
        simp only [h₁, h₂, ite_result, keygenRunTalk_result]
        rfl
  · rfl

theorem signerStatesTalk_result (env : Env) (ids : IDSlice) (secrets : GoMap (Option (SecretShare G))) (pub : Public G) (message : Bytes) (l : List ID)
    (acc : GoMap (Option (State G (Sign.Round G)))) :
    (signerStatesTalk sha env ids secrets pub message l acc).result = signerStates sha env ids secrets pub message l acc := by
  induction l generalizing acc with
  | nil => rfl
  | cons a l ih =>
    rw [signerStatesTalk, signerStates]
    simp only [bind_result, of_result]
    congr 1
    funext secret
    cases h : Sign.newSignState sha ids secret pub message 0 (env.now a) <;> simp only [bind_result, of_result, say_result, done_bind, ih]

theorem signerMainTalk_result (env : Env) (secrets : GoMap (Option (SecretShare G))) (pub : Public G) (message : Bytes) :
    (signerMainTalk sha env secrets pub message).result = signerMain sha env secrets pub message := by
  unfold signerMainTalk signerMain
  simp only [bind_result, of_result, say_result, done_bind, signerStatesTalk_result]
  congr 1; funext ids
  congr 1; funext states
  congr 1; funext x
  congr 1; funext x
  congr 1; funext x
  congr 1; funext id0
  congr 1; funext s0
  cases h : s0.round.output.signature with
  | none => rfl
  | some sig =>
    simp only [bind_result, of_result, ite_result, say_result, done_bind, pure_result]
    rfl

theorem C95_signer_ends (env : Env) (ord : MapOrder) (read : Bytes → Option Bytes) (args : List Bytes) :
    (signerTalk (G := G) sha env ord read args).result = Json.signer sha env ord read args := by
  rcases args with _ | ⟨a₁, _ | ⟨a₂, _ | ⟨a₃, l⟩⟩⟩
  · rfl
  · rfl
  · unfold signerTalk Json.signer
    cases h₁ : read a₁ with
    | none => simp only [h₁]; rfl
    | some data =>
      simp only [h₁]
      unfold signerTextTalk Json.signerText
      simp only [bind_result, of_result, signerMainTalk_result]
  · rfl

/-! ### The texts -/

theorem hexDigit_is {n : Nat} (h : n < 16) : Verif.Spec.HexDigit (hexDigit n) n := by
  have key : ∀ m : Fin 16, (m.val < 10 ∧ (hexDigit m.val).toNat = '0'.toNat + m.val) ∨
      (10 ≤ m.val ∧ m.val < 16 ∧ (hexDigit m.val).toNat = 'a'.toNat + (m.val - 10)) := by decide
  exact key ⟨n, h⟩

theorem hex_is (b : Bytes) : Verif.Spec.HexOf (hex b) b := by
  induction b with
  | nil => exact .nil
  | cons c cs ih =>
    have := c.toNat_lt
    exact .cons (hexDigit_is (by omega)) (hexDigit_is (by omega)) (by omega) ih

theorem print : ∃ w : Verif.Spec.Print, w.num = ID.formatUint ∧ w.hex = hex := by
  obtain ⟨w, h, _⟩ := writing
  exact ⟨⟨ID.formatUint, h ▸ w.num_is, hex, hex_is⟩, rfl, rfl⟩

/-- What is in hexadecimal determines the bytes. -/
theorem hexOf_unique {h b b' : Bytes} (h1 : Verif.Spec.HexOf h b) (h2 : Verif.Spec.HexOf h b') : b = b' := by
  have dig : ∀ {c v v'}, Verif.Spec.HexDigit c v → Verif.Spec.HexDigit c v' → v = v' := by
    intro c v v' g g'
    have e0 : '0'.toNat = 48 := rfl
    have ea : 'a'.toNat = 97 := rfl
    unfold Verif.Spec.HexDigit at g g'
    omega
  induction h1 generalizing b' with
  | nil => cases h2; rfl
  | cons d1 d2 e _ ih =>
    cases h2 with
    | cons d1' d2' e' g =>
      rw [ih g]
      congr 1
      rw [← UInt8.toNat_inj, e, e', dig d1 d1', dig d2 d2']

theorem keygenSecrets_entry {states : GoMap (Option (State G (Keygen.Round G)))} {pub : Public G} {l : List ID} (hl : l.Nodup)
    {acc res : GoMap (SecretShare G)} (h : keygenSecrets states pub l acc = .done res) :
    (∀ i ∈ l, ∃ s sk, states.get? i = some (some s) ∧ Cmd.wait s = .done () ∧ s.round.output.secretKey = some sk ∧ res.get? i = some sk) ∧
      ∀ i, i ∉ l → res.get? i = acc.get? i := by
  induction l generalizing acc with
  | nil =>
    rw [keygenSecrets] at h
    cases h
    exact ⟨fun _ h => absurd h List.not_mem_nil, fun _ _ => rfl⟩
  | cons a l ih =>
    rw [List.nodup_cons] at hl
    rw [keygenSecrets] at h
    simp only [bind_eq_done, deref_eq_done] at h
    obtain ⟨s, h1, _, h2, sk, h3, _, _, h5⟩ := h
    obtain ⟨g1, g2⟩ := ih hl.2 h5
    refine ⟨?_, ?_⟩
    · intro i hi
      rcases List.mem_cons.1 hi with rfl | hi
      · refine ⟨s, sk, ?_, h2, h3, ?_⟩
        · cases hg : states.get? i with
          | none => rw [hg] at h1; cases h1
          | some o => rw [hg, Option.join_some] at h1; rw [h1]
        · rw [g2 i hl.1, GoMap.get?_set, if_pos rfl]
      · exact g1 i hi
    · intro i hi
      rw [List.mem_cons, not_or] at hi
      rw [g2 i hi.2, GoMap.get?_set, if_neg hi.1]

/-- The lines about a party. -/
def partyLines (i : ID) (s : Scalar) (g : G) : Bytes :=
  lit "Party " ++ ID.marshalText i ++ lit ":\n  secret: " ++ hex s.bytes ++ lit "\n  public: " ++ hex (RGroup.bytes g) ++ lit "\n"

theorem keygenSecretsTalk_out (states : GoMap (Option (State G (Keygen.Round G)))) (pub : Public G) {l : List ID} (sec : ID → SecretShare G) (sh : ID → G)
    (h : ∀ i ∈ l, ∃ s, states.get? i = some (some s) ∧ Cmd.wait s = .done () ∧ s.round.output.secretKey = some (sec i))
    (hsh : ∀ i ∈ l, pub.shares.get? i = some (sh i)) (acc : GoMap (SecretShare G)) :
    (keygenSecretsTalk states pub l acc).out = l.map fun i => .text (partyLines i (sec i).secret (sh i)) := by
  induction l generalizing acc with
  | nil => rfl
  | cons a l ih =>
    obtain ⟨s, h1, h2, h3⟩ := h a List.mem_cons_self
    rw [keygenSecretsTalk, Talk.of_done_bind _ _ (a := s) (by rw [h1]; rfl), Talk.of_done_bind _ _ h2, Talk.of_done_bind _ _ (a := sec a) (by rw [h3]; rfl),
      Talk.of_done_bind _ _ (a := sh a) (by rw [hsh a List.mem_cons_self]; rfl), Talk.say_bind,
      ih (fun i hi => h i (List.mem_cons_of_mem _ hi)) (fun i hi => hsh i (List.mem_cons_of_mem _ hi))]
    rfl

/-- C95: exactly what `cmd/keygen` prints, for two arguments that are numbers `t` and `n`; compare `C70_outcome`. -/
theorem keygen_out (env : Env) (a₁ a₂ : Bytes) (t n : Int) (ha₁ : atoi a₁ = some t) (ha₂ : atoi a₂ = some n) :
    (keygenTalk (G := G) sha env [a₁, a₂]).out =
      if 100 < n ∨ n ≤ t then [.text (lit "usage: "), .program, .text (lit " t n\nwhere 0 < t < n < 100\n")]
      else if n % 65536 = 65535 then []
      else if n % 65536 = 0 then if n < 0 then [] else [.text (lit "Group Key:\n")]
      else if t % 65536 = 0 ∨ n % 65536 ≤ t % 65536 then [.error, .text (lit "\n")]
      else if n < 0 then []
      else
        let F := Spec.jointPoly (Spec.firstIDs n.toNat) (t % 65536).toNat (env.coins 0)
        .text (lit "Group Key:\n") :: .text (lit "  " ++ hex (PublicKey.toEd25519 (F.eval 0 • base : G)) ++ lit "\n\n") ::
          ((Spec.firstIDs n.toNat).map fun i => .text (partyLines i (F.eval (i.toNat : Scalar)) (F.eval (i.toNat : Scalar) • base : G))) ++
          [.text (lit "Success: output written to keygenout.json\n")] := by
  unfold keygenTalk
  simp only [ha₁, ha₂, gt_iff_lt, ge_iff_le]
  by_cases hu : 100 < n ∨ n ≤ t
  · rw [if_pos hu, if_pos hu]; rfl
  rw [if_neg hu, if_neg hu]
  unfold keygenRunTalk
  by_cases hh : n % 65536 = 65535
  · rw [if_pos hh, show size n = 65535 by rw [← UInt16.toNat_inj, size_toNat, hh]; rfl, generateSet_diverges]
    rfl
  rw [if_neg hh, Talk.of_done_bind _ _ (a := Spec.firstIDs (n % 65536).toNat) (by rw [generateSet_eq (by rw [size_toNat]; omega), size_toNat]; rfl)]
  generalize hm : (n % 65536).toNat = m
  have hm16 : m < 65536 := by omega
  by_cases hz : n % 65536 = 0
  · rw [if_pos hz]
    have : m = 0 := by omega
    subst this
    rw [show Spec.firstIDs 0 = [] from rfl, Talk.of_done_bind _ _ (a := []) (by rw [keygenStates])]
    by_cases hneg : n < 0
    · rw [if_pos hneg, if_pos hneg]; rfl
    · rw [if_neg hneg, if_neg hneg]
      have : ∀ k ins, Cmd.stage (G := G) (Keygen.impl sha) env k ins [] = .done ([], []) := by
        intro k ins
        have := (env.range k).perm _ ([] : GoMap (Option (State G (Keygen.Round G))))
        unfold Cmd.stage
        rw [List.Perm.eq_nil this]
        rfl
      rw [Talk.of_done_bind _ _ (this _ _), Talk.of_done_bind _ _ (this _ _), Talk.of_done_bind _ _ (this _ _)]
      rfl
  rw [if_neg hz]
  have hne : Spec.firstIDs m ≠ [] := fun h => by
    have := firstIDs_length m
    rw [h] at this
    simp at this
    omega
  by_cases ht : t % 65536 = 0 ∨ n % 65536 ≤ t % 65536
  · rw [if_pos ht]
    obtain ⟨a, l, hal⟩ := List.exists_cons_of_ne_nil hne
    obtain ⟨e, he⟩ := C34_refused (G := G) (sha := sha) a (Spec.firstIDs m) (size t) 0 (env.now a) (by
      right
      rcases ht with ht | ht
      · left; rw [← UInt16.toNat_inj, size_toNat, ht]; rfl
      · right; rw [size_toNat, firstIDs_length]; omega)
    rw [hal] at he ⊢
    rw [keygenStates_err env _ _ he]
    rfl
  rw [if_neg ht]
  push Not at ht
  obtain ⟨init, q1, s₁, s₂, s₃, o₁, o₂, o₃, pub, q2, q3, q4, q5, q6, q7⟩ := keygen_done (G := G) (sha := sha) (t := size t) env
    (firstIDs_sorted hm16) (firstIDs_nodup hm16) (firstIDs_zero hm16) (by rw [size_toNat]; omega) (by rw [size_toNat, firstIDs_length]; omega) hne
  rw [Talk.of_done_bind _ _ q1]
  by_cases hneg : n < 0
  · rw [if_pos hneg, if_pos hneg]; rfl
  rw [if_neg hneg, if_neg hneg, Talk.of_done_bind _ _ q2]
  simp only
  rw [Talk.of_done_bind _ _ q3]
  simp only
  rw [Talk.of_done_bind _ _ q4]
  simp only
  obtain ⟨a, l, hal⟩ := List.exists_cons_of_ne_nil hne
  obtain ⟨s, g1, g2, g3⟩ := q5 a (by rw [hal]; exact List.mem_cons_self)
  rw [Talk.say_bind, Talk.of_done_bind _ _ (a := a) (by rw [hal]; rfl), Talk.of_done_bind _ _ (a := s) (by rw [g1]; rfl), Talk.of_done_bind _ _ g2,
    Talk.of_done_bind _ _ (a := pub) (by rw [g3]; rfl), Talk.say_bind]
  obtain ⟨hget, _⟩ := keygenSecrets_entry (firstIDs_nodup hm16) q7
  rw [Talk.done_bind _ _ ((keygenSecretsTalk_result _ _ _ _).trans q7), Talk.say_bind,
    keygenSecretsTalk_out s₃ pub (fun i => SecretShare.new i ((Spec.jointPoly (Spec.firstIDs m) (size t).toNat (env.coins 0)).eval (i.toNat : Scalar)))
      (fun i => (Spec.jointPoly (Spec.firstIDs m) (size t).toNat (env.coins 0)).eval (i.toNat : Scalar) • base)]
  · rw [show n.toNat = m by omega, ← size_toNat, q6]
    rfl
  · intro i hi
    obtain ⟨s, sk, e1, e2, e3, e4⟩ := hget i hi
    rw [GoMap.get?_map_self _ hi] at e4
    obtain rfl := Option.some.inj e4
    exact ⟨s, e1, e2, e3⟩
  · intro i hi
    rw [q6]
    exact GoMap.get?_map_self _ hi

/-- C95: with arguments as the usage text asks for, `cmd/keygen` prints the group key as Ed25519 encodes it, and for every party the secret share and
the public share as ristretto255 encodes it. -/
theorem C95_keygen_text (env : Env) (a₁ a₂ : Bytes) (t n : Nat) (ha₁ : atoi a₁ = some (t : Int)) (ha₂ : atoi a₂ = some (n : Int))
    (h0 : 0 < t) (h1 : t < n) (h2 : n ≤ 100) : ∃ (w : Verif.Spec.Print) (F : Scalar[X]),
      keygen (G := G) sha env [a₁, a₂] = .done (Spec.keyFile (Spec.firstIDs n) (UInt16.ofNat t) F) ∧
      Verif.Spec.Shows (keygenTalk (G := G) sha env [a₁, a₂]).out
        (ascii "Group Key:\n  " ++ w.hex (PublicKey.toEd25519 (F.eval 0 • base : G)) ++ ascii "\n\n" ++
        ((Spec.firstIDs n).map fun i => ascii "Party " ++ w.num i.toNat ++ ascii ":\n  secret: " ++ w.hex (F.eval (i.toNat : Scalar)).bytes ++
          ascii "\n  public: " ++ w.hex (RGroup.bytes (F.eval (i.toNat : Scalar) • base : G)) ++ ascii "\n").flatten ++
        ascii "Success: output written to keygenout.json\n") := by
  obtain ⟨w, hw1, hw2⟩ := print
  have e1 : (t : Int) % 65536 = t := by omega
  refine ⟨w, Spec.jointPoly (Spec.firstIDs n) t (env.coins 0), ?_, ?_⟩
  · rw [C70_outcome env a₁ a₂ t n ha₁ ha₂, if_neg (by omega), if_neg (by omega), if_neg (by omega), if_neg (by omega), if_neg (by omega)]
    have e2 : size (t : Int) = UInt16.ofNat t := by
      rw [← UInt16.toNat_inj, size_toNat, UInt16.toNat_ofNat']
      omega
    rw [e2, e1, Int.toNat_natCast, Int.toNat_natCast]
  · rw [keygen_out env a₁ a₂ t n ha₁ ha₂, if_neg (by omega), if_neg (by omega), if_neg (by omega), if_neg (by omega), if_neg (by omega), e1,
      Int.toNat_natCast, Int.toNat_natCast, hw1, hw2]
    generalize Spec.jointPoly (Spec.firstIDs n) t (env.coins 0) = F
    refine ⟨lit "Group Key:\n" :: (lit "  " ++ hex (PublicKey.toEd25519 (F.eval 0 • base : G)) ++ lit "\n\n") ::
      ((Spec.firstIDs n).map fun i => partyLines i (F.eval (i.toNat : Scalar)) (F.eval (i.toNat : Scalar) • base : G)) ++
      [lit "Success: output written to keygenout.json\n"], ?_, ?_⟩
    · simp only [List.map_cons, List.map_append, List.map_map, List.map_nil]
      rfl
    · rw [show ascii "Group Key:\n  " = lit "Group Key:\n" ++ lit "  " from rfl]
      simp only [partyLines, List.cons_append, List.flatten_cons, List.flatten_append, List.flatten_nil, List.append_nil, List.append_assoc]
      rfl

/-- No piece of the output announces success. -/
def quiet (out : List Piece) : Prop := ∀ b, Piece.text (ascii "Success" ++ b) ∉ out

theorem quiet_nil : quiet [] := fun _ => List.not_mem_nil

theorem quiet_cons {p : Piece} {out : List Piece} (hp : ∀ b, p = .text b → b.head? ≠ some 83) (h : quiet out) : quiet (p :: out) := by
  intro b hb
  rcases List.mem_cons.1 hb with hb | hb
  · exact hp _ hb.symm rfl
  · exact h b hb

theorem quiet_text {c : Bytes} {out : List Piece} (hc : c.head? ≠ some 83) (h : quiet out) : quiet (.text c :: out) :=
  quiet_cons (fun _ e => by injection e with e; exact e ▸ hc) h

theorem quiet_complaint (c : Complaint) : quiet (Talk.complaint c) := by
  cases c
  · exact quiet_cons (fun _ e => nomatch e) (quiet_text (by decide) quiet_nil)
  all_goals exact quiet_text (by decide) quiet_nil

theorem quiet_keygenUsage : quiet [.text (lit "usage: "), .program, .text (lit " t n\nwhere 0 < t < n < 100\n")] :=
  quiet_text (by decide) (quiet_cons (fun _ e => nomatch e) (quiet_text (by decide) quiet_nil))

theorem keygenUsage_iff {α : Type} {pre : List Piece} (h : quiet pre) :
    (∃ b, Piece.text (ascii "Success" ++ b) ∈ (keygenUsage (α := α) pre).out) ↔ ∃ a, (keygenUsage (α := α) pre).result = .done a := by
  constructor
  · rintro ⟨b, hb⟩
    rcases List.mem_append.1 hb with hb | hb
    · exact absurd hb (h b)
    · exact absurd hb (quiet_keygenUsage b)
  · rintro ⟨_, h⟩
    cases h

/-- C95: `cmd/keygen` says "Success" exactly when it gets to the end; the other runs print a usage text, the text of an error, the heading of a
key that never comes, or nothing at all. -/
theorem C95_keygen_success (env : Env) (args : List Bytes) :
    (∃ b, Piece.text (ascii "Success" ++ b) ∈ (keygenTalk (G := G) sha env args).out) ↔ ∃ file, (keygenTalk (G := G) sha env args).result = .done file := by
  have herr : quiet [.error, .text (lit "\n")] := quiet_complaint .error
  rcases args with _ | ⟨a₁, _ | ⟨a₂, _ | ⟨a₃, l⟩⟩⟩
  · exact keygenUsage_iff quiet_nil
  · exact keygenUsage_iff quiet_nil
  · cases h₁ : atoi a₁ with
    | none => unfold keygenTalk; simp only [h₁]; exact keygenUsage_iff herr
    | some t =>
      cases h₂ : atoi a₂ with
      | none => unfold keygenTalk; simp only [h₁, h₂]; exact keygenUsage_iff herr
      | some n =>
        rw [keygen_out env a₁ a₂ t n h₁ h₂, C95_keygen_ends, C70_outcome env a₁ a₂ t n h₁ h₂]
        have hno : ∀ {out : List Piece} {e : End (File G)}, quiet out → (∀ file, e ≠ .done file) →
            ((∃ b, Piece.text (ascii "Success" ++ b) ∈ out) ↔ ∃ file, e = .done file) :=
          fun h1 h2 => ⟨fun ⟨b, hb⟩ => absurd hb (h1 b), fun ⟨file, h⟩ => absurd h (h2 file)⟩
        split
        · exact hno quiet_keygenUsage (fun _ h => nomatch h)
        split
        · exact hno quiet_nil (fun _ h => nomatch h)
        split
        · refine hno ?_ (fun _ h => nomatch h)
          split
          · exact quiet_nil
          · exact quiet_text (by decide) quiet_nil
        split
        · exact hno herr (fun _ h => nomatch h)
        split
        · exact hno quiet_nil (fun _ h => nomatch h)
        · exact ⟨fun _ => ⟨_, rfl⟩, fun _ => ⟨lit ": output written to keygenout.json\n", List.mem_append_right _ List.mem_cons_self⟩⟩
  · exact keygenUsage_iff quiet_nil

/-! ### The signer -/

theorem signerStatesTalk_tells (env : Env) (ids : IDSlice) (secrets : GoMap (Option (SecretShare G))) (pub : Public G) (message : Bytes) (l : List ID)
    (hl : l.Nodup) (acc : GoMap (Option (State G (Sign.Round G)))) : ∃ k ≤ l.length,
      Talk.Tells (List.replicate k (.text (lit "\n"))) (signerStatesTalk sha env ids secrets pub message l acc) (fun _ => []) ∧
      (∀ c, (signerStatesTalk sha env ids secrets pub message l acc).result ≠ .failed c) ∧
      ∀ states, (signerStatesTalk sha env ids secrets pub message l acc).result = .done states →
        (k ≠ 0 → ∃ i ∈ l, states.get? i = some none) ∧ ∀ i, i ∉ l → states.get? i = acc.get? i := by
  induction l generalizing acc with
  | nil =>
    refine ⟨0, le_rfl, Talk.tells_pure _, (fun _ h => nomatch h), ?_⟩
    intro states h
    cases h
    exact ⟨fun h => absurd rfl h, fun _ _ => rfl⟩
  | cons a l ih =>
    rw [List.nodup_cons] at hl
    cases hs : (secrets.get? a).join with
    | none =>
      have e : signerStatesTalk sha env ids secrets pub message (a :: l) acc = ⟨[], .crash⟩ := by
        rw [signerStatesTalk, hs]
        rfl
      rw [e]
      exact ⟨0, Nat.zero_le _, rfl, (fun _ h => nomatch h), fun _ h => nomatch h⟩
    | some secret =>
      cases hn : Sign.newSignState sha ids secret pub message 0 (env.now a) with
      | panic =>
        have e : signerStatesTalk sha env ids secrets pub message (a :: l) acc = ⟨[], .crash⟩ := by
          rw [signerStatesTalk, hs]
          show Talk.mk ([] ++ _) _ = _
          simp only [hn]
          rfl
        rw [e]
        exact ⟨0, Nat.zero_le _, rfl, (fun _ h => nomatch h), fun _ h => nomatch h⟩
      | err x =>
        obtain ⟨k, hk, h1, h2, h3⟩ := ih hl.2 (acc.set a none)
        have e : signerStatesTalk sha env ids secrets pub message (a :: l) acc =
            ⟨.text (lit "\n") :: (signerStatesTalk sha env ids secrets pub message l (acc.set a none)).out,
              (signerStatesTalk sha env ids secrets pub message l (acc.set a none)).result⟩ := by
          rw [signerStatesTalk, hs]
          show Talk.mk ([] ++ _) _ = _
          simp only [hn]
          rfl
        rw [e]
        refine ⟨k + 1, by simpa using hk, ?_, h2, ?_⟩
        · show _ :: _ = _
          rw [h1]
          rfl
        · intro states hst
          obtain ⟨_, g2⟩ := h3 states hst
          refine ⟨fun _ => ⟨a, List.mem_cons_self, ?_⟩, ?_⟩
          · rw [g2 a hl.1, GoMap.get?_set, if_pos rfl]
          · intro i hi
            rw [List.mem_cons, not_or] at hi
            rw [g2 i hi.2, GoMap.get?_set, if_neg hi.1]
      | ok s =>
        obtain ⟨k, hk, h1, h2, h3⟩ := ih hl.2 (acc.set a (some s))
        have e : signerStatesTalk sha env ids secrets pub message (a :: l) acc =
            signerStatesTalk sha env ids secrets pub message l (acc.set a (some s)) := by
          rw [signerStatesTalk, hs]
          show Talk.mk ([] ++ _) _ = _
          simp only [hn]
          rfl
        rw [e]
        refine ⟨k, by simp; omega, h1, h2, ?_⟩
        intro states hst
        obtain ⟨g1, g2⟩ := h3 states hst
        refine ⟨fun hk => ?_, ?_⟩
        · obtain ⟨i, hi, h⟩ := g1 hk
          exact ⟨i, List.mem_cons_of_mem _ hi, h⟩
        · intro i hi
          rw [List.mem_cons, not_or] at hi
          rw [g2 i hi.2, GoMap.get?_set, if_neg hi.1]

/-- A stage that meets a missing session crashes. -/
theorem stageLoop_nil {R : Type} (impl : RoundImpl G R) (order : ID → MapOrder) (coins : ID → Coins) (ins : List Bytes) (l : List ID)
    (states : GoMap (Option (State G R))) (out : List Bytes) (i : ID) (hi : i ∈ l) (hs : (states.get? i).join = none)
    (r : GoMap (Option (State G R)) × List Bytes) : stageLoop impl order coins ins l states out ≠ .done r := by
  induction l generalizing states out with
  | nil => cases hi
  | cons a l ih =>
    rw [stageLoop]
    intro h
    by_cases ha : a = i
    · subst ha
      rw [hs] at h
      cases h
    · have hi : i ∈ l := by
        rcases List.mem_cons.1 hi with h | h
        · exact absurd h.symm ha
        · exact h
      cases hst : (states.get? a).join with
      | none => rw [hst] at h; cases h
      | some s =>
        rw [hst] at h
        simp only at h
        cases hp : partyRoutine impl (order a) (coins a) ins s with
        | none => rw [hp] at h; cases h
        | some x =>
          obtain ⟨s', x⟩ := x
          rw [hp] at h
          cases x with
          | error e => cases h
          | ok msgs =>
            refine ih (states.set a (some s')) _ hi ?_ h
            rw [GoMap.get?_set, if_neg (Ne.symm ha)]
            exact hs

/-- What `cmd/signer` says about a signature. -/
def signerSuccess (sig : Signature G) : List Piece :=
  [.text (lit "Success: signature is\nr: " ++ hex (RGroup.bytes sig.R) ++ lit "\ns: " ++ hex sig.S.bytes ++ lit "\n")]

/-- What `cmd/signer` says first. -/
def signerHeader (pub : Public G) : Bytes :=
  lit "(t, n) = (" ++ ID.marshalText pub.threshold ++ lit ", " ++ ID.marshalText (IDSlice.N pub.partyIDs) ++ lit ")\n"

theorem signerMain_out (env : Env) (secrets : GoMap (Option (SecretShare G))) (pub : Public G) (message : Bytes) :
    ∃ k ≤ (IDSlice.N pub.partyIDs).toNat,
      Talk.Tells (.text (signerHeader pub) :: List.replicate k (.text (lit "\n"))) (signerMainTalk sha env secrets pub message) signerSuccess ∧
      (∀ sig, (signerMainTalk sha env secrets pub message).result = .done sig → k = 0) := by
  have hgen : ∀ ids, generateSet (IDSlice.N pub.partyIDs) 65536 = some ids → ids = Spec.firstIDs (IDSlice.N pub.partyIDs).toNat := by
    intro ids h
    by_cases hn : (IDSlice.N pub.partyIDs).toNat < 65535
    · rw [generateSet_eq hn] at h
      exact (Option.some.inj h).symm
    · have : IDSlice.N pub.partyIDs = 65535 := by
        apply UInt16.toNat_inj.1
        have := (IDSlice.N pub.partyIDs).toNat_lt
        show _ = 65535
        omega
      rw [this, generateSet_diverges] at h
      cases h
  unfold signerMainTalk
  cases hg : generateSet (IDSlice.N pub.partyIDs) 65536 with
  | none => exact ⟨0, Nat.zero_le _, Talk.Tells.cons rfl, fun _ _ => rfl⟩
  | some ids =>
    obtain rfl := hgen ids hg
    have hnd := firstIDs_nodup (IDSlice.N pub.partyIDs).toNat_lt
    obtain ⟨k, hk, h1, _, h3⟩ := signerStatesTalk_tells (sha := sha) env (Spec.firstIDs (IDSlice.N pub.partyIDs).toNat) secrets pub message _ hnd []
    rw [firstIDs_length] at hk
    refine ⟨k, hk, Talk.Tells.cons ?_, ?_⟩
    · refine Talk.tells_of_done rfl (Talk.Tells.bind h1 fun states _ => ?_)
      refine Talk.Tells.bind (Talk.tells_of _) fun x _ => ?_
      refine Talk.Tells.bind (Talk.tells_of _) fun x _ => ?_
      refine Talk.Tells.bind (Talk.tells_of _) fun x _ => ?_
      refine Talk.Tells.bind (Talk.tells_of _) fun id0 _ => ?_
      refine Talk.Tells.bind (Talk.tells_of _) fun s0 _ => ?_
      cases hsig : s0.round.output.signature with
      | none => simp only; exact Talk.tells_of _
      | some sig =>
        simp only
        refine Talk.Tells.bind (Talk.tells_of _) fun b _ => ?_
        cases b with
        | false => rfl
        | true =>
          refine Talk.Tells.bind (Talk.tells_of _) fun b _ => ?_
          cases b <;> rfl
    · intro sig h
      by_contra hk0
      simp only [Talk.bind_result, Talk.of_result, Talk.say_result, bind_eq_done] at h
      obtain ⟨_, _, ids, hids, states, hst, x, hx, _⟩ := h
      obtain rfl : Spec.firstIDs (IDSlice.N pub.partyIDs).toNat = ids := by simpa [End.orHang] using hids
      obtain ⟨i, _, hi⟩ := (h3 states hst).1 hk0
      refine stageLoop_nil _ _ _ _ _ states _ i ?_ (by rw [hi]; rfl) x hx
      have : i ∈ states.keys := GoMap.mem_keys_iff.2 ⟨_, hi⟩
      unfold GoMap.keys at this ⊢
      exact (((env.range 0).perm _ states).map _).mem_iff.2 this

theorem signer_out (env : Env) (ord : MapOrder) (read : Bytes → Option Bytes) (file message data : Bytes) (hread : read file = some data) :
    ∃ pre : List Piece, Talk.Tells pre (signerTalk (G := G) sha env ord read [file, message]) signerSuccess ∧ quiet pre ∧
      ∀ sig, (signerTalk (G := G) sha env ord read [file, message]).result = .done sig →
        ∃ (keys : Json.Keys G) (pub : Public G), Json.readFile ord data = .ok keys ∧ keys.shares = some pub ∧ pre = [.text (signerHeader pub)] := by
  have e : signerTalk (G := G) sha env ord read [file, message] = signerTextTalk sha env ord data message := by
    unfold signerTalk
    simp only [hread]
  rw [e]
  unfold signerTextTalk
  cases hk : Json.readFile (G := G) ord data with
  | panic => exact ⟨[], rfl, quiet_nil, fun _ h => nomatch h⟩
  | err x => exact ⟨[], rfl, quiet_nil, fun _ h => nomatch h⟩
  | ok keys =>
    cases hs : keys.shares with
    | none =>
      refine ⟨[], Talk.tells_of_done rfl ?_, quiet_nil, ?_⟩
      · simp only [hs]
        rfl
      · intro sig h
        simp only [Talk.bind_result, Talk.of_result, bind_eq_done] at h
        obtain ⟨k, hk', p, hp, _⟩ := h
        obtain rfl := Outcome.ok.inj (ofRes_eq_done.1 hk')
        rw [hs] at hp
        cases hp
    | some pub =>
      obtain ⟨k, _, h1, h2⟩ := signerMain_out (sha := sha) env keys.secrets pub message
      refine ⟨_, Talk.tells_of_done rfl (Talk.tells_of_done (a := pub) (by rw [hs]; rfl) h1), ?_, ?_⟩
      · refine quiet_text (show some (40 : UInt8) ≠ some 83 by decide) ?_
        intro b hb
        have := List.eq_of_mem_replicate hb
        injection this with this
        exact absurd (congrArg List.head? this) (show ¬ some (83 : UInt8) = some 10 by decide)
      · intro sig h
        refine ⟨keys, pub, rfl, hs, ?_⟩
        have : (signerMainTalk sha env keys.secrets pub message).result = .done sig := by
          simp only [Talk.bind_result, Talk.of_result, bind_eq_done] at h
          obtain ⟨k, hk', p, hp, h⟩ := h
          obtain rfl := Outcome.ok.inj (ofRes_eq_done.1 hk')
          rw [hs] at hp
          obtain rfl := Option.some.inj (deref_eq_done.1 hp)
          exact h
        rw [h2 sig this]
        rfl

/-- C95: `cmd/signer` says "Success" exactly when it gets to the end. -/
theorem C95_signer_success (env : Env) (ord : MapOrder) (read : Bytes → Option Bytes) (args : List Bytes) :
    (∃ b, Piece.text (ascii "Success" ++ b) ∈ (signerTalk (G := G) sha env ord read args).out) ↔
      ∃ sig, (signerTalk (G := G) sha env ord read args).result = .done sig := by
  have hq : quiet [Piece.text (lit "usage: "), .program, .text (lit " <JSON file> message\n")] :=
    quiet_text (by decide) (quiet_cons (fun _ e => nomatch e) (quiet_text (by decide) quiet_nil))
  have husage : ∀ {α : Type}, ((∃ b, Piece.text (ascii "Success" ++ b) ∈ [Piece.text (lit "usage: "), .program, .text (lit " <JSON file> message\n")]) ↔
      ∃ sig : α, (End.usage : End α) = End.done sig) := by
    intro α
    constructor
    · rintro ⟨b, hb⟩
      exact absurd hb (hq b)
    · rintro ⟨_, h⟩
      cases h
  rcases args with _ | ⟨a₁, _ | ⟨a₂, _ | ⟨a₃, l⟩⟩⟩
  · exact husage
  · exact husage
  · cases hr : read a₁ with
    | none =>
      have e : signerTalk (G := G) sha env ord read [a₁, a₂] = Talk.of (.failed .error) := by
        unfold signerTalk
        simp only [hr]
      rw [e]
      refine ⟨fun ⟨b, hb⟩ => absurd hb (quiet_complaint .error b), fun ⟨_, h⟩ => ?_⟩
      cases h
    | some data =>
      obtain ⟨pre, h1, h2, _⟩ := signer_out (G := G) (sha := sha) env ord read a₁ a₂ data hr
      rw [h1]
      cases h : (signerTalk (G := G) sha env ord read [a₁, a₂]).result with
      | done sig => exact ⟨fun _ => ⟨sig, rfl⟩, fun _ => ⟨_, List.mem_append_right _ List.mem_cons_self⟩⟩
      | failed c =>
        refine ⟨fun ⟨b, hb⟩ => ?_, fun ⟨_, h⟩ => nomatch h⟩
        rcases List.mem_append.1 hb with hb | hb
        · exact absurd hb (h2 b)
        · exact absurd hb (quiet_complaint c b)
      | _ =>
        refine ⟨fun ⟨b, hb⟩ => ?_, fun ⟨_, h⟩ => nomatch h⟩
        rcases List.mem_append.1 hb with hb | hb
        · exact absurd hb (h2 b)
        · cases hb
  · exact husage

/-- C95: the whole text `cmd/signer` prints when it gets to the end: the threshold and the number of the keys in the file, then `R` in its
ristretto255 encoding and `S`, in hexadecimal; and this signature has passed both verifications. -/
theorem C95_signer_text (env : Env) (ord : MapOrder) (read : Bytes → Option Bytes) (args : List Bytes) (sig : Signature G)
    (h : (signerTalk sha env ord read args).result = .done sig) :
    ∃ (w : Verif.Spec.Print) (file message data : Bytes) (v : Json.Value) (secrets : ID → Option (Option (SecretShare G))) (pub : Public G),
      args = [file, message] ∧ read file = some data ∧ Verif.Spec.Json.Readable v data ∧ Verif.Spec.Json.KeysIs v secrets (some pub) ∧
      Verif.Spec.Shows (signerTalk (G := G) sha env ord read args).out
        (ascii "(t, n) = (" ++ w.num pub.threshold.toNat ++ ascii ", " ++ w.num (pub.partyIDs.length % 65536) ++ ascii ")\nSuccess: signature is\nr: " ++
          w.hex (RGroup.bytes sig.R) ++ ascii "\ns: " ++ w.hex sig.S.bytes ++ ascii "\n") ∧
      Ed25519.verify sha (PublicKey.toEd25519 pub.groupKey) message (Signature.toEd25519 sig) = .ok true ∧
      PublicKey.verify sha pub.groupKey message sig = .ok true := by
  rcases args with _ | ⟨a₁, _ | ⟨a₂, _ | ⟨a₃, l⟩⟩⟩
  · cases h
  · cases h
  · cases hr : read a₁ with
    | none =>
      unfold signerTalk at h
      simp only [hr] at h
      cases h
    | some data =>
      obtain ⟨pre, h1, _, h3⟩ := signer_out (G := G) (sha := sha) env ord read a₁ a₂ data hr
      obtain ⟨keys, pub, hk, hp, rfl⟩ := h3 sig h
      have hmain : signerMain sha env keys.secrets pub a₂ = .done sig := by
        have h' := h
        rw [C95_signer_ends] at h'
        unfold Json.signer at h'
        simp only [hr] at h'
        unfold Json.signerText at h'
        rw [hk, End.ofRes, Verif.Cmd.done_bind, hp, End.deref, Verif.Cmd.done_bind] at h'
        exact h'
      obtain ⟨v, hv1, hv2⟩ := C84_accepted ord data _ hk
      rw [hp] at hv2
      obtain ⟨w, hw1, hw2⟩ := print
      refine ⟨w, a₁, a₂, data, v, _, pub, rfl, hr, hv1, hv2, ?_, signerMain_printed env _ pub a₂ sig hmain⟩
      rw [h1, h, hw1, hw2]
      refine ⟨[signerHeader pub, lit "Success: signature is\nr: " ++ hex (RGroup.bytes sig.R) ++ lit "\ns: " ++ hex sig.S.bytes ++ lit "\n"], rfl, ?_⟩
      have e : ID.marshalText (IDSlice.N pub.partyIDs) = ID.formatUint (pub.partyIDs.length % 65536) := by
        unfold ID.marshalText IDSlice.N
        rw [UInt16.toNat_ofNat']
      unfold signerHeader
      rw [e, show ascii ")\nSuccess: signature is\nr: " = lit ")\n" ++ lit "Success: signature is\nr: " from rfl]
      simp only [List.flatten_cons, List.flatten_nil, List.append_nil, List.append_assoc]
      rfl
  · cases h

/-! ### What is printed as `r` -/

open Curve

/-- C95, refuted for `r`: whatever the signature, what `cmd/signer` prints after "r:" is not the first half of the signature in the form of RFC
8032, and so what it prints is not this signature. -/
theorem C95_r_is_never_standard (sig : Signature RG) :
    RGroup.bytes sig.R ≠ (Signature.toEd25519 sig).take 32 ∧ RGroup.bytes sig.R ++ sig.S.bytes ≠ Signature.toEd25519 sig := by
  have h := RG.bytes_ne_bytesEd25519 sig.R
  have e : (Signature.toEd25519 sig).take 32 = RGroup.bytesEd25519 sig.R := by
    rw [toEd25519_take, RG.bytesEd25519_def]
  refine ⟨e ▸ h, fun h' => h ?_⟩
  have := congrArg (List.take 32) h'
  rwa [e, List.take_left' (RGroup.bytes_length _)] at this

/-- The challenge that a verifier computes for the two values as they are printed. -/
def Spec.printedChallenge (sha : Sha512) (sig : Signature RG) (A : RG) (m : Bytes) : Scalar :=
  (Spec.leValue (sha.sum (RGroup.bytes sig.R ++ RGroup.bytesEd25519 A ++ m)) : Scalar)

/-- Ed25519 verification of the two values as they are printed. -/
theorem verify_printed (A : RG) (m : Bytes) (sig : Signature RG) :
    Ed25519.verify sha (PublicKey.toEd25519 A) m (RGroup.bytes sig.R ++ sig.S.bytes) = .ok (decide
      (RGroup.bytes sig.R = RGroup.bytesEd25519 (sig.S • (base : RG) - Spec.printedChallenge sha sig A m • A))) := by
  have hA : PublicKey.toEd25519 A = edBytes A.pt := RG.bytesEd25519_def A
  have ht : (RGroup.bytes sig.R ++ sig.S.bytes).take 32 = RGroup.bytes sig.R := List.take_left' (RGroup.bytes_length _)
  have hd : (RGroup.bytes sig.R ++ sig.S.bytes).drop 32 = sig.S.bytes := List.drop_left' (RGroup.bytes_length _)
  have h63 : (RGroup.bytes sig.R ++ sig.S.bytes).getD 63 0 &&& 224 = 0 := by
    have : (RGroup.bytes sig.R ++ sig.S.bytes).getD 63 0 = sig.S.bytes.getD 31 0 := by
      conv_rhs => rw [← hd, List.getD_eq_getElem?_getD, List.getElem?_drop]
      rw [List.getD_eq_getElem?_getD]
    rw [this, top_bits]
  rw [hA, ed25519_verify_eq sha (edBytes_length _) (by rw [List.length_append, RGroup.bytes_length, Scalar.bytes_length]) h63 (setBytes_edBytes A.pt)
    (by rw [hd]; exact Scalar.set_bytes sig.S), ht]
  have hc : Spec.printedChallenge sha sig A m = ((leNat (sha.sum (RGroup.bytes sig.R ++ edBytes A.pt ++ m)) : ℕ) : Scalar) := by
    unfold Spec.printedChallenge
    rw [RG.bytesEd25519_def, leNat_eq_leValue]
  rw [← hc]
  generalize Spec.printedChallenge sha sig A m = c
  have r := rep_add (rep_scalarMult c (rep_negate (rep A.pt))) (rep_scalarMult sig.S rep_generator)
  have e : (sig.S • (base : RG) - c • A).pt = c.val • -A.pt + sig.S.val • B := by
    rw [sub_eq_add_neg, ← smul_neg, add_comm, RG.pt_add, RG.pt_smul, RG.pt_smul, RG.pt_neg]
    rfl
  have hb : RGroup.bytesEd25519 (sig.S • (base : RG) - c • A) = Point.bytes (Point.doubleScalarBaseMult c (Point.negate (affine A.pt)) sig.S) := by
    rw [RG.bytesEd25519_def, e, ← point_bytes r]
    rfl
  rw [hb]

/-- C95: a verifier that takes what is printed for an Ed25519 signature accepts a valid one only if SHA-512 of the printed bytes gives another
challenge than the one the signature was made with, and one certain value for each key other than zero. -/
theorem C95_not_a_signature (A : RG) (m : Bytes) (sig : Signature RG) (hv : PublicKey.verify sha A m sig = .ok true)
    (h : Ed25519.verify sha (PublicKey.toEd25519 A) m (RGroup.bytes sig.R ++ sig.S.bytes) = .ok true) :
    A ≠ 0 ∧ Spec.printedChallenge sha sig A m ≠ Spec.challenge sha sig.R A m ∧
      ∀ c : Scalar, RGroup.bytesEd25519 (sig.R + (Spec.challenge sha sig.R A m - c) • A) = RGroup.bytes sig.R → c = Spec.printedChallenge sha sig A m := by
  obtain ⟨b, h1, h2⟩ := C50_verify_iff sha A m sig
  rw [hv] at h1
  obtain rfl := Outcome.ok.inj h1
  have hS := h2.1 rfl
  rw [verify_printed, Outcome.ok.injEq, decide_eq_true_eq, hS] at h
  have hne := RG.bytes_ne_bytesEd25519 sig.R
  have hA : A ≠ 0 := by
    rintro rfl
    rw [smul_zero, smul_zero, add_zero, sub_zero] at h
    exact hne h
  refine ⟨hA, fun hc => ?_, fun c hc => ?_⟩
  · rw [hc, add_sub_cancel_right] at h
    exact hne h
  · rw [h] at hc
    have := RGroup.bytesEd25519_injective _ _ hc
    rw [add_sub_assoc, ← sub_smul, add_right_inj] at this
    have h0 : (Spec.challenge sha sig.R A m - c - (Spec.challenge sha sig.R A m - Spec.printedChallenge sha sig A m)) • A = 0 := by
      rw [sub_smul, this, sub_self]
    rcases smul_eq_zero.1 h0 with h0 | h0
    · linear_combination -h0
    · exact absurd h0 hA

/-- C95, refuted for what is printed: with the real SHA-512 there is a valid signature of the message "hi" such that Ed25519 rejects the two
values as they are printed. -/
theorem C95_printed_rejected : ∃ (A : RG) (sig : Signature RG), PublicKey.verify sha512 A (ascii "hi") sig = .ok true ∧
    Ed25519.verify sha512 (PublicKey.toEd25519 A) (ascii "hi") (Signature.toEd25519 sig) = .ok true ∧
    Ed25519.verify sha512 (PublicKey.toEd25519 A) (ascii "hi") (RGroup.bytes sig.R ++ sig.S.bytes) = .ok false := by
  have h := C50_complete (G := RG) sha512 1 1 (ascii "hi")
  refine ⟨_, _, h, (C51_crypto_ed25519 _ _ _ _).trans h, ?_⟩
  simp only [one_smul]
  have h1 : RGroup.bytes (base : RG) = Ristretto.bytes Point.generator := stands_generator.bytes.symm
  have h2 : RGroup.bytesEd25519 (base : RG) = Point.bytes Point.generator := by
    have h3 : Ristretto.bytesEd25519 Point.generator = .ok (Point.bytes Point.generator) := by decide +kernel
    have := stands_generator.bytesEd25519
    rw [h3] at this
    exact (Outcome.ok.inj this).symm
  unfold Spec.challenge PublicKey.toEd25519
  rw [h1, h2]
  decide +kernel

/-- C95: the signature in the form of RFC 8032 is found from what is printed: the printed `r` is the canonical ristretto255 encoding of `R`, which
`SetCanonicalBytes` decodes, the printed `s` is the canonical encoding of `S`, and what is printed is the same for no two signatures. -/
theorem C95_recoverable (sig : Signature G) :
    RGroup.setCanonicalBytes (RGroup.bytes sig.R) = some sig.R ∧ Scalar.setCanonicalBytes sig.S.bytes = some sig.S ∧
      ∀ sig' : Signature G, hex (RGroup.bytes sig'.R) ++ hex sig'.S.bytes = hex (RGroup.bytes sig.R) ++ hex sig.S.bytes → sig' = sig := by
  refine ⟨RGroup.set_bytes _, Scalar.set_bytes _, ?_⟩
  intro sig' h
  have hl : ∀ b : Bytes, (hex b).length = 2 * b.length := by
    intro b
    induction b with
    | nil => rfl
    | cons c b ih => simp only [hex, List.length_cons, ih]; omega
  obtain ⟨h1, h2⟩ := List.append_inj h (by rw [hl, hl, RGroup.bytes_length, RGroup.bytes_length])
  have e1 := hexOf_unique (hex_is (RGroup.bytes sig'.R)) (h1 ▸ hex_is (RGroup.bytes sig.R))
  have e2 := hexOf_unique (hex_is sig'.S.bytes) (h2 ▸ hex_is sig.S.bytes)
  obtain ⟨R, S⟩ := sig
  obtain ⟨R', S'⟩ := sig'
  have hR : R' = R := by
    have := RGroup.set_bytes R'
    rw [e1, RGroup.set_bytes] at this
    exact (Option.some.inj this).symm
  have hS : S' = S := by
    have := Scalar.set_bytes S'
    rw [e2, Scalar.set_bytes] at this
    exact (Option.some.inj this).symm
  rw [hR, hS]

/-! ### The file -/

/-- C95, refuted for the file: with arguments that are accepted and a file that cannot be written, `cmd/keygen` prints the new keys and "Success:
output written to keygenout.json", and the file is what it was. -/
theorem C95_write_error_ignored (env : Env) (old : Option Bytes) (a₁ a₂ : Bytes) (t n : Nat) (ha₁ : atoi a₁ = some (t : Int))
    (ha₂ : atoi a₂ = some (n : Int)) (h0 : 0 < t) (h1 : t < n) (h2 : n ≤ 100) :
    Piece.text (ascii "Success: output written to keygenout.json\n") ∈ (keygenTalk (G := G) sha env [a₁, a₂]).out ∧
      keygenFile (G := G) sha env false old [a₁, a₂] = old := by
  constructor
  · rw [keygen_out env a₁ a₂ t n ha₁ ha₂, if_neg (by omega), if_neg (by omega), if_neg (by omega), if_neg (by omega), if_neg (by omega)]
    exact List.mem_append_right _ List.mem_cons_self
  · unfold keygenFile
    cases (keygenTalk (G := G) sha env [a₁, a₂]).result <;> rfl

/-- C95: otherwise the file is the text of the new keys exactly if "Success" is printed, and what it was if not. -/
theorem C95_file (env : Env) (old : Option Bytes) (args : List Bytes) :
    (∀ file, (keygenTalk (G := G) sha env args).result = .done file → keygenFile (G := G) sha env true old args = some (Json.writeFile file)) ∧
      ((∀ b, Piece.text (ascii "Success" ++ b) ∉ (keygenTalk (G := G) sha env args).out) → keygenFile (G := G) sha env true old args = old) := by
  constructor
  · intro file h
    unfold keygenFile
    rw [h]
    rfl
  · intro h
    unfold keygenFile
    cases hr : (keygenTalk (G := G) sha env args).result with
    | done file =>
      obtain ⟨b, hb⟩ := (C95_keygen_success env args).2 ⟨file, hr⟩
      exact absurd hb (h b)
    | _ => rfl

end Verif.Props
