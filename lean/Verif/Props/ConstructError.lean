import Verif.Model.ConstructError
import Verif.Lemmas.ErrorValue
import Verif.Spec.Errors
import Verif.Props.Keygen
import Verif.Props.Sign
import Verif.Props.Eddsa

/-!
C127: what the error of a constructor says.  Concrete cases are in `Verif/Cases/ConstructError.lean`.
-/

namespace Verif.Props

open Verif Verif.Spec Outcome
open Verif.Cmd (lit)

variable {G : Type} [RGroup G] {sha : Sha512}

/-! ### The same results -/

theorem agree_deref {α : Type} (x : Option α) : Agree (Outcome.deref x : Outcome ErrVal α) (Outcome.deref x) := by
  cases x; exacts [.panic, .ok _]

theorem agree_lagrange (id : ID) (ids : List ID) : Agree (ID.lagrangeE id ids) (ID.lagrange id ids) :=
  (Agree.failIf _ _ _).bind fun _ => (Agree.noErr _).bind fun _ => (Agree.noErr _).bind fun _ => (Agree.failIf _ _ _).bind fun _ =>
    (Agree.failIf _ _ _).bind fun _ => .ok _

theorem agree_keygenRound (self : ID) (ids : IDSlice) (t : UInt16) :
    Agree (Keygen.newRoundE self ids t : Outcome ErrVal (Keygen.Round G)) (Keygen.newRound self ids t) :=
  (Agree.failIf _ _ _).bind fun _ => (Agree.failIf _ _ _).bind fun _ => (Agree.failIf _ _ _).bind fun _ => .ok _

theorem agree_setup (ids : IDSlice) (shares : GoMap G) (l : List ID) (m : GoMap (Sign.Signer G)) :
    Agree (Sign.setupLoopE ids shares l m) (Sign.setupLoop ids shares l m) := by
  induction l generalizing m with
  | nil => exact .ok _
  | cons a l ih =>
    exact (Agree.failIf _ _ _).bind fun _ => ((agree_lagrange _ _).wrapErr _).bind fun _ => (agree_deref _).bind fun _ => ih _

theorem agree_signRound (ids : IDSlice) (secret : SecretShare G) (shares : Public G) (message : Bytes) :
    Agree (Sign.newRoundE ids secret shares message) (Sign.newRound ids secret shares message) :=
  (Agree.failIf _ _ _).bind fun _ => (Agree.failIf _ _ _).bind fun _ => ((Agree.failIf _ _ _).wrapErr _).bind fun _ =>
    (agree_setup _ _ _ _).bind fun _ => ((agree_lagrange _ _).wrapErr _).bind fun _ => .ok _

theorem agree_newPublic (ord : MapOrder) (shares : GoMap (Option G)) (t : UInt16) :
    Agree (newPublicE ord shares t) (newPublic ord shares t) :=
  (Agree.noErr _).bind fun _ => (Agree.failIf _ _ _).bind fun _ => .ok _

theorem agree_unmarshalPublic (ord : MapOrder) (out : Public.Json G) :
    Agree (Public.unmarshalJSONE ord out) (Public.unmarshalJSON ord out) :=
  (agree_newPublic _ _ _).bind fun _ => (Agree.noErr _).bind fun _ => (agree_deref _).bind fun _ => (Agree.failIf _ _ _).bind fun _ => .ok _

/-- The constructors that return errors as values construct what the others construct, and panic when they panic. -/
theorem C127_constructors (self : ID) (ids : IDSlice) (t : UInt16) (secret : SecretShare G) (shares : Public G) (message : Bytes)
    (timeout now : Nat) (ord : MapOrder) (m : GoMap (Option G)) (out : Public.Json G) :
    ((∀ s : State G (Keygen.Round G), Keygen.newKeygenStateE sha self ids t timeout now = .ok s ↔
        Keygen.newKeygenState sha self ids t timeout now = .ok s) ∧
      (∀ s, Sign.newSignStateE sha ids secret shares message timeout now = .ok s ↔
        Sign.newSignState sha ids secret shares message timeout now = .ok s) ∧
      (∀ p, newPublicE ord m t = .ok p ↔ newPublic ord m t = .ok p) ∧
      (∀ p, Public.unmarshalJSONE ord out = .ok p ↔ Public.unmarshalJSON ord out = .ok p)) ∧
    (Sign.newSignStateE sha ids secret shares message timeout now = .panic ↔
        Sign.newSignState sha ids secret shares message timeout now = .panic) ∧
    (newPublicE ord m t = .panic ↔ newPublic ord m t = .panic) ∧
    (Public.unmarshalJSONE ord out = .panic ↔ Public.unmarshalJSON ord out = .panic) :=
  have hk : Agree (Keygen.newKeygenStateE sha self ids t timeout now : Outcome ErrVal (State G (Keygen.Round G)))
      (Keygen.newKeygenState sha self ids t timeout now) := (agree_keygenRound _ _ _).bind fun _ => .ok _
  have hs : Agree (Sign.newSignStateE sha ids secret shares message timeout now) (Sign.newSignState sha ids secret shares message timeout now) :=
    (agree_signRound _ _ _ _).bind fun _ => .ok _
  ⟨⟨hk.iff_ok.1, hs.iff_ok.1, (agree_newPublic _ _ _).iff_ok.1, (agree_unmarshalPublic _ _).iff_ok.1⟩, hs.iff_ok.2,
    (agree_newPublic _ _ _).iff_ok.2, (agree_unmarshalPublic _ _).iff_ok.2⟩

/-! ### The texts -/

/-- The constructor returns an error with this text. -/
def Spec.Refuses {α : Type} (lib : Bytes) (x : Outcome ErrVal α) (text : String) : Prop := ∃ e, x = .err e ∧ e.text lib = ascii text

theorem lit_ascii (s : String) : lit s = ascii s := rfl

theorem refuses_err {α : Type} (lib : Bytes) (s s' : String) :
    Spec.Refuses lib (.err (.new (lit s)) : Outcome ErrVal α) s' ↔ ascii s = ascii s' :=
  ⟨fun ⟨_, h, h'⟩ => by cases h; exact h', fun h => ⟨_, rfl, h⟩⟩

theorem not_refuses_ok {α : Type} (lib : Bytes) (a : α) (s : String) : ¬ Spec.Refuses lib (.ok a : Outcome ErrVal α) s := fun ⟨_, h, _⟩ => by cases h
theorem not_refuses_panic {α : Type} (lib : Bytes) (s : String) : ¬ Spec.Refuses lib (.panic : Outcome ErrVal α) s := fun ⟨_, h, _⟩ => by cases h

theorem size_pred {ids : IDSlice} (h1 : 0 < ids.length) (h2 : ids.length < 65536) (t : UInt16) :
    t > IDSlice.N ids - 1 ↔ ids.length ≤ t.toNat := by
  have : (IDSlice.N ids - 1).toNat = ids.length - 1 := by
    unfold IDSlice.N
    rw [UInt16.toNat_sub_of_le]
    · simp [Nat.mod_eq_of_lt h2]
    · rw [UInt16.le_iff_toNat_le]; simp [Nat.mod_eq_of_lt h2]; omega
  rw [gt_iff_lt, UInt16.lt_iff_toNat_lt, this]; omega

/-- `NewKeygenState` for a sorted, non-empty list of fewer than 65536 participants never panics, and its error names the argument at fault:
the threshold is 0, it is not below the number of participants, or the caller is not in the list.  There is no other error. -/
theorem C127_keygen (lib : Bytes) (self : ID) (ids : IDSlice) (t : UInt16) (timeout now : Nat) (hs : ids.Pairwise (· ≤ ·)) (hne : ids ≠ [])
    (hl : ids.length < 65536) :
    let x : Outcome ErrVal (State G (Keygen.Round G)) := Keygen.newKeygenStateE sha self ids t timeout now
    (Spec.Refuses lib x "threshold must be at least 1, or a minimum of T+1=2 signers" ↔ t.toNat = 0) ∧
    (Spec.Refuses lib x "threshold must be at most N-1, or a maximum of T+1=N signers" ↔ ids.length ≤ t.toNat) ∧
    (Spec.Refuses lib x "PartyIDs should contain selfID" ↔ 0 < t.toNat ∧ t.toNat < ids.length ∧ self ∉ ids) ∧
    ((∃ s, x = .ok s) ↔ 0 < t.toNat ∧ t.toNat < ids.length ∧ self ∈ ids) := by
  intro x
  have hpos : 0 < ids.length := List.length_pos_iff.mpr hne
  have hx : x = if t = 0 then .err (.new (lit "threshold must be at least 1, or a minimum of T+1=2 signers")) else
      if t > IDSlice.N ids - 1 then .err (.new (lit "threshold must be at most N-1, or a maximum of T+1=N signers")) else
      if IDSlice.contains ids self = false then .err (.new (lit "PartyIDs should contain selfID")) else
      .ok (State.newBaseState (Keygen.impl sha) (⟨.r0, self, ids, t, 0, none, none, [], true, {}⟩ : Keygen.Round G) timeout now) := by
    show (do let r ← Keygen.newRoundE self ids t; pure (State.newBaseState (Keygen.impl sha) r timeout now)) = _
    unfold Keygen.newRoundE Keygen.newBaseRoundE Outcome.failIf
    split_ifs <;> rfl
  have h0 : t = 0 ↔ t.toNat = 0 := ⟨fun h => by rw [h]; rfl, fun h => UInt16.toNat_inj.mp (by simpa using h)⟩
  have hc : IDSlice.contains ids self = false ↔ self ∉ ids := by rw [IDSlice.contains_eq hs]; simp
  have n1 : ascii "threshold must be at least 1, or a minimum of T+1=2 signers" ≠ ascii "threshold must be at most N-1, or a maximum of T+1=N signers" := by decide
  have n2 : ascii "threshold must be at least 1, or a minimum of T+1=2 signers" ≠ ascii "PartyIDs should contain selfID" := by decide
  have n3 : ascii "threshold must be at most N-1, or a maximum of T+1=N signers" ≠ ascii "PartyIDs should contain selfID" := by decide
  rw [hx]
  split_ifs with h1 h2 h3
  · rw [h0] at h1
    simp only [refuses_err, n1, n2, true_iff, false_iff, reduceCtorEq, exists_false]
    exact ⟨h1, by omega, by omega, by omega⟩
  · rw [h0] at h1; rw [size_pred hpos hl] at h2
    simp only [refuses_err, n1.symm, n3, true_iff, false_iff, reduceCtorEq, exists_false]
    exact ⟨h1, h2, by omega, by omega⟩
  · rw [h0] at h1; rw [size_pred hpos hl] at h2; rw [hc] at h3
    simp only [refuses_err, n2.symm, n3.symm, true_iff, false_iff, reduceCtorEq, exists_false]
    exact ⟨h1, h2, ⟨by omega, by omega, h3⟩, fun h => h3 h.2.2⟩
  · rw [h0] at h1; rw [size_pred hpos hl] at h2; rw [hc, not_not] at h3
    simp only [not_refuses_ok, false_iff, Outcome.ok.injEq, exists_eq', true_iff]
    exact ⟨h1, h2, fun h => h.2.2 h3, by omega, by omega, h3⟩

theorem lagrangeE_mem {id : ID} {ids : List ID} (h0 : id ≠ 0) (hm : id ∈ ids) : ID.lagrangeE id ids = .ok (ID.lagrangeVal id ids) := by
  refine ((agree_lagrange id ids).iff_ok.1 _).mpr ?_
  rw [ID.lagrange_eq, if_neg h0, if_pos hm]

/-- The only error of the loop, for members of the list. -/
theorem setupLoopE_err {ids : IDSlice} {shares : GoMap G} {l : List ID} (hl : ∀ id ∈ l, id ∈ ids) (m : GoMap (Sign.Signer G)) (e : ErrVal)
    (h : Sign.setupLoopE ids shares l m = .err e) : e = .new (lit "base.NewRound: id 0 is not valid") ∧ 0 ∈ l := by
  induction l generalizing m with
  | nil => cases h
  | cons a l ih =>
    unfold Sign.setupLoopE at h
    by_cases h0 : a = 0
    · rw [Outcome.failIf_pos h0] at h
      cases h
      exact ⟨rfl, h0 ▸ List.mem_cons_self⟩
    · rw [Outcome.failIf_neg h0, lagrangeE_mem h0 (hl a List.mem_cons_self)] at h
      cases hg : shares.get? a with
      | none => simp only [hg] at h; cases h
      | some g =>
        simp only [hg] at h
        obtain ⟨h1, h2⟩ := ih (fun id hid => hl id (List.mem_cons_of_mem _ hid)) _ h
        exact ⟨h1, List.mem_cons_of_mem _ h2⟩

/-- What `NewSignState` returns, by its two tests and its loop: the check of `NewBaseRound` and the errors of `Lagrange` never show. -/
theorem newSignStateE_err {ids : IDSlice} {secret : SecretShare G} {shares : Public G} {message : Bytes} {timeout now : Nat} {e : ErrVal}
    (h : Sign.newSignStateE sha ids secret shares message timeout now = .err e) :
    (IDSlice.contains ids secret.id = false ∧ e = .new (lit "base.NewRound: owner of SecretShare is not contained in partyIDs")) ∨
    (IDSlice.contains ids secret.id = true ∧ IDSlice.isSubsetOf ids shares.partyIDs = false ∧
      e = .new (lit "base.NewRound: not all parties of partyIDs are contained in shares")) ∨
    (IDSlice.contains ids secret.id = true ∧ IDSlice.isSubsetOf ids shares.partyIDs = true ∧ 0 ∈ ids ∧
      e = .new (lit "base.NewRound: id 0 is not valid")) := by
  unfold Sign.newSignStateE Sign.newRoundE Keygen.newBaseRoundE at h
  cases h1 : IDSlice.contains ids secret.id with
  | false => rw [Outcome.failIf_pos h1] at h; cases h; exact Or.inl ⟨rfl, rfl⟩
  | true =>
    have hn1 : ¬ IDSlice.contains ids secret.id = false := by rw [h1]; decide
    rw [Outcome.failIf_neg hn1] at h
    refine Or.inr ?_
    cases h2 : IDSlice.isSubsetOf ids shares.partyIDs with
    | false => rw [Outcome.failIf_pos h2] at h; cases h; exact Or.inl ⟨rfl, rfl, rfl⟩
    | true =>
      have hn2 : ¬ IDSlice.isSubsetOf ids shares.partyIDs = false := by rw [h2]; decide
      rw [Outcome.failIf_neg hn2, Outcome.failIf_neg hn1] at h
      simp only [Outcome.wrapErr, Outcome.ok_bind] at h
      refine Or.inr ⟨rfl, rfl, ?_⟩
      cases h3 : Sign.setupLoopE ids shares.shares ids [] with
      | panic => rw [h3] at h; cases h
      | err e' =>
        rw [h3] at h
        cases h
        obtain ⟨a, b⟩ := setupLoopE_err (fun _ h => h) _ _ h3
        exact ⟨b, a⟩
      | ok parties =>
        exfalso
        have hk := (Sign.setupLoop_ok (((agree_setup _ _ _ _).iff_ok.1 _).mp h3)).1
        have hin := IDSlice.contains_sound h1
        rw [h3, lagrangeE_mem (hk _ hin).1 hin] at h
        cases h

/-- The only errors of `NewSignState`, for all arguments, sorted or not: three of the six that `sign.NewRound` can write. -/
theorem C127_sign_only (lib : Bytes) (ids : IDSlice) (secret : SecretShare G) (shares : Public G) (message : Bytes) (timeout now : Nat) (e : ErrVal)
    (he : Sign.newSignStateE sha ids secret shares message timeout now = .err e) :
    e.text lib = ascii "base.NewRound: owner of SecretShare is not contained in partyIDs" ∨
    e.text lib = ascii "base.NewRound: not all parties of partyIDs are contained in shares" ∨
    e.text lib = ascii "base.NewRound: id 0 is not valid" := by
  obtain ⟨_, rfl⟩ | ⟨_, _, rfl⟩ | ⟨_, _, _, rfl⟩ := newSignStateE_err he
  · exact Or.inl rfl
  · exact Or.inr (Or.inl rfl)
  · exact Or.inr (Or.inr rfl)

/-- For sorted lists the error of `NewSignState` names the argument at fault: the caller is not among the signers, a signer has no share, or a
signer has the ID 0. -/
theorem C127_sign (lib : Bytes) (ids : IDSlice) (secret : SecretShare G) (shares : Public G) (message : Bytes) (timeout now : Nat)
    (hs : ids.Pairwise (· ≤ ·)) (hp : shares.partyIDs.Pairwise (· ≤ ·)) :
    let x := Sign.newSignStateE sha ids secret shares message timeout now
    (Spec.Refuses lib x "base.NewRound: owner of SecretShare is not contained in partyIDs" ↔ secret.id ∉ ids) ∧
    (Spec.Refuses lib x "base.NewRound: not all parties of partyIDs are contained in shares" ↔
      secret.id ∈ ids ∧ ∃ id ∈ ids, id ∉ shares.partyIDs) ∧
    (Spec.Refuses lib x "base.NewRound: id 0 is not valid" ↔ secret.id ∈ ids ∧ (∀ id ∈ ids, id ∈ shares.partyIDs) ∧ 0 ∈ ids) := by
  intro x
  have hc : IDSlice.contains ids secret.id = false ↔ secret.id ∉ ids := by rw [IDSlice.contains_eq hs]; simp
  have hc' := IDSlice.contains_iff hs (id := secret.id)
  have hsub := C06_isSubsetOf_iff ids hp
  have hsub' : IDSlice.isSubsetOf ids shares.partyIDs = false ↔ ∃ id ∈ ids, id ∉ shares.partyIDs := by
    rw [← Bool.not_eq_true, hsub]; push Not; rfl
  have n1 : ascii "base.NewRound: owner of SecretShare is not contained in partyIDs" ≠
    ascii "base.NewRound: not all parties of partyIDs are contained in shares" := by decide
  have n2 : ascii "base.NewRound: owner of SecretShare is not contained in partyIDs" ≠ ascii "base.NewRound: id 0 is not valid" := by decide
  have n3 : ascii "base.NewRound: not all parties of partyIDs are contained in shares" ≠ ascii "base.NewRound: id 0 is not valid" := by decide
  refine ⟨⟨?_, ?_⟩, ⟨?_, ?_⟩, ⟨?_, ?_⟩⟩
  · rintro ⟨e, he, ht⟩
    obtain ⟨h, rfl⟩ | ⟨_, _, rfl⟩ | ⟨_, _, _, rfl⟩ := newSignStateE_err he
    · exact hc.mp h
    · exact absurd ht n1.symm
    · exact absurd ht n2.symm
  · intro h
    refine ⟨.new (lit "base.NewRound: owner of SecretShare is not contained in partyIDs"), ?_, rfl⟩
    show Sign.newSignStateE sha ids secret shares message timeout now = _
    unfold Sign.newSignStateE Sign.newRoundE
    rw [Outcome.failIf_pos (hc.mpr h)]; rfl
  · rintro ⟨e, he, ht⟩
    obtain ⟨h, rfl⟩ | ⟨h1, h2, rfl⟩ | ⟨_, _, _, rfl⟩ := newSignStateE_err he
    · exact absurd ht n1
    · exact ⟨hc'.mp h1, hsub'.mp h2⟩
    · exact absurd ht n3.symm
  · rintro ⟨h1, h2⟩
    refine ⟨.new (lit "base.NewRound: not all parties of partyIDs are contained in shares"), ?_, rfl⟩
    show Sign.newSignStateE sha ids secret shares message timeout now = _
    unfold Sign.newSignStateE Sign.newRoundE
    rw [Outcome.failIf_neg (fun h => hc.mp h h1), Outcome.ok_bind, Outcome.failIf_pos (hsub'.mpr h2)]; rfl
  · rintro ⟨e, he, ht⟩
    obtain ⟨h, rfl⟩ | ⟨_, _, rfl⟩ | ⟨h1, h2, h3, rfl⟩ := newSignStateE_err he
    · exact absurd ht n2
    · exact absurd ht n3
    · exact ⟨hc'.mp h1, hsub.mp h2, h3⟩
  · rintro ⟨h1, h2, h3⟩
    refine ⟨.new (lit "base.NewRound: id 0 is not valid"), ?_, rfl⟩
    show Sign.newSignStateE sha ids secret shares message timeout now = _
    unfold Sign.newSignStateE Sign.newRoundE Keygen.newBaseRoundE
    have hn1 : ¬ IDSlice.contains ids secret.id = false := fun h => hc.mp h h1
    have hn2 : ¬ IDSlice.isSubsetOf ids shares.partyIDs = false := by rw [hsub.mpr h2]; decide
    rw [Outcome.failIf_neg hn1, Outcome.ok_bind, Outcome.failIf_neg hn2, Outcome.ok_bind, Outcome.failIf_neg hn1]
    obtain ⟨l, rfl⟩ : ∃ l, ids = 0 :: l := by
      cases ids with
      | nil => cases h3
      | cons a l =>
        rcases List.mem_cons.mp h3 with h | h
        · exact ⟨l, by rw [h]⟩
        · have : a ≤ 0 := (List.pairwise_cons.mp hs).1 0 h
          rw [UInt16.le_iff_toNat_le] at this
          have : a = 0 := UInt16.toNat_inj.mp (by simpa using this)
          exact ⟨l, by rw [this]⟩
    rfl

/-- With a key made by `NewPublic` the third error cannot occur: such a key has no share for the ID 0. -/
theorem C127_sign_made (lib : Bytes) (ids : IDSlice) (secret : SecretShare G) (ord : MapOrder) (m : GoMap (Option G)) (hwf : m.WF) (t : UInt16)
    (shares : Public G) (hm : newPublic ord m t = .ok shares) (message : Bytes) (timeout now : Nat) :
    ¬ Spec.Refuses lib (Sign.newSignStateE sha ids secret shares message timeout now) "base.NewRound: id 0 is not valid" := by
  rintro ⟨e, he, ht⟩
  obtain ⟨_, rfl⟩ | ⟨_, _, rfl⟩ | ⟨_, h2, h3, rfl⟩ := newSignStateE_err he
  · exact absurd (show ascii _ = ascii _ from ht) (by decide)
  · exact absurd (show ascii _ = ascii _ from ht) (by decide)
  · have h0 := (not_congr (C54_newPublic_panics_iff ord m hwf t)).mp (by rw [hm]; intro h; cases h)
    push Not at h0
    have hin : (0 : ID) ∈ shares.partyIDs := by
      rw [IDSlice.isSubsetOf_iff_contains] at h2
      exact IDSlice.contains_sound (h2 0 h3)
    unfold newPublic at hm
    simp only [bind_eq_ok, failIf_eq_ok, pure_def, Outcome.ok.injEq] at hm
    obtain ⟨_, _, _, _, rfl⟩ := hm
    have hin : (0 : ID) ∈ IDSlice.new (ord.order _ m).keys := hin
    rw [IDSlice.mem_new] at hin
    exact h0.1 (((ord.perm _ m).map Prod.fst).mem_iff.mp hin)

theorem computeGroupKeyLoop_err (ids : IDSlice) (m : GoMap (Option G)) (l : List ID) (g : G) (e : GoErr) :
    computeGroupKeyLoop ids m l g ≠ .err e := by
  induction l generalizing g with
  | nil => intro h; cases h
  | cons a l ih =>
    intro h
    unfold computeGroupKeyLoop at h
    split at h
    · cases hg : (m.get? a).join with
      | none => rw [hg] at h; cases h
      | some x => rw [hg] at h; exact ih _ h
    · cases h

/-- `NewPublic` has one error.  It is returned, for shares that are all there and at most 65535 of them, when the threshold is not below
the number of shares. -/
theorem C127_public (lib : Bytes) (ord : MapOrder) (m : GoMap (Option G)) (hwf : m.WF) (t : UInt16) (ht : t ≠ 65535)
    (h0 : (0 : ID) ∉ m.keys) (hn : ∀ i ∈ m.keys, m.get? i ≠ some none) :
    Spec.Refuses lib (newPublicE ord m t) "PublicShares: Threshold should be < N - 1" ↔ m.length ≤ t.toNat := by
  have hiff := C54_newPublic_iff_partial ord m hwf t ht
  have hpan := C54_newPublic_panics_iff ord m hwf t
  have hag := (agree_newPublic ord m t).iff_ok
  constructor
  · rintro ⟨e, he, _⟩
    by_contra hlt
    obtain ⟨p, hp⟩ := hiff.mpr ⟨h0, hn, by omega⟩
    rw [(hag.1 p).mpr hp] at he
    cases he
  · intro hle
    cases hx : newPublicE ord m t with
    | ok p =>
      have := (hiff.mp ⟨p, (hag.1 p).mp hx⟩).2.2
      omega
    | panic =>
      rcases hpan.mp (hag.2.mp hx) with h | ⟨i, hi, h⟩
      · exact absurd h h0
      · exact absurd h (hn i hi)
    | err e =>
      refine ⟨e, rfl, ?_⟩
      unfold newPublicE at hx
      cases hg : computeGroupKey (IDSlice.new (ord.order _ m).keys) m with
      | panic => simp only [hg] at hx; cases hx
      | err e' =>
        exfalso
        exact computeGroupKeyLoop_err _ _ _ _ _ hg
      | ok g =>
        simp only [hg, Outcome.noErr, Outcome.ok_bind] at hx
        unfold Outcome.failIf at hx
        split_ifs at hx
        · cases hx; rfl
        · cases hx

/-- Reading a key back fails with "inconsistent group key" exactly when `NewPublic` makes a key of the shares and the group key that was read is
another one. -/
theorem C127_json (lib : Bytes) (ord : MapOrder) (out : Public.Json G) :
    Spec.Refuses lib (Public.unmarshalJSONE ord out) "PublicShares: inconsistent group key" ↔
      ∃ p K, newPublic ord out.shares (UInt16.ofNat (out.threshold % 65536).toNat) = .ok p ∧ out.groupKey = some K ∧ K ≠ p.groupKey := by
  have hag := agree_newPublic ord out.shares (UInt16.ofNat (out.threshold % 65536).toNat)
  have hkey : ∀ p, newPublic ord out.shares (UInt16.ofNat (out.threshold % 65536).toNat) = .ok p →
      computeGroupKey p.partyIDs out.shares = .ok p.groupKey := by
    intro p hp
    unfold newPublic at hp
    simp only [bind_eq_ok, failIf_eq_ok, pure_def, Outcome.ok.injEq] at hp
    obtain ⟨_, h, _, _, rfl⟩ := hp
    exact h
  constructor
  · rintro ⟨e, he, ht⟩
    unfold Public.unmarshalJSONE at he
    cases hx : newPublicE ord out.shares (UInt16.ofNat (out.threshold % 65536).toNat) with
    | panic => rw [hx] at he; cases he
    | err e' =>
      exfalso
      rw [hx] at he
      cases he
      unfold newPublicE at hx
      cases hg : computeGroupKey (IDSlice.new (ord.order _ out.shares).keys) out.shares with
      | panic => simp only [hg] at hx; cases hx
      | err e' => exact computeGroupKeyLoop_err _ _ _ _ _ hg
      | ok g =>
        simp only [hg, Outcome.noErr, Outcome.ok_bind] at hx
        unfold Outcome.failIf at hx
        split_ifs at hx
        · cases hx; exact absurd (show ascii _ = ascii _ from ht) (by decide)
        · cases hx
    | ok p =>
      have hp := (hag.iff_ok.1 p).mp hx
      rw [hx, Outcome.ok_bind, hkey p hp] at he
      cases hK : out.groupKey with
      | none => rw [hK] at he; cases he
      | some K =>
        refine ⟨p, K, hp, rfl, ?_⟩
        rintro rfl
        rw [hK] at he
        simp only [Outcome.noErr, Outcome.ok_bind, Outcome.deref_some, PublicKey.equal, decide_true, Bool.true_eq_false, Outcome.failIf_False] at he
        cases he
  · rintro ⟨p, K, hp, hK, hne⟩
    refine ⟨.new (lit "PublicShares: inconsistent group key"), ?_, rfl⟩
    unfold Public.unmarshalJSONE
    rw [(hag.iff_ok.1 p).mpr hp, Outcome.ok_bind, hkey p hp, hK]
    simp only [Outcome.noErr, Outcome.ok_bind, Outcome.deref_some]
    rw [Outcome.failIf_pos (by simp [PublicKey.equal, Ne.symm hne])]
    rfl

/-- What the error of `NewPublic` says is not what it tests: a threshold of `N - 1` is not `< N - 1`, and is accepted whatever the shares. -/
theorem C127_public_text_refuted (ord : MapOrder) (m : GoMap (Option G)) (hwf : m.WF) (h0 : (0 : ID) ∉ m.keys)
    (hn : ∀ i ∈ m.keys, m.get? i ≠ some none) (t : UInt16) (ht : t.toNat + 1 = m.length) (ht' : t ≠ 65535) :
    ¬ t.toNat < m.length - 1 ∧ ∃ p, newPublicE ord m t = .ok p ∧ p.threshold = t := by
  refine ⟨by omega, ?_⟩
  obtain ⟨p, hp⟩ := (C54_newPublic_iff_partial ord m hwf t ht').mpr ⟨h0, hn, by omega⟩
  refine ⟨p, ((agree_newPublic ord m t).iff_ok.1 p).mpr hp, ?_⟩
  unfold newPublic at hp
  simp only [bind_eq_ok, failIf_eq_ok, pure_def, Outcome.ok.injEq] at hp
  obtain ⟨_, _, _, _, rfl⟩ := hp
  rfl

end Verif.Props
