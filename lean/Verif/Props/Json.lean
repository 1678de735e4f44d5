import Verif.Lemmas.JsonWrite
import Verif.Props.Cmd
import Verif.Lemmas.Toy

/-!
C81–C84: the JSON text of keys.
-/

namespace Verif.Props

open Verif.Json Verif.Spec.Json

variable {G : Type} [RGroup G] {sha : Sha512}

/-! ### C81 -/

/-- C81: the reader accepts exactly the texts of RFC 8259 that are not nested more than 10000 deep, and makes of them what the grammar
says. -/
theorem C81_reads_grammar (b : Bytes) (v : Value) : parse b = some v ↔ Document v b ∧ Nested 10000 v := parse_iff b v

/-- C81: no text means two values. -/
theorem C81_unambiguous {b : Bytes} {v v' : Value} (h : Document v b) (h' : Document v' b) : v = v' := document_unique h h'

/-- C81: strings mean what section 7 of RFC 8259 says, with all escapes; what is not UTF-8 and halves of pairs of surrogates are replaced. -/
theorem C81_strings {raw t : Bytes} (h : Means raw t) : parse (0x22 :: raw ++ [0x22]) = some (.str t) :=
  (parse_iff _ _).mpr ⟨⟨[], _, [], by simp, Ws.nil, .str h, Ws.nil⟩, .str⟩

/-- C81: whatever bytes stand between the quotes, if they may stand there, they mean exactly one string, and that is UTF-8. -/
theorem C81_every_string {raw : Bytes} (h : Chars raw) : ∃ t, Means raw t ∧ (∀ t', Means raw t' → t' = t) ∧
    ∃ cs : List Char, t = cs.flatMap String.utf8EncodeChar := by
  refine ⟨_, means_unquote h, fun t' h' => (unquote_means h').symm, ?_⟩
  have hm := means_unquote h
  generalize unquote raw = t at hm
  induction hm with
  | nil => exact ⟨[], rfl⟩
  | @char c _ _ _ _ _ hs ih => obtain ⟨cs, rfl⟩ := ih (means_chars hs); exact ⟨c :: cs, rfl⟩
  | @esc c d _ _ hd hs ih =>
    obtain ⟨cs, rfl⟩ := ih (means_chars hs)
    simp only [List.mem_cons, Prod.mk.injEq, List.not_mem_nil, or_false] at hd
    rcases hd with ⟨-, rfl⟩ | ⟨-, rfl⟩ | ⟨-, rfl⟩ | ⟨-, rfl⟩ | ⟨-, rfl⟩ | ⟨-, rfl⟩ | ⟨-, rfl⟩ | ⟨-, rfl⟩
    · exact ⟨'"' :: cs, rfl⟩
    · exact ⟨'\\' :: cs, rfl⟩
    · exact ⟨'/' :: cs, rfl⟩
    · exact ⟨'\x08' :: cs, rfl⟩
    · exact ⟨'\x0C' :: cs, rfl⟩
    · exact ⟨'\n' :: cs, rfl⟩
    · exact ⟨'\r' :: cs, rfl⟩
    · exact ⟨'\t' :: cs, rfl⟩
  | @unicode c _ _ _ _ hs ih => obtain ⟨cs, rfl⟩ := ih (means_chars hs); exact ⟨c :: cs, rfl⟩
  | @pair c _ _ _ _ _ _ _ hs ih => obtain ⟨cs, rfl⟩ := ih (means_chars hs); exact ⟨c :: cs, rfl⟩
  | bad _ _ hs ih => obtain ⟨cs, rfl⟩ := ih (means_chars hs); exact ⟨'\uFFFD' :: cs, rfl⟩
  | alone _ _ _ _ hs ih => obtain ⟨cs, rfl⟩ := ih (means_chars hs); exact ⟨'\uFFFD' :: cs, rfl⟩

/-- Empty arrays inside each other. -/
def Spec.brackets : Nat → Value
  | 0 => .arr []
  | n + 1 => .arr [Spec.brackets n]

theorem brackets_text (n : Nat) : Text (Spec.brackets n) (List.replicate (n + 1) 0x5B ++ List.replicate (n + 1) 0x5D) := by
  induction n with
  | zero => exact .noElems (w := []) Ws.nil
  | succ n ih =>
    have := Text.arr (.one Ws.nil ih Ws.nil)
    rw [Spec.brackets, List.replicate_succ, List.replicate_succ' (n := n + 1)]
    simpa using this

theorem brackets_nested (n m : Nat) : Nested m (Spec.brackets n) ↔ n < m := by
  induction n generalizing m with
  | zero =>
    constructor
    · intro h; cases h; omega
    · intro h
      obtain ⟨m, rfl⟩ := Nat.exists_eq_succ_of_ne_zero (by omega : m ≠ 0)
      exact .arr (fun v hv => by cases hv)
  | succ n ih =>
    constructor
    · intro h
      cases h with
      | @arr m _ h =>
        have := (ih m).mp (h _ (List.mem_cons_self ..))
        omega
    · intro h
      obtain ⟨m, rfl⟩ := Nat.exists_eq_succ_of_ne_zero (by omega : m ≠ 0)
      exact .arr (fun v hv => by rw [List.mem_singleton.mp hv]; exact (ih m).mpr (by omega))

/-- C81: of `n` brackets the reader accepts up to 10000. -/
theorem C81_depth (n : Nat) :
    parse (List.replicate (n + 1) 0x5B ++ List.replicate (n + 1) 0x5D) = if n + 1 ≤ 10000 then some (Spec.brackets n) else none := by
  have hd : Document (Spec.brackets n) (List.replicate (n + 1) 0x5B ++ List.replicate (n + 1) 0x5D) :=
    ⟨[], _, [], by simp, Ws.nil, brackets_text n, Ws.nil⟩
  split
  · exact (parse_iff _ _).mpr ⟨hd, (brackets_nested _ _).mpr (by omega)⟩
  · cases hp : parse (List.replicate (n + 1) 0x5B ++ List.replicate (n + 1) 0x5D) with
    | none => rfl
    | some v =>
      obtain ⟨h1, h2⟩ := (parse_iff _ _).mp hp
      rw [document_unique h1 hd, brackets_nested] at h2
      omega

example : (parse (ascii " { \"a\" : [ 1, -2.5e+3 , true ],\n\"a\":null } ")).map compact = some (ascii "{\"a\":[1,-2.5e+3,true],\"a\":null}") := by
  decide +kernel
example : (parse (ascii "[01]")).map compact = none := by decide +kernel
example : (parse (ascii "{\"a\":1,}")).map compact = none := by decide +kernel
example : (parse (ascii "\"\\u00e9\\uD834\\uDD1E\\n\"")).map compact = some ([0x22, 0xC3, 0xA9, 0xF0, 0x9D, 0x84, 0x9E, 0x0A, 0x22]) := by
  decide +kernel

/-! ### C82 -/

theorem writing : ∃ w : Writing, w.num = ID.formatUint ∧ w.base64 = Base64.encode :=
  ⟨⟨ID.formatUint, fun n => ⟨formatUint_intPart n, formatUint_decimal n⟩, Base64.encode, fun b => (Base64.encode_iff _ _).mp rfl⟩, rfl, rfl⟩

theorem formatInt_nat (n : Nat) : formatInt (n : Int) = ID.formatUint n := by
  unfold formatInt
  rw [if_neg (by omega), Int.natAbs_natCast]

/-- C82: the text that `MarshalJSON` writes for a secret share. -/
theorem C82_text (sk : SecretShare G) : ∃ w : Writing,
    writeSecretShare sk = ascii "{\"id\":" ++ w.num sk.id.toNat ++ ascii ",\"secret\":\"" ++ w.base64 sk.secret.bytes ++ ascii "\"}" := by
  obtain ⟨w, h1, h2⟩ := writing
  refine ⟨w, ?_⟩
  unfold writeSecretShare ofSecretShare SecretShare.marshalJSON
  rw [h1, h2, formatInt_nat]
  simp [compact, compactMembers, quote, nameID, nameSecret, ascii]

/-- C82: bytes are accepted as the secret share `sk` exactly when they are a JSON text that says so: an object whose members named `id` and
`secret`, up to case, are integers or null, and base64 or arrays of bytes, the last ones being the ID, modulo 65536, and the 32 bytes of
the secret. -/
theorem C82_accepts (b : Bytes) (sk : SecretShare G) : readSecretShare b = .ok sk ↔ ∃ v, Readable v b ∧ SecretShareIs v sk := by
  unfold readSecretShare
  cases h : parse b with
  | none =>
    constructor
    · intro h; cases h
    · rintro ⟨v, h1, _⟩
      rw [(parse_iff _ _).mpr h1] at h
      cases h
  | some v =>
    simp only [secretShare_iff]
    constructor
    · exact fun h' => ⟨v, (parse_iff _ _).mp h, h'⟩
    · rintro ⟨v', h1, h2⟩
      rw [(parse_iff _ _).mpr h1] at h
      cases h
      exact h2

theorem nested_flat {l : List (Bytes × Value)} (n : Nat) (h : ∀ p ∈ l, Nested n p.2) : Nested (n + 1) (.obj l) := .obj h

theorem Nested.mono {n m : Nat} {v : Value} (h : Nested n v) (hnm : n ≤ m) : Nested m v :=
  nested_of_depth _ _ ((depth_of_nested h).trans hnm)

theorem ofSecretShare_nested (j : SecretShare.Json) : Nested 1 (ofSecretShare j) := by
  refine .obj fun p hp => ?_
  simp only [List.mem_cons, List.not_mem_nil, or_false] at hp
  rcases hp with rfl | rfl
  · exact .num
  · exact .str

/-- C82: what was written is read back, also after it was laid out differently. -/
theorem C82_roundtrip (id : ID) (s : Scalar) (b : Bytes) (h : Document (ofSecretShare (SecretShare.marshalJSON (SecretShare.new id s : SecretShare G))) b) :
    readSecretShare (G := G) b = .ok (SecretShare.new id s) :=
  (C82_accepts b _).mpr ⟨_, ⟨h, Nested.mono (ofSecretShare_nested _) (by omega)⟩, ofSecretShare_is _ rfl⟩

/-- C82: in particular the bytes written. -/
theorem C82_roundtrip_bytes (id : ID) (s : Scalar) :
    readSecretShare (G := G) (writeSecretShare (SecretShare.new id s : SecretShare G)) = .ok (SecretShare.new id s) :=
  C82_roundtrip id s _ ⟨[], _, [], by simp [writeSecretShare], Ws.nil, compact_text _ (ofSecretShare_plain _), Ws.nil⟩

/-- C82: no bytes make it panic. -/
theorem C82_no_panic (b : Bytes) : readSecretShare (G := G) b ≠ .panic := by
  have hj : ∀ out, SecretShare.unmarshalJSON (G := G) out ≠ .panic := by
    intro out
    unfold SecretShare.unmarshalJSON
    cases Scalar.setCanonicalBytes out.secret <;> simp
  unfold readSecretShare
  cases parse b with
  | none => simp
  | some v =>
    simp only
    unfold secretShare
    split
    · split
      · simp
      · exact hj _
    · exact hj _
    · simp

/-- C82, refuted for the ID: it need not be there, and may be any integer of 64 bits; it is read as 0 and modulo 65536. -/
theorem C82_id_missing (s : Scalar) : readSecretShare (G := G) (compact (.obj [(ascii "secret", .str (Base64.encode s.bytes))])) =
    .ok (SecretShare.new 0 s) := by
  refine (C82_accepts _ _).mpr ⟨.obj [(ascii "secret", .str (Base64.encode s.bytes))], ⟨⟨[], _, [], by simp, Ws.nil, compact_text _ ?_, Ws.nil⟩, ?_⟩, _, 0, rfl, ?_, ?_,
    ⟨0, rfl⟩, rfl⟩
  · rw [Plain, PlainMembers, PlainMembers, Plain]
    exact ⟨plain_name (by decide), encode_plain _, trivial⟩
  · refine Nested.mono (n := 1) (.obj fun p hp => ?_) (by omega)
    rw [List.mem_singleton.mp hp]
    exact .str
  · have : ∀ p ∈ [(ascii "secret", Value.str (Base64.encode s.bytes))], ¬ Names (ascii "id") p.1 := by
      intro p hp
      rw [List.mem_singleton.mp hp]
      exact not_names (k := ascii "secret") (by decide) (by decide) (by decide)
    exact ⟨fun p hp hn => absurd hn (this p hp), Or.inr ⟨fun p hp hn => absurd hn (this p hp), rfl⟩⟩
  · exact FieldIs.once (l₁ := []) (names_refl _) (Or.inr (Or.inl ⟨_, rfl, encode_is _⟩)) (by simp) (by simp)

example : writeSecretShare (SecretShare.new 7 1 : SecretShare Toy) =
    ascii "{\"id\":7,\"secret\":\"AQAAAAAAAAAAAAAAAAAAAAAAAAAAAAAAAAAAAAAAAAA=\"}" := by decide +kernel

/-- The secret as an array of bytes, its name with a long s; the last number given for the ID counts, modulo 65536. -/
example : (match readSecretShare (G := Toy) (ascii "{\"" ++ [0xC5, 0xBF] ++
      ascii "ecret\":[1,0,0,0,0,0,0,0,0,0,0,0,0,0,0,0,0,0,0,0,0,0,0,0,0,0,0,0,0,0,0,null], \"iD\":5, \"x\":{}, \"Id\":65543, \"id\":null}") with
    | .ok sk => some (sk.id, sk.secret)
    | _ => none) = some (7, 1) := by decide +kernel

/-! ### C83 -/

theorem compactMembers_join (l : List (Bytes × Value)) :
    compactMembers l = List.intercalate [44] (l.map fun p => quote p.1 ++ 58 :: compact p.2) := by
  induction l with
  | nil => rfl
  | cons p l ih =>
    obtain ⟨k, v⟩ := p
    cases l with
    | nil => simp [compactMembers]
    | cons q l =>
      rw [compactMembers, ih]
      · simp
      · simp

/-- C83: the text that `MarshalJSON` writes for the public data of a key: the shares in the order of their IDs as strings. -/
theorem C83_text (p : Public G) (hwf : p.shares.WF) : ∃ (w : Writing) (es : List (ID × G)), es.Perm p.shares ∧
    es.Pairwise (fun x y => List.Lex (· < ·) (w.num x.1.toNat) (w.num y.1.toNat)) ∧
    writePublic p = ascii "{\"t\":" ++ w.num p.threshold.toNat ++ ascii ",\"groupkey\":\"" ++ w.base64 (RGroup.bytes p.groupKey) ++
      ascii "\",\"shares\":{" ++ List.intercalate (ascii ",") (es.map fun e => ascii "\"" ++ w.num e.1.toNat ++ ascii "\":\"" ++ w.base64 (RGroup.bytes e.2) ++ ascii "\"") ++
      ascii "}}" := by
  obtain ⟨w, h1, h2⟩ := writing
  refine ⟨w, sortedEntries p.shares, sortedEntries_perm _, ?_, ?_⟩
  · rw [h1]; exact sortedEntries_sorted hwf
  · unfold writePublic ofPublic Public.marshalJSON
    have hm : mapMembers ofElement (p.shares.map fun (x : ID × G) => match x with | (id, g) => (id, some g)) =
        (sortedEntries p.shares).map fun e => (ID.marshalText e.1, ofElement (some e.2)) := by
      rw [← mapMembers_eq (fun g => ofElement (some g)) p.shares]
      unfold mapMembers
      rw [List.map_map]
      rfl
    rw [hm, h1, h2, formatInt_nat]
    have hc : ∀ e : ID × G, (quote (ID.marshalText e.1) ++ 58 :: compact (ofElement (some e.2))) =
        ascii "\"" ++ ID.formatUint e.1.toNat ++ ascii "\":\"" ++ Base64.encode (RGroup.bytes e.2) ++ ascii "\"" := by
      intro e
      simp [quote, ID.marshalText, ofElement, compact, ascii]
    simp only [compact, compactMembers, compactMembers_join ((sortedEntries p.shares).map _), List.map_map, Function.comp_def, hc]
    simp [quote, nameT, nameGroupKey, nameSharesMap, ascii, ofElement, compact]

/-- C83: what the bytes say is what is read. -/
theorem C83_accepted (ord : MapOrder) (b : Bytes) (p : Public G) (h : readPublic ord b = .ok p) : ∃ v, Readable v b ∧ PublicIs v p := by
  unfold readPublic at h
  cases hp : parse b with
  | none => rw [hp] at h; cases h
  | some v =>
    rw [hp] at h
    exact ⟨v, (parse_iff _ _).mp hp, publicJson_sound h⟩

/-- C83: bytes that say what a valid key is are read, whatever the order of iteration. -/
theorem C83_accepts (ord : MapOrder) (b : Bytes) (v : Value) (p : Public G) (h : Readable v b) (hv : PublicIs v p) :
    ∃ p', readPublic ord b = .ok p' ∧ SamePublic p' p := by
  unfold readPublic
  rw [(parse_iff _ _).mpr h]
  exact publicJson_complete ord hv

theorem ofPublic_nested (j : Public.Json G) : Nested 2 (ofPublic j) := by
  have he : ∀ o : Option G, Nested 0 (ofElement o) := by
    intro o
    cases o with
    | none => exact .null
    | some g => exact .str
  refine .obj fun p hp => ?_
  simp only [List.mem_cons, List.not_mem_nil, or_false] at hp
  rcases hp with rfl | rfl | rfl
  · exact .num
  · exact Nested.mono (he _) (by omega)
  · refine .obj fun p hp => ?_
    rw [mapMembers_eq] at hp
    obtain ⟨e, _, rfl⟩ := List.mem_map.mp hp
    exact he _

/-- C83: the data of a valid key is read back from what was written, also after it was laid out differently. -/
theorem C83_roundtrip (ord : MapOrder) (p : Public G) (hwf : p.shares.WF) (h0 : p.shares.get? 0 = none) (hlt : p.partyIDs.Pairwise (· < ·))
    (hids : ∀ id, id ∈ p.partyIDs ↔ ∃ g, p.shares.get? id = some g) (ht : p.threshold = 65535 ∨ p.threshold.toNat + 1 ≤ p.partyIDs.length)
    (hint : Interpolates p.partyIDs.length p.shares.get? p.groupKey) (b : Bytes) (h : Document (ofPublic (Public.marshalJSON p)) b) :
    ∃ p', readPublic ord b = .ok p' ∧ SamePublic p' p :=
  C83_accepts ord b _ p ⟨h, Nested.mono (ofPublic_nested _) (by omega)⟩ (ofPublic_is p hwf h0 hlt hids ht hint)

/-- C83: what `NewPublic` returns is read back from what `MarshalJSON` writes, also after it was laid out differently, with any two orders of
iteration. -/
theorem C83_roundtrip_newPublic_layout (ord ord' : MapOrder) (m : GoMap G) (hwf : m.WF) (t : UInt16) (p : Public G)
    (h : newPublic ord (m.map fun e => (e.1, some e.2)) t = .ok p) (b : Bytes) (hb : Document (ofPublic (Public.marshalJSON p)) b) :
    ∃ p', readPublic ord' b = .ok p' ∧ SamePublic p' p := by
  have h0 : (0 : ID) ∉ m.keys := by
    intro h0
    have hwf' : GoMap.WF (m.map fun e => (e.1, some e.2)) := by unfold GoMap.WF; rw [GoMap.keys_map]; exact hwf
    rw [(newPublic_panic_iff ord _ hwf' t).mpr (Or.inl (by rw [GoMap.keys_map]; exact h0))] at h
    cases h
  rw [newPublic_eq ord m hwf h0] at h
  split_ifs at h with hc
  obtain rfl := Outcome.ok.inj h
  have hl : (IDSlice.new m.keys).length = m.length := by rw [(IDSlice.new_perm _).length_eq, GoMap.keys_length]
  obtain ⟨h1, h2⟩ := (new_iff hwf).mp rfl
  refine C83_roundtrip ord' ⟨IDSlice.new m.keys, t, m, interp m⟩ hwf (GoMap.get?_eq_none.mpr h0) h1 h2 ?_ ?_ b hb
  · show t = 65535 ∨ t.toNat + 1 ≤ (IDSlice.new m.keys).length
    rw [hl]
    by_cases h65 : t = 65535
    · exact Or.inl h65
    · exact Or.inr (Nat.le_of_not_lt fun h => hc ⟨h65, h⟩)
  · show Interpolates (IDSlice.new m.keys).length m.get? (interp m)
    rw [hl]
    exact (interp_iff m hwf _).mp rfl

/-- C83: what `NewPublic` returns is read back from the bytes that `MarshalJSON` writes, with any two orders of iteration. -/
theorem C83_roundtrip_newPublic (ord ord' : MapOrder) (m : GoMap G) (hwf : m.WF) (t : UInt16) (p : Public G)
    (h : newPublic ord (m.map fun e => (e.1, some e.2)) t = .ok p) : ∃ p', readPublic ord' (writePublic p) = .ok p' ∧ SamePublic p' p :=
  C83_roundtrip_newPublic_layout ord ord' m hwf t p h _
    ⟨[], _, [], by simp [writePublic], Ws.nil, compact_text _ (ofPublic_plain _), Ws.nil⟩

/-- The value read from a text without escapes. -/
theorem parse_plain {v : Value} (h : Plain v) (hd : Nested 10000 v) {b : Bytes} (hb : compact v = b) : parse b = some v := hb ▸ parse_compact h hd

/-- C83, refuted: a null share crashes it, and so does a share for ID 0. -/
theorem C83_null_share_panics (ord : MapOrder) : readPublic (G := G) ord (ascii "{\"shares\":{\"1\":null}}") = .panic := by
  unfold readPublic
  rw [parse_plain (v := .obj [(ascii "shares", .obj [(ascii "1", .null)])]) ?_ ?_ (by decide +kernel)]
  · have hm : publicMembers (G := G) [(ascii "shares", .obj [(ascii "1", .null)])] ⟨0, none, []⟩ false = .ok (⟨0, none, [(1, none)]⟩, false) := rfl
    simp only [publicJson, hm, Outcome.ok_bind, Bool.false_eq_true, if_false]
    unfold Public.unmarshalJSON
    rw [(newPublic_panic_iff ord _ (by simp [GoMap.WF, GoMap.keys]) _).mpr (Or.inr ⟨1, by simp [GoMap.keys], rfl⟩)]
    rfl
  · simp only [Plain, PlainMembers, and_true]
    exact ⟨plain_name (by decide), plain_name (by decide)⟩
  · refine Nested.mono (n := 2) (.obj fun p hp => ?_) (by omega)
    rw [List.mem_singleton.mp hp]
    refine .obj fun p hp => ?_
    rw [List.mem_singleton.mp hp]
    exact .null

/-- C83, refuted: data without a group key crashes it when everything else is right. -/
theorem C83_no_groupKey_panics (ord : MapOrder) (g : G) :
    readPublic ord (compact (.obj [(ascii "shares", .obj [(ascii "1", .str (Base64.encode (RGroup.bytes g)))])])) = (.panic : GoRes (Public G)) := by
  unfold readPublic
  rw [parse_compact]
  · have hm : publicMembers [(ascii "shares", .obj [(ascii "1", .str (Base64.encode (RGroup.bytes g)))])] ⟨0, none, []⟩ false =
        .ok ((⟨0, none, [(1, some g)]⟩ : Public.Json G), false) := by
      refine (publicMembers_iff _ _ _ [] rfl).mpr ⟨?_, ?_, [(1, some g)],
        .add (es := [(1, some g)]) (names_refl _) (.cons ⟨?_, ofElement_is (some g)⟩ .nil) .done, rfl⟩
      · rw [FieldIs.skip, FieldIs.nil_iff]
        · exact fun h => not_names (k := ascii "shares") (by decide) (by decide) (by decide) h.1
        · exact fun h => absurd h (not_names (k := ascii "shares") (by decide) (by decide) (by decide))
      · rw [FieldIs.skip, FieldIs.nil_iff]
        · exact fun h => not_names (k := ascii "shares") (by decide) (by decide) (by decide) h.1
        · exact fun h => absurd h (not_names (k := ascii "shares") (by decide) (by decide) (by decide))
      · exact (key_iff (ascii "1") 1).mp (by decide)
    simp only [publicJson, hm, Outcome.ok_bind, Bool.false_eq_true, if_false]
    exact C55_nil_groupKey_panics ord [(1, g)] (by simp [GoMap.WF, GoMap.keys]) (by simp [GoMap.keys]) 0 (by simp) (by omega)
  · simp only [Plain, PlainMembers, and_true]
    exact ⟨plain_name (by decide), plain_name (by decide), encode_plain _⟩
  · refine Nested.mono (n := 2) (.obj fun p hp => ?_) (by omega)
    rw [List.mem_singleton.mp hp]
    refine .obj fun p hp => ?_
    rw [List.mem_singleton.mp hp]
    exact .str

open Polynomial in
/-- C83, refuted: the shares of accepted data need not be those of a key of the threshold it gives.  Three shares with threshold 1, of
which no two determine the third, are accepted. -/
theorem C83_degree_unchecked (ord : MapOrder) : ∃ (b : Bytes) (p : Public G), readPublic ord b = .ok p ∧ p.threshold = 1 ∧ p.partyIDs = [1, 2, 3] ∧
    ¬ ∃ f : Scalar[X], f.natDegree ≤ 1 ∧ ∀ id g, p.shares.get? id = some g → g = f.eval (id.toNat : Scalar) • base := by
  let m : GoMap G := [(1, 0), (2, 0), (3, base)]
  have hwf : m.WF := by show [(1 : ID), 2, 3].Nodup; decide
  have hnew : newPublic ord (m.map fun e => (e.1, some e.2)) 1 = .ok ⟨IDSlice.new m.keys, 1, m, interp m⟩ := by
    rw [newPublic_eq ord m hwf (by show (0 : ID) ∉ [(1 : ID), 2, 3]; decide), if_neg]
    rintro ⟨_, h⟩
    exact absurd h (by show ¬ (3 : Nat) < 2; decide)
  obtain ⟨p', h1, h2, h3, h4, h5⟩ := C83_roundtrip_newPublic ord ord m hwf 1 _ hnew
  refine ⟨_, p', h1, h3, h2.trans (by show IDSlice.new [(1 : ID), 2, 3] = _; decide), ?_⟩
  rintro ⟨f, hf, hs⟩
  have hget : ∀ id, p'.shares.get? id = m.get? id := GoMap.get?_perm hwf h5
  have key : ∀ a b : Scalar, a • (base : G) = b • base → a = b := by
    intro a b h
    rw [← sub_eq_zero, ← sub_smul] at h
    exact sub_eq_zero.mp ((smul_eq_zero.mp h).resolve_right RGroup.base_ne_zero)
  obtain ⟨a, b, rfl⟩ := exists_eq_X_add_C_of_natDegree_le_one hf
  have e1 := key 0 _ ((zero_smul _ _).trans (hs 1 0 (hget 1)))
  have e2 := key 0 _ ((zero_smul _ _).trans (hs 2 0 (hget 2)))
  have e3 := key 1 _ ((one_smul _ _).trans (hs 3 base (hget 3)))
  have n1 : ((1 : ID).toNat : Scalar) = 1 := by norm_num [show (1 : ID).toNat = 1 from rfl]
  have n2 : ((2 : ID).toNat : Scalar) = 2 := by norm_num [show (2 : ID).toNat = 2 from rfl]
  have n3 : ((3 : ID).toNat : Scalar) = 3 := by norm_num [show (3 : ID).toNat = 3 from rfl]
  simp only [eval_add, eval_mul, eval_C, eval_X, n1, n2, n3] at e1 e2 e3
  exact one_ne_zero (show (1 : Scalar) = 0 by linear_combination e3 - 2 * e2 + e1)

example : writePublic (⟨[2, 10], 1, [(2, Toy.of 1), (10, Toy.of 2)], Toy.of 3⟩ : Public Toy) =
    ascii "{\"t\":1,\"groupkey\":\"AwAAAAAAAAAAAAAAAAAAAAAAAAAAAAAAAAAAAAAAAAA=\",\"shares\":{\"10\":\"AgAAAAAAAAAAAAAAAAAAAAAAAAAAAAAAAAAAAAAAAAA=\",\"2\":\"AQAAAAAAAAAAAAAAAAAAAAAAAAAAAAAAAAAAAAAAAAA=\"}}" := by
  unfold writePublic ofPublic mapMembers
  have h : ∀ (a b : Bytes × Value), List.mergeSort [a, b] (fun x y => lessEq x.1 y.1) = if lessEq a.1 b.1 then [a, b] else [b, a] := by
    intro a b
    simp [List.mergeSort, List.merge]
  rw [show Public.marshalJSON (⟨[2, 10], 1, [(2, Toy.of 1), (10, Toy.of 2)], Toy.of 3⟩ : Public Toy) =
    ⟨1, some (Toy.of 3), [(2, some (Toy.of 1)), (10, some (Toy.of 2))]⟩ from rfl, List.map_cons, List.map_cons, List.map_nil, h]
  decide +kernel

/-- Two keys for the same party: the last one counts.  The threshold is 65535 modulo 65536, whose successor in 16 bits is 0. -/
example : (match readPublic (G := Toy) MapOrder.insertion (ascii "{\"shares\":{\"1\":\"AgAAAAAAAAAAAAAAAAAAAAAAAAAAAAAAAAAAAAAAAAA=\"}, \"T\":-1, \"shareS\":{\"01\":\"AQAAAAAAAAAAAAAAAAAAAAAAAAAAAAAAAAAAAAAAAAA=\"}, \"groupKey\":\"AQAAAAAAAAAAAAAAAAAAAAAAAAAAAAAAAAAAAAAAAAA=\"}") with
    | .ok p => some (p.partyIDs, p.threshold, p.shares.map fun e => (e.1, RGroup.bytes e.2))
    | _ => none) = some ([1], 65535, [(1, RGroup.bytes (Toy.of 1))]) := by decide +kernel

/-! ### C84 -/

open Verif.Cmd

theorem indentMembers_join (w d : Nat) (l : List (Bytes × Value)) :
    indentMembers w d l = List.intercalate [44] (l.map fun p => newline w d ++ quote p.1 ++ 58 :: 32 :: indent w d p.2) := by
  induction l with
  | nil => rfl
  | cons p l ih =>
    obtain ⟨k, v⟩ := p
    cases l with
    | nil => simp [indentMembers]
    | cons q l =>
      rw [indentMembers, ih]
      · simp
      · simp

/-- The IDs in the order in which they are written. -/
def sortedIDs (ids : List ID) : List ID := ids.mergeSort fun a b => lessEq (ID.marshalText a) (ID.marshalText b)

theorem mapMembers_ids {α : Type} (f : α → Value) (g : ID → α) (ids : List ID) :
    mapMembers f (ids.map fun i => (i, g i)) = (sortedIDs ids).map fun i => (ID.marshalText i, f (g i)) := by
  unfold mapMembers sortedIDs
  rw [List.map_map, List.map_mergeSort (s := fun x y => lessEq x.1 y.1)]
  · rfl
  · intro a _ b _; rfl

theorem sortedIDs_sorted {ids : List ID} (h : ids.Nodup) :
    (sortedIDs ids).Pairwise fun a b => List.Lex (· < ·) (ID.marshalText a) (ID.marshalText b) := by
  have h1 : (sortedIDs ids).Pairwise fun x y => lessEq (ID.marshalText x) (ID.marshalText y) = true :=
    List.pairwise_mergeSort (le := fun x y => lessEq (ID.marshalText x) (ID.marshalText y)) (fun a b c => lessEq_trans _ _ _)
      (fun a b => lessEq_total _ _) ids
  have h2 : (sortedIDs ids).Pairwise (· ≠ ·) := (List.mergeSort_perm ids _).nodup_iff.mpr h
  refine (List.Pairwise.and h1 h2).imp ?_
  rintro a b ⟨h3, h4⟩
  rcases (lessEq_iff _ _).mp h3 with h | h
  · exact absurd (marshalText_injective h) h4
  · exact h

/-- C84: the text of the file that `cmd/keygen` writes, for the shares of a polynomial: the parties in the order of their IDs as
strings, one space of indentation per level. -/
theorem C84_text (ids : List ID) (hne : ids ≠ []) (hnd : ids.Nodup) (t : UInt16) (F : Polynomial Scalar) : ∃ (w : Writing) (es : List ID),
    es.Perm ids ∧ es.Pairwise (fun a b => List.Lex (· < ·) (w.num a.toNat) (w.num b.toNat)) ∧
    writeFile (Spec.keyFile ids t F : File G) =
      ascii "{\n \"Secrets\": {" ++
      List.intercalate (ascii ",") (es.map fun i => ascii "\n  \"" ++ w.num i.toNat ++ ascii "\": {\n   \"id\": " ++ w.num i.toNat ++
        ascii ",\n   \"secret\": \"" ++ w.base64 (F.eval (i.toNat : Scalar)).bytes ++ ascii "\"\n  }") ++
      ascii "\n },\n \"Shares\": {\n  \"t\": " ++ w.num t.toNat ++ ascii ",\n  \"groupkey\": \"" ++ w.base64 (RGroup.bytes (F.eval 0 • base : G)) ++
      ascii "\",\n  \"shares\": {" ++
      List.intercalate (ascii ",") (es.map fun i => ascii "\n   \"" ++ w.num i.toNat ++ ascii "\": \"" ++
        w.base64 (RGroup.bytes (F.eval (i.toNat : Scalar) • base : G)) ++ ascii "\"") ++
      ascii "\n  }\n }\n}" := by
  obtain ⟨w, h1, h2⟩ := writing
  refine ⟨w, sortedIDs ids, List.mergeSort_perm .., ?_, ?_⟩
  · rw [h1]; exact sortedIDs_sorted hnd
  · have hs : sortedIDs ids ≠ [] := fun h => hne (List.perm_nil.mp (h ▸ (List.mergeSort_perm ids _).symm))
    unfold writeFile ofFile Spec.keyFile ofPublicPtr ofPublic
    dsimp only
    rw [mapMembers_ids, mapMembers_ids, h1, h2, formatInt_nat]
    have e1 : ∀ i : ID, newline 1 2 ++ quote (ID.marshalText i) ++ 58 :: 32 :: indent 1 2 (ofSecretPtr (some ⟨i.toNat, (F.eval (i.toNat : Scalar)).bytes⟩)) =
        ascii "\n  \"" ++ ID.formatUint i.toNat ++ ascii "\": {\n   \"id\": " ++ ID.formatUint i.toNat ++
        ascii ",\n   \"secret\": \"" ++ Base64.encode (F.eval (i.toNat : Scalar)).bytes ++ ascii "\"\n  }" := by
      intro i
      simp [quote, ID.marshalText, ofSecretPtr, ofSecretShare, indent, indentMembers, newline, compact, ascii, nameID, nameSecret, formatInt_nat]
    have e2 : ∀ i : ID, newline 1 3 ++ quote (ID.marshalText i) ++ 58 :: 32 :: indent 1 3 (ofElement (some (F.eval (i.toNat : Scalar) • base : G))) =
        ascii "\n   \"" ++ ID.formatUint i.toNat ++ ascii "\": \"" ++ Base64.encode (RGroup.bytes (F.eval (i.toNat : Scalar) • base : G)) ++ ascii "\"" := by
      intro i
      simp [quote, ID.marshalText, ofElement, indent, newline, compact, ascii]
    have hobj : ∀ (d : Nat) (f : ID → Bytes × Value), indent 1 d (.obj ((sortedIDs ids).map f)) =
        123 :: indentMembers 1 (d + 1) ((sortedIDs ids).map f) ++ newline 1 d ++ [125] := by
      intro d f
      obtain ⟨a, l, hal⟩ := List.exists_cons_of_ne_nil hs
      rw [hal]
      rfl
    have hcons : ∀ (d : Nat) (p : Bytes × Value) (l : List (Bytes × Value)), indent 1 d (.obj (p :: l)) =
        123 :: indentMembers 1 (d + 1) (p :: l) ++ newline 1 d ++ [125] := fun _ _ _ => by simp only [indent]
    have hnum : ∀ (d : Nat) (b : Bytes), indent 1 d (.num b) = b := fun _ _ => by simp only [indent, compact]
    have hstr : ∀ (d : Nat) (b : Bytes), indent 1 d (.str b) = quote b := fun _ _ => by simp only [indent, compact]
    simp only [ofElement] at e2 ⊢
    simp only [hcons, hnum, indentMembers, hobj, indentMembers_join _ _ ((sortedIDs ids).map _), List.map_map, Function.comp_def, Nat.zero_add, Nat.reduceAdd, e1, e2]
    simp [hstr, quote, nameT, nameGroupKey, nameSharesMap, nameSecrets, nameShares, ascii, newline]

example : writeFile (⟨[(1, some ⟨1, Scalar.bytes 1⟩)], some ⟨0, some (Toy.of 1), [(1, some (Toy.of 1))]⟩⟩ : File Toy) = ascii "{
 \"Secrets\": {
  \"1\": {
   \"id\": 1,
   \"secret\": \"AQAAAAAAAAAAAAAAAAAAAAAAAAAAAAAAAAAAAAAAAAA=\"
  }
 },
 \"Shares\": {
  \"t\": 0,
  \"groupkey\": \"AQAAAAAAAAAAAAAAAAAAAAAAAAAAAAAAAAAAAAAAAAA=\",
  \"shares\": {
   \"1\": \"AQAAAAAAAAAAAAAAAAAAAAAAAAAAAAAAAAAAAAAAAAA=\"
  }
 }
}" := by decide +kernel

/-- C84: what `cmd/signer` has read is what the bytes of the file say. -/
theorem C84_accepted (ord : MapOrder) (b : Bytes) (keys : Keys G) (h : readFile ord b = .ok keys) :
    ∃ v, Readable v b ∧ KeysIs v keys.secrets.get? keys.shares := by
  unfold readFile at h
  cases hp : parse b with
  | none => rw [hp] at h; cases h
  | some v =>
    rw [hp] at h
    exact ⟨v, (parse_iff _ _).mp hp, fileJson_sound h⟩

/-- C84: every file that says keys is read as these keys, whatever its layout and the order of iteration. -/
theorem C84_accepts (ord : MapOrder) (b : Bytes) (v : Value) (secrets : ID → Option (Option (SecretShare G))) (shares : Option (Public G))
    (h : Readable v b) (hv : KeysIs v secrets shares) :
    ∃ keys, readFile ord b = .ok keys ∧ (∀ id, keys.secrets.get? id = secrets id) ∧ Option.Rel SamePublic keys.shares shares := by
  unfold readFile
  rw [(parse_iff _ _).mpr h]
  exact fileJson_complete ord hv

theorem ofFile_nested (f : File G) : Nested 3 (ofFile f) := by
  have h2 : ∀ o, Nested 1 (ofSecretPtr o) := by
    intro o
    cases o with
    | none => exact .null
    | some j => exact ofSecretShare_nested j
  refine .obj fun p hp => ?_
  simp only [List.mem_cons, List.not_mem_nil, or_false] at hp
  rcases hp with rfl | rfl
  · refine .obj fun p hp => ?_
    rw [mapMembers_eq] at hp
    obtain ⟨e, _, rfl⟩ := List.mem_map.mp hp
    exact h2 _
  · cases h : f.shares with
    | none => exact .null
    | some j => exact ofPublic_nested j

open Polynomial in
theorem keyFile_is {ids : List ID} (hlt : ids.Pairwise (· < ·)) (h0 : (0 : ID) ∉ ids) (t : UInt16) (ht : t.toNat < ids.length) (F : Scalar[X])
    (hF : F.natDegree ≤ t.toNat) :
    KeysIs (ofFile (Spec.keyFile ids t F : File G)) (GoMap.get? (ids.map fun i => (i, some (SecretShare.new (G := G) i (F.eval (i.toNat : Scalar))))))
      (some ⟨ids, t, ids.map fun i => (i, F.eval (i.toNat : Scalar) • base), F.eval 0 • base⟩) := by
  have hnd : ids.Nodup := hlt.imp fun h => by rintro rfl; exact UInt16.lt_irrefl _ h
  have hget : ∀ id g, GoMap.get? (ids.map fun i => (i, F.eval (i.toNat : Scalar) • (base : G))) id = some g ↔
      id ∈ ids ∧ g = F.eval (id.toNat : Scalar) • base := by
    intro id g
    by_cases hi : id ∈ ids
    · rw [GoMap.get?_map_self _ hi, Option.some_inj]
      exact ⟨fun h => ⟨hi, h.symm⟩, fun h => h.2.symm⟩
    · have : GoMap.get? (ids.map fun i => (i, F.eval (i.toNat : Scalar) • (base : G))) id = none := by
        rw [GoMap.get?_eq_none, GoMap.keys_map_self]; exact hi
      rw [this]
      exact ⟨fun h => (by cases h), fun h => absurd h.1 hi⟩
  have := ofFile_is (G := G) (ids.map fun i => (i, some (SecretShare.new i (F.eval (i.toNat : Scalar)))))
    (by unfold GoMap.WF; rw [GoMap.keys_map_self]; exact hnd) (by
      intro id sk h
      obtain ⟨i, _, hi⟩ := List.mem_map.mp ((GoMap.get?_eq_some_iff (by unfold GoMap.WF; rw [GoMap.keys_map_self]; exact hnd)).mp h)
      simp only [Prod.mk.injEq, Option.some.injEq] at hi
      rw [← hi.2]
      rfl)
    (some ⟨ids, t, ids.map fun i => (i, F.eval (i.toNat : Scalar) • base), F.eval 0 • base⟩) (by
      intro p hp
      obtain rfl := Option.some.inj hp
      refine ofPublic_is _ (by unfold GoMap.WF; rw [GoMap.keys_map_self]; exact hnd) ?_ hlt ?_ (Or.inr ht) ⟨F, ?_, ?_, rfl⟩
      · rw [GoMap.get?_eq_none, GoMap.keys_map_self]; exact h0
      · intro id
        simp only [hget]
        exact ⟨fun h => ⟨_, h, rfl⟩, fun ⟨_, h, _⟩ => h⟩
      · exact lt_of_le_of_lt degree_le_natDegree (by exact_mod_cast lt_of_le_of_lt hF ht)
      · exact fun id g h => ((hget id g).mp h).2)
  convert this using 1
  unfold Spec.keyFile Public.marshalJSON
  simp only [List.map_map, Option.map_some]
  rfl

open Polynomial Curve in
/-- C84: with every file that says what `cmd/keygen` writes for the shares of a polynomial of degree at most `t` for parties `1, …, n`, in
whatever layout, `cmd/signer` prints a signature of the message that RFC 8032 accepts. -/
theorem C84_signs (env : Env) (ord : MapOrder) (n : Nat) (hn : n < 65535) (t : UInt16) (ht : t.toNat < n) (F : Scalar[X]) (hF : F.natDegree ≤ t.toNat)
    (b : Bytes) (hb : Document (ofFile (Spec.keyFile (Spec.firstIDs n) t F : File RG)) b)
    (message : Bytes) (hcoins : ∀ i ∈ Spec.firstIDs n, env.coins 0 i 0 ≠ 0 ∧ env.coins 0 i 1 ≠ 0) :
    ∃ sig : Signature RG, signerText sha env ord b message = .done sig ∧
      Spec.Ed25519.Accepts 8 sha.sum (PublicKey.toEd25519 (F.eval 0 • (base : RG))) message (Signature.toEd25519 sig) := by
  have hn16 : n < 65536 := by omega
  obtain ⟨⟨secrets, shares⟩, h1, h2, h3⟩ := C84_accepts ord b _ _ _ ⟨hb, Nested.mono (ofFile_nested _) (by omega)⟩
    (keyFile_is (firstIDs_lt hn16) (firstIDs_zero hn16) t (by rw [firstIDs_length]; exact ht) F hF)
  cases shares with
  | none => cases h3
  | some pub =>
    cases h3 with
    | some h3 =>
      obtain ⟨g1, g2, g3, g4⟩ := h3
      unfold signerText
      rw [h1, End.ofRes, done_bind]
      simp only [End.deref, done_bind]
      refine signerMain_signs env n hn t ht F hF message hcoins _ _ (fun i hi => ?_) g1 g3 (fun i hi => ?_)
      · rw [h2]; exact GoMap.get?_map_self _ hi
      · have hwf : GoMap.WF ((Spec.firstIDs n).map fun i => (i, F.eval (i.toNat : Scalar) • (base : RG))) := by
          unfold GoMap.WF; rw [GoMap.keys_map_self]; exact firstIDs_nodup hn16
        rw [GoMap.get?_perm hwf g4]
        exact GoMap.get?_map_self _ hi

open Curve in
/-- C84: the bytes that `cmd/keygen` writes, `cmd/signer` signs with, under the group key whose secret is the sum of the contributions. -/
theorem C84_after_keygen (kenv env : Env) (ord : MapOrder) (a₁ a₂ : Bytes) (t n : Nat) (ha₁ : atoi a₁ = some (t : Int)) (ha₂ : atoi a₂ = some (n : Int))
    (h0 : 0 < t) (h1 : t < n) (h2 : n ≤ 100) (filename message : Bytes) (read : Bytes → Option Bytes)
    (hread : ∀ data, keygenText (G := RG) sha kenv [a₁, a₂] = .done data → read filename = some data)
    (hcoins : ∀ i ∈ Spec.firstIDs n, env.coins 0 i 0 ≠ 0 ∧ env.coins 0 i 1 ≠ 0) :
    ∃ (data : Bytes) (sig : Signature RG), keygenText (G := RG) sha kenv [a₁, a₂] = .done data ∧
      Json.signer sha env ord read [filename, message] = .done sig ∧
      Spec.Ed25519.Accepts 8 sha.sum (PublicKey.toEd25519 (((Spec.firstIDs n).map fun i => kenv.coins 0 i 0).sum • (base : RG))) message
        (Signature.toEd25519 sig) := by
  obtain ⟨F, f1, f2, f3⟩ := C70_valid (G := RG) (sha := sha) kenv a₁ a₂ t n ha₁ ha₂ h0 h1 h2
  have e : (UInt16.ofNat t).toNat = t := by rw [UInt16.toNat_ofNat']; omega
  have hk : keygenText (G := RG) sha kenv [a₁, a₂] = .done (writeFile (Spec.keyFile (Spec.firstIDs n) (UInt16.ofNat t) F : File RG)) := by
    unfold keygenText
    rw [f3, done_bind]
    rfl
  obtain ⟨sig, g1, g2⟩ := C84_signs (sha := sha) env ord n (by omega) (UInt16.ofNat t) (by omega) F (by omega) _
    ⟨[], writeFile (Spec.keyFile (Spec.firstIDs n) (UInt16.ofNat t) F : File RG), [], (List.append_nil _).symm, Ws.nil, indent_text 1 0 _ (ofFile_plain _), Ws.nil⟩ message hcoins
  refine ⟨_, sig, hk, ?_, f2 ▸ g2⟩
  unfold Json.signer
  simp only [hread _ hk]
  exact g1

open Curve in
/-- Two of three, with nonces that are not zero. -/
example (kenv env : Env) (h : ∀ i ∈ Spec.firstIDs 3, env.coins 0 i 0 ≠ 0 ∧ env.coins 0 i 1 ≠ 0) :
    ∃ (data : Bytes) (sig : Signature RG), keygenText (G := RG) sha kenv [ascii "1", ascii "3"] = .done data ∧
      Json.signer sha env MapOrder.insertion (fun _ => match keygenText (G := RG) sha kenv [ascii "1", ascii "3"] with | .done d => some d | _ => none)
        [ascii "keygenout.json", ascii "hello"] = .done sig ∧
      Spec.Ed25519.Accepts 8 sha.sum (PublicKey.toEd25519 (((Spec.firstIDs 3).map fun i => kenv.coins 0 i 0).sum • (base : RG))) (ascii "hello")
        (Signature.toEd25519 sig) :=
  C84_after_keygen kenv env _ _ _ 1 3 (by decide) (by decide) (by omega) (by omega) (by omega) _ _ _ (fun d hd => by simp only [hd]) h

/-- C84: whatever the bytes of the file are, if `cmd/signer` prints a signature then the bytes say a group key, and both verifications
accept the signature for the message under this key. -/
theorem C84_printed_is_valid (env : Env) (ord : MapOrder) (b message : Bytes) (sig : Signature G) (h : signerText sha env ord b message = .done sig) :
    ∃ v secrets pub, Readable v b ∧ KeysIs v secrets (some pub) ∧
      Ed25519.verify sha (PublicKey.toEd25519 pub.groupKey) message (Signature.toEd25519 sig) = .ok true ∧
      PublicKey.verify sha pub.groupKey message sig = .ok true := by
  unfold signerText at h
  simp only [bind_eq_done, ofRes_eq_done] at h
  obtain ⟨⟨secrets, shares⟩, h1, pub, h2, h3⟩ := h
  cases shares with
  | none => cases h2
  | some p =>
    obtain rfl : p = pub := by simpa [End.deref] using h2
    obtain ⟨v, hv1, hv2⟩ := C84_accepted ord b _ h1
    exact ⟨v, _, p, hv1, hv2, signerMain_printed env _ p message sig h3⟩

/-- C84, refuted: a file without `Shares` crashes it. -/
theorem C84_empty_crashes (env : Env) (ord : MapOrder) (message : Bytes) :
    signerText (G := G) sha env ord (ascii "{}") message = .crash ∧ signerText (G := G) sha env ord (ascii "null") message = .crash := by
  constructor
  · unfold signerText readFile
    rw [parse_plain (v := .obj []) trivial (.obj fun _ h => by cases h) (by decide +kernel)]
    rfl
  · unfold signerText readFile
    rw [parse_plain (v := .null) trivial .null (by decide +kernel)]
    rfl

end Verif.Props
