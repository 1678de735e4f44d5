import Verif.Props.Json
import Verif.Props.Cmd
import Verif.Props.KeygenOut

/-!
C55 and C83 for the output of key generation, whatever the others sent.
-/

namespace Verif.Props

open Verif State Outcome Keygen Polynomial

variable {G : Type} [RGroup G] {sha : Sha512}

/-- The public data of a successful key generation: exactly the values of one polynomial in the exponent, in the order of the
list. -/
theorem keygen_public (self : ID) (ids : IDSlice) (t : UInt16) (timeout now : Nat) (s₀ : State G (Round G))
    (h₀ : newKeygenState sha self ids t timeout now = .ok s₀) (hnd : ids.Nodup) {h : List (Op G × Ret G)} {s : State G (Round G)}
    (hh : Hist (impl sha) s₀ h s) (hd : s.done = true) (he : s.err = none) :
    (0 : ID) ∉ ids ∧ ∃ F : Scalar[X], F.natDegree ≤ t.toNat ∧
      s.round.output.pub = some ⟨ids, t, ids.map fun i => (i, F.eval (i.toNat : Scalar) • base), F.eval 0 • base⟩ := by
  obtain ⟨F, pub, h1, h2, h3, h4, h5, h6, h7⟩ := C39_public_on_polynomial self ids t timeout now s₀ h₀ hnd hh hd he
  obtain ⟨r₀, hs, rfl⟩ := start_of_new h₀ hnd
  have hf := (running hs hh).2 hd he
  obtain ⟨f, l₁, l₂, shares, gk, _, _, _, _, h0, _, _, h8, _, h9, _⟩ := hf
  have e2 : r₀.partyIDs = ids := by rw [hs.eq.1]
  rw [e2] at h8 h0
  have hk := evaluateMulti_keys _ hnd (by simp [GoMap.keys]) h8
  have hpub : pub.shares = shares := by
    rw [h9] at h2
    simp only [output3, Option.some.injEq] at h2
    rw [← h2]
  refine ⟨fun hc => h0 0 hc rfl, F, h1, ?_⟩
  rw [h2]
  obtain ⟨p1, p2, p3, p4⟩ := pub
  simp only at h3 h4 h5 h6 hpub
  subst h3 h4 h5 hpub
  have hk' : p3.keys = p1 := by rw [hk]; rfl
  have hwf : p3.WF := by unfold GoMap.WF; rw [hk']; exact hnd
  rw [← GoMap.eq_map_self hwf hk' (fun i => F.eval (i.toNat : Scalar) • (base : G)) h6]

/-- C55: the public data of a successful key generation with a sorted list, whatever the others sent, comes back from its
JSON structure. -/
theorem C55_keygen (self : ID) (ids : IDSlice) (t : UInt16) (timeout now : Nat) (s₀ : State G (Round G))
    (h₀ : newKeygenState sha self ids t timeout now = .ok s₀) (hlt : ids.Pairwise (· < ·)) {h : List (Op G × Ret G)}
    {s : State G (Round G)} (hh : Hist (impl sha) s₀ h s) (hd : s.done = true) (he : s.err = none) :
    ∃ pub, s.round.output.pub = some pub ∧ ∀ ord, Public.unmarshalJSON ord (Public.marshalJSON pub) = .ok pub := by
  have hnd : ids.Nodup := hlt.imp fun h => by rintro rfl; exact UInt16.lt_irrefl _ h
  obtain ⟨h0, F, h1, h2⟩ := keygen_public self ids t timeout now s₀ h₀ hnd hh hd he
  obtain ⟨hm, ht1, ht2, _⟩ := C34_accepted self ids t timeout now s₀ h₀
  have hpos := List.length_pos_of_mem hm
  refine ⟨_, h2, fun ord => ?_⟩
  rw [← keyFile_public hlt h0 (t := t) (by omega) h1 ord]
  unfold Public.marshalJSON
  rw [List.map_map]
  rfl

/-- C83: and from the bytes written, also after they were laid out differently. -/
theorem C83_keygen (self : ID) (ids : IDSlice) (t : UInt16) (timeout now : Nat) (s₀ : State G (Round G))
    (h₀ : newKeygenState sha self ids t timeout now = .ok s₀) (hlt : ids.Pairwise (· < ·)) {h : List (Op G × Ret G)}
    {s : State G (Round G)} (hh : Hist (impl sha) s₀ h s) (hd : s.done = true) (he : s.err = none) :
    ∃ pub, s.round.output.pub = some pub ∧ ∀ ord b, Spec.Json.Document (Json.ofPublic (Public.marshalJSON pub)) b →
      ∃ p', Json.readPublic ord b = .ok p' ∧ Spec.Json.SamePublic p' pub := by
  have hnd : ids.Nodup := hlt.imp fun h => by rintro rfl; exact UInt16.lt_irrefl _ h
  obtain ⟨h0, F, h1, h2⟩ := keygen_public self ids t timeout now s₀ h₀ hnd hh hd he
  obtain ⟨hm, ht1, ht2, _⟩ := C34_accepted self ids t timeout now s₀ h₀
  have hpos := List.length_pos_of_mem hm
  have hget : ∀ id, id ∈ ids ↔ ∃ g : G, GoMap.get? (ids.map fun i => (i, F.eval (i.toNat : Scalar) • (base : G))) id = some g := by
    intro id
    rw [← GoMap.mem_keys_iff, GoMap.keys_map_self]
  refine ⟨_, h2, fun ord b hb => C83_roundtrip ord _ ?_ ?_ hlt hget (Or.inr (by simp only; omega)) ?_ b hb⟩
  · unfold GoMap.WF; rw [GoMap.keys_map_self]; exact hnd
  · simp only
    rw [GoMap.get?_eq_none, GoMap.keys_map_self]; exact h0
  · refine ⟨F, ?_, ?_, rfl⟩
    · exact lt_of_le_of_lt degree_le_natDegree (by exact_mod_cast (by omega : F.natDegree < ids.length))
    · intro id g hg
      have hid := (hget id).mpr ⟨g, hg⟩
      rw [GoMap.get?_map_self _ hid] at hg
      exact (Option.some.inj hg).symm

end Verif.Props
