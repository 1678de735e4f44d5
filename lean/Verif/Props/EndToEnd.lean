import Verif.Props.SignNet
import Verif.Props.Ristretto

/-!
C69: from key generation to an Ed25519 signature, in the concrete ristretto255 group.
-/

namespace Verif.Props

open Verif Verif.Curve

variable {sha : Sha512} {parties ids : IDSlice} {t : UInt16} {kt kn : ID → Nat} {kinit : ID → State RG (Keygen.Round RG)}
  {secret : ID → SecretShare RG} {pub : ID → Public RG}

/-- C69: take any run of key generation among honest parties, under any schedule, and let any more than `t` parties that finished
sign any message with non-zero nonces, again under any schedule.  All signers that finish have the same signature, they can always
finish, and crypto/ed25519.Verify and RFC 8032 accept the signature under the key that any party of the key generation holds. -/
theorem C69_end_to_end (hk : Spec.KeygenSetup sha parties t kt kn kinit) (kcoins : ID → Coins) (K : Spec.Net RG (Keygen.Round RG))
    (hK : Spec.Path (Keygen.impl sha) parties kcoins (Spec.Net.start kinit) K) (hsorted : ids.Pairwise (· ≤ ·)) (hnd : ids.Nodup)
    (hsub : ∀ i ∈ ids, i ∈ parties) (hlen : t.toNat < ids.length) (hdone : ∀ i ∈ ids, (K.state i).done = true)
    (hsec : ∀ i ∈ ids, (K.state i).round.output.secretKey = some (secret i))
    (hpub : ∀ i ∈ ids, (K.state i).round.output.pub = some (pub i)) (message : Bytes) (timeout now : ID → Nat)
    (coins : ID → Coins) (hcoins : ∀ i ∈ ids, coins i 0 ≠ 0 ∧ coins i 1 ≠ 0) (init : ID → State RG (Sign.Round RG))
    (hinit : ∀ i ∈ ids, Sign.newSignState sha ids (secret i) (pub i) message (timeout i) (now i) = .ok (init i)) :
    ∃ sig : Signature RG,
      (∀ k ∈ parties, (K.state k).done = true → ∀ key, (K.state k).round.output.pub = some key →
        Ed25519.verify sha (PublicKey.toEd25519 key.groupKey) message (Signature.toEd25519 sig) = .ok true ∧
        Spec.Ed25519.Accepts 8 sha.sum (PublicKey.toEd25519 key.groupKey) message (Signature.toEd25519 sig)) ∧
      ∀ N, Spec.Path (Sign.impl sha) ids coins (Spec.Net.start init) N →
        (∀ i ∈ ids, (N.state i).done = true → (N.state i).round.output.signature = some sig) ∧
        ∃ N', Spec.Path (Sign.impl sha) ids coins N N' ∧ ∀ i ∈ ids, (N'.state i).done = true ∧ (N'.state i).err = none ∧
          (N'.state i).round.output.signature = some sig := by
  have hset := (C43_keygen_then_sign hk kcoins K hK hsorted hnd hsub hlen hdone hsec hpub message timeout now).2 init hinit
  obtain ⟨sig, hver, hruns⟩ := C43_honest_sign hset coins hcoins
  refine ⟨sig, ?_, fun N hN => ⟨(hruns N hN).2.2.1, (hruns N hN).2.2.2⟩⟩
  intro k hkp hkd key hkey
  obtain ⟨_, p, h2, _, _, h4, _⟩ := (C35_honest_keygen hk kcoins K hK).2.2.2.2 k hkp hkd
  rw [hkey] at h2
  rw [Option.some.inj h2, h4]
  exact ⟨(C51_crypto_ed25519 sha _ message sig).trans hver, (C51_rfc8032 sha _ message sig).2.1 hver⟩

/-- Such runs exist for all parties, thresholds, signers, messages and randomness. -/
theorem C69_runs_exist (hs : parties.Pairwise (· ≤ ·)) (hn : parties.Nodup) (h0 : (0 : ID) ∉ parties) (ht : 1 ≤ t.toNat)
    (hsorted : ids.Pairwise (· ≤ ·)) (hnd : ids.Nodup) (hsub : ∀ i ∈ ids, i ∈ parties) (hlen : t.toNat < ids.length)
    (kcoins : ID → Coins) (message : Bytes) (kt kn timeout now : ID → Nat) :
    ∃ (kinit : ID → State RG (Keygen.Round RG)) (K : Spec.Net RG (Keygen.Round RG)) (secret : ID → SecretShare RG)
      (pub : ID → Public RG) (init : ID → State RG (Sign.Round RG)),
      Spec.KeygenSetup sha parties t kt kn kinit ∧ Spec.Path (Keygen.impl sha) parties kcoins (Spec.Net.start kinit) K ∧
      (∀ i ∈ parties, (K.state i).done = true) ∧ (∀ i ∈ ids, (K.state i).round.output.secretKey = some (secret i)) ∧
      (∀ i ∈ ids, (K.state i).round.output.pub = some (pub i)) ∧
      ∀ i ∈ ids, Sign.newSignState sha ids (secret i) (pub i) message (timeout i) (now i) = .ok (init i) := by
  have hle : ids.length ≤ parties.length := (List.subperm_of_subset hnd hsub).length_le
  have hne : ids ≠ [] := by rintro rfl; cases hlen
  obtain ⟨j, hj⟩ := List.exists_mem_of_ne_nil _ hne
  have hstart : ∀ i, ∃ s : State RG (Keygen.Round RG), i ∈ parties → Keygen.newKeygenState sha i parties t (kt i) (kn i) = .ok s := by
    intro i
    by_cases hi : i ∈ parties
    · obtain ⟨s, h⟩ := C34_accepts (G := RG) (sha := sha) i parties t (kt i) (kn i) hs hn hi ht (by omega)
      exact ⟨s, fun _ => h⟩
    · obtain ⟨s, _⟩ := C34_accepts (G := RG) (sha := sha) j parties t (kt j) (kn j) hs hn (hsub j hj) ht (by omega)
      exact ⟨s, fun h => absurd h hi⟩
  choose kinit hkinit using hstart
  have hk : Spec.KeygenSetup sha parties t kt kn kinit := ⟨hs, hn, h0, hkinit⟩
  obtain ⟨K, hK, hd⟩ := C36_honest_keygen_completes hk kcoins _ (.refl _)
  have hsec : ∀ i, ∃ s, i ∈ parties → (K.state i).round.output.secretKey = some s := by
    intro i
    by_cases hi : i ∈ parties
    · exact ⟨_, fun _ => (hd i hi).2.2.1⟩
    · exact ⟨⟨0, 0, 0⟩, fun h => absurd h hi⟩
  have hpub : ∀ i, ∃ p, i ∈ parties → (K.state i).round.output.pub = some p := by
    intro i
    by_cases hi : i ∈ parties
    · obtain ⟨p, hp, _⟩ := (hd i hi).2.2.2
      exact ⟨p, fun _ => hp⟩
    · obtain ⟨p, _, _⟩ := (hd j (hsub j hj)).2.2.2
      exact ⟨p, fun h => absurd h hi⟩
  choose secret hsecret using hsec
  choose pub hpub using hpub
  obtain ⟨⟨init, hinit⟩, -⟩ := C43_keygen_then_sign hk kcoins K hK hsorted hnd hsub hlen (fun i hi => (hd i (hsub i hi)).1)
    (fun i hi => hsecret i (hsub i hi)) (fun i hi => hpub i (hsub i hi)) message timeout now
  exact ⟨kinit, K, secret, pub, init, hk, hK, fun i hi => (hd i hi).1, fun i hi => hsecret i (hsub i hi),
    fun i hi => hpub i (hsub i hi), hinit⟩

example : ([1, 4, 9] : IDSlice).Pairwise (· ≤ ·) ∧ ([1, 4, 9] : IDSlice).Nodup ∧ (0 : ID) ∉ ([1, 4, 9] : IDSlice) ∧
    ([1, 9] : IDSlice).Pairwise (· ≤ ·) ∧ ([1, 9] : IDSlice).Nodup ∧ (∀ i ∈ ([1, 9] : IDSlice), i ∈ ([1, 4, 9] : IDSlice)) ∧
    (1 : UInt16).toNat < ([1, 9] : IDSlice).length := by decide

end Verif.Props
