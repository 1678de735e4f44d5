import Verif.Model.Ed25519
import Verif.Vectors.Ristretto

/-!
The test vectors 1 to 3 of RFC 8032, section 7.1, computed by the model of `crypto/ed25519.Verify` with the concrete SHA-512 in Lean's kernel.
They are tests of the model, not proofs about it.
-/

namespace Verif.Vectors

/-- Public keys, messages and signatures. -/
def rfc8032 : List (String × String × String) := [
  ("d75a980182b10ab7d54bfed3c964073a0ee172f3daa62325af021a68f707511a", "",
   "e5564300c360ac729086e2cc806e828a84877f1eb8e5d974d873e065224901555fb8821590a33bacc61e39701cf9b46bd25bf5f0595bbe24655141438e7a100b"),
  ("3d4017c3e843895a92b70aa74d1b7ebc9c982ccf2ec4968cc0cd55f12af4660c", "72",
   "92a009a9f0d4cab8720e820b5f642540a2b27b5416503f8fb3762223ebdb69da085ac1e43e15996e458f3613d0f11d8c387b2eaeb4302aeeb00d291612bb0c00"),
  ("fc51cd8e6218a1a38da47ed00230f0580816ed13ba3303ac5deb911548908025", "af82",
   "6291d657deec24024827e69c3abe01a30ce548a284743a445e3680d7db5ac3ac18ff9b538d16f290ae67f760984dc6594a7c15e9716ed28dc027beceea1ec40a")]

example : rfc8032.all (fun e => Ed25519.verify sha512 (hex e.1) (hex e.2.1) (hex e.2.2) = .ok true) = true := by decide +kernel

/-- With one more byte in the message they are refused. -/
example : rfc8032.all (fun e => Ed25519.verify sha512 (hex e.1) (hex e.2.1 ++ [0]) (hex e.2.2) = .ok false) = true := by decide +kernel

end Verif.Vectors
