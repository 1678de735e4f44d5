import Verif.Cases.Sign
import Verif.Props.Traffic

/-!
The theorems of `Props/Traffic` applied to sessions of three parties.
-/

namespace Verif.Cases

open State Props Props.Demo

/-- `C130_keygen`: in round 1 and at the end.  With threshold 1 the broadcast has 135 bytes, the two shares 74. -/
example := And.intro (C130_keygen 1 ids 1 10 0 _ session1 (by decide) hist1) (C130_keygen 1 ids 1 10 0 _ session1 (by decide) hist3)
example : (Spec.keygenBytes 1 3 1, Spec.keygenBytes 1 3 2) = (135, 209) := by decide
example : Spec.SentBytes (after ops1).1 135 ∧ Spec.SentBytes (after ops3).1 209 := by
  have h1 := (C130_keygen 1 ids 1 10 0 _ session1 (by decide) hist1).2
  have h3 := (C130_keygen 1 ids 1 10 0 _ session1 (by decide) hist3).2
  rw [show (st ops1).roundNumber = 1 by decide +kernel] at h1
  rw [show (st ops3).roundNumber = 2 by decide +kernel] at h3
  exact ⟨h1, h3⟩

/-- `C130_sign`: at the end; in round 1 the commitments of 69 bytes have been sent, in the last round 106 bytes. -/
example := C130_sign (skey 1) key ids [1, 2, 3] 10 0 _ new1 (by decide) s4
example : (Spec.signBytes 1, Spec.signBytes 2) = (69, 106) := by decide

end Verif.Cases
