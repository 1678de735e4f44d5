import Verif.Model.Alias

/-!
Vocabulary for sessions whose caller writes to the memory that it handed over.
-/

namespace Verif.Spec

open State

variable {G W : Type}

/-- What is in the memory after a history, `w₀` at first. -/
def contents (w₀ : W) : List (Act G W × Ret G) → W
  | [] => w₀
  | (.write w, _) :: h => contents w h
  | _ :: h => contents w₀ h

/-- The history without what the caller writes. -/
def unwritten : List (Act G W × Ret G) → List (Op G × Ret G)
  | [] => []
  | (.op o, r) :: h => (o, r) :: unwritten h
  | (.write _, _) :: h => unwritten h

end Verif.Spec
