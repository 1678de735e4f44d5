import Verif.Model.Slice

/-!
What appending to a slice, or making a new one, may do to the memory.
-/

namespace Verif.Spec

variable {α : Type}

/-- Between `m` and `m'` arrays were only added, and among the cells of the arrays of `m` only those in `may` can have been written. -/
structure Keeps (m m' : Mem α) (may : Nat → Nat → Prop) : Prop where
  next : m.next ≤ m'.next
  length : ∀ a < m.next, (m'.array a).length = (m.array a).length
  cells : ∀ a < m.next, ∀ i, ¬ may a i → (m'.array a)[i]? = (m.array a)[i]?

/-- The cells behind the end of a slice, at most `n` of them and only as far as its capacity goes. -/
def Behind (s : Slice) (n : Nat) (a i : Nat) : Prop :=
  a = s.arr ∧ s.off + s.len ≤ i ∧ i < s.off + s.len + n ∧ i < s.off + s.cap

/-- `s'` in `m'` is `s` in `m` with `vs` appended: in the same array if there was room, otherwise in a new one. -/
structure Appended (m : Mem α) (s : Slice) (vs : List α) (m' : Mem α) (s' : Slice) : Prop where
  wf : m'.Wf s'
  read : m'.read s' = m.read s ++ vs
  len : s'.len = s.len + vs.length
  keeps : Keeps m m' (Behind s vs.length)
  room : s.len + vs.length ≤ s.cap → s'.arr = s.arr ∧ s'.off = s.off ∧ s'.cap = s.cap ∧ m'.next = m.next
  noRoom : s.cap < s.len + vs.length → m.next ≤ s'.arr

/-- `s'` is a new slice with the elements `vs`, and nothing allocated before was written to. -/
structure FreshSlice (m : Mem α) (vs : List α) (m' : Mem α) (s' : Slice) : Prop where
  wf : m'.Wf s'
  read : m'.read s' = vs
  new : m.next ≤ s'.arr
  keeps : Keeps m m' fun _ _ => False

/-- As `FreshSlice`, in one allocation of exactly the size needed. -/
structure Exact (m : Mem α) (vs : List α) (m' : Mem α) (s' : Slice) : Prop extends FreshSlice m vs m' s' where
  once : m'.next = m.next + 1
  full : s'.cap = vs.length

/-- Two slices without a common cell, taken up to their capacities. -/
def Apart (s t : Slice) : Prop := s.arr ≠ t.arr ∨ s.off + s.cap ≤ t.off ∨ t.off + t.cap ≤ s.off

end Verif.Spec
