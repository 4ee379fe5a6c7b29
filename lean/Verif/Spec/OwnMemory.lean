import Verif.Go.Heap
/-!
# Returned slices that belong to the caller
-/
namespace Verif

/-- A call made in memory `m` has returned the slice `r.2` and left memory `r.1`: no array that existed was changed, and the slice returned is in an array that did not exist before. -/
structure OwnMemory (m : Mem) (r : Mem × Hdr) : Prop where
  kept : ∀ a < m.length, r.1.bytes a = m.bytes a
  new : m.length ≤ r.2.arr
  usable : r.2.WF r.1

/-- What a caller may do with a slice it got: assign elements, or append to it (`grow` is the runtime's choice). -/
inductive Use where
  | assign (b : Bytes)
  | append (b : Bytes) (grow : Nat)

/-- The memory and the slice afterwards. -/
def Use.run (u : Use) (s : Mem × Hdr) : Mem × Hdr :=
  match u with
  | .assign b => (s.1.copy s.2 b, s.2)
  | .append b grow => s.1.append grow s.2 b

/-- Several uses, one after the other. -/
def useAll (s : Mem × Hdr) : List Use → Mem × Hdr
  | [] => s
  | u :: us => useAll (u.run s) us

end Verif
