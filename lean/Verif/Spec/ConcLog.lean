import Verif.Model.ConcBuild
import Verif.Model.ConcScript
/-!
# Specification: what is at a place of shared memory
-/
namespace Verif.Spec
open Verif

/-- What is at a place of the variables: a header, or an element of an array (nothing where there is no array, or no such place in it). -/
def shownAt {α : Type} (pool : Nat → Build.Pool α) : Build.Loc → Option (Obj.RefSlice ⊕ α)
  | .header f => some (.inl (pool f).hdr)
  | .elem f a i => ((pool f).arrays[a]?.bind (·[i]?)).map .inr

/-- What is at a place of the memory with one script variable, which has number 0. -/
def scriptAt (m : Mem) (v : Hdr) : Build.Loc → Option (Hdr ⊕ UInt8)
  | .header f => if f = 0 then some (.inl v) else none
  | .elem f a i => if f = 0 then (m[a]?.bind (·[i]?)).map .inr else none

end Verif.Spec
