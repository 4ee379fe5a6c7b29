import Verif.Model.ConcScript
import Verif.Spec.ConcBuild
/-!
# Specification: what goroutines that append to one script may leave behind
-/
namespace Verif.Spec
open Verif

/-- Call number `t` succeeds, and the bytes it appends are `d`. -/
def Puts (ops : List ScriptAppend) (t : Nat) (d : Bytes) : Prop := ∃ op, ops[t]? = some op ∧ op.bytes = .ok d

/-- `ts` are different calls that succeed, and they append `n` bytes in all. -/
def Together (ops : List ScriptAppend) (ts : List Nat) (n : Nat) : Prop := ts.Nodup ∧ ∃ ds, List.Forall₂ (Puts ops) ts ds ∧ n = ds.flatten.length

/-- What can be seen in the script: the bytes that were there at the start (`base`), untouched, and behind them as many bytes as the calls `ts` append. Call number `t` writes from position `off t` on, which is
the length of the base and of what some other calls append; and each byte behind the base is the byte that some call writes to its place. -/
structure Mixture (ops : List ScriptAppend) (base : Bytes) (ts : List Nat) (off : Nat → Nat) (l : Bytes) : Prop where
  keeps : ∃ rest, l = base ++ rest ∧ Together ops ts rest.length
  starts : ∀ t, ∃ us n, Together ops us n ∧ t ∉ us ∧ off t = base.length + n
  bytes : ∀ p x, base.length ≤ p → l[p]? = some x → ∃ t d i, Puts ops t d ∧ d[i]? = some x ∧ p = off t + i

/-- What is left of the memory `m` is the same in `m'`, but for the spare capacity of the slice `v`. -/
def OnlySpare (m : Mem) (v : Hdr) (m' : Mem) : Prop :=
  m.length ≤ m'.length ∧ ∀ a < m.length, (m'.bytes a).length = (m.bytes a).length ∧
    ∀ p, ¬ (a = v.arr ∧ v.off + v.len ≤ p ∧ p < v.off + v.cap) → (m'.bytes a)[p]? = (m.bytes a)[p]?

end Verif.Spec
