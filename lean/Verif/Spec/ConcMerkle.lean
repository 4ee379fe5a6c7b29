import Verif.Model.ConcMerkle
/-!
# Specification: goroutines that build Merkle roots from slices of one array
-/
namespace Verif.Spec
open Verif

/-- The slice of the call lies in the array. -/
def SliceOf (mem : Bytes) (k : Mrk.Call) : Prop := k.len ≤ k.cap ∧ k.off + k.cap ≤ mem.length

/-- The bytes of the slice. -/
def sliceBytes (mem : Bytes) (k : Mrk.Call) : Bytes := (mem.drop k.off).take k.len

/-- The bytes of the first branch of the call. -/
def firstBranch (k : Mrk.Call) : Bytes := hexDecodeIgnore (k.branches.headD [])

/-- The slice has room for the first branch. -/
def HasRoom (k : Mrk.Call) : Prop := k.branches ≠ [] ∧ k.len + (firstBranch k).length ≤ k.cap

/-- The call puts byte `b` at position `p` of the array: the bytes of the first branch right behind the slice, if there is room. -/
def PutsAt (k : Mrk.Call) (p : Nat) (b : UInt8) : Prop := HasRoom k ∧ ∃ i, p = k.off + k.len + i ∧ (firstBranch k)[i]? = some b

/-- The call uses position `p` of the array: a byte of its slice, or one that it puts there itself. -/
def UsesAt (k : Mrk.Call) (p : Nat) : Prop := (k.branches ≠ [] ∧ k.off ≤ p ∧ p < k.off + k.len) ∨ ∃ b, PutsAt k p b

/-- Byte `b` can be at position `p` when call `k` looks: some call puts it there, or it was there before and `k` itself puts nothing there. -/
def MaySee (mem : Bytes) (calls : List Mrk.Call) (k : Mrk.Call) (p : Nat) (b : UInt8) : Prop :=
  (∃ k' ∈ calls, PutsAt k' p b) ∨ (mem[p]? = some b ∧ ∀ b', ¬ PutsAt k p b')

/-- `x` can be what call `k` hashes first: bytes it may see in its slice, then its first branch, or, if that is written behind the slice, bytes it may see there. -/
def MayHash (mem : Bytes) (calls : List Mrk.Call) (k : Mrk.Call) (x : Bytes) : Prop :=
  x.length = k.len + (firstBranch k).length ∧
  (∀ i b, x[i]? = some b → (i < k.len ∨ HasRoom k) → MaySee mem calls k (k.off + i) b) ∧
  (¬ HasRoom k → x.drop k.len = firstBranch k)

/-- One call puts a byte where another looks, or puts one itself. -/
def Clash (calls : List Mrk.Call) : Prop :=
  ∃ (i j : Nat) (ki kj : Mrk.Call) (p : Nat) (b : UInt8), i ≠ j ∧ calls[i]? = some ki ∧ calls[j]? = some kj ∧ PutsAt ki p b ∧ UsesAt kj p

/-- Goroutine `t` has returned: `none` is the slice it was given. -/
def RootGiven (s : Mrk.Sys) (t : Nat) (r : Option Bytes) : Prop := ∃ k, s.threads[t]? = some (k, .done r)

/-- All goroutines have returned. -/
def AllRoots (s : Mrk.Sys) : Prop := ∀ x ∈ s.threads, ∃ r, x.2 = .done r

/-- Two goroutines accessed one byte, one of them to write it (nothing synchronises them). -/
def ArrayRace (log : List Mrk.Access) : Prop := ∃ a ∈ log, ∃ b ∈ log, a.by_ ≠ b.by_ ∧ a.at_ = b.at_ ∧ a.write = true

end Verif.Spec
