import Verif.Go.Basic
/-!
# Memory: backing arrays and slice headers

Go slices are views into arrays; `append` writes into the array when the capacity allows. This file models that part of the language.
-/
namespace Verif

/-- Memory: array number `k` is the `k`-th list. Arrays are never freed. -/
abbrev Mem := List Bytes

/-- A Go slice header: array, offset, length, capacity. -/
structure Hdr where
  arr : Nat
  off : Nat
  len : Nat
  cap : Nat
deriving DecidableEq, Repr

/-- The contents of array `a` (nothing for an array that does not exist). -/
def Mem.bytes (m : Mem) (a : Nat) : Bytes := m.getD a []

/-- Allocate an array. -/
def Mem.alloc (m : Mem) (b : Bytes) : Mem := m ++ [b]

/-- Overwrite array `a` from position `pos` with `b` (`copy(array[pos:], b)`). -/
def Mem.write (m : Mem) (a pos : Nat) (b : Bytes) : Mem :=
  m.set a ((m.bytes a).take pos ++ b ++ (m.bytes a).drop (pos + b.length))

/-- A header that a Go program can hold: length within capacity, capacity within the array. -/
structure Hdr.WF (m : Mem) (h : Hdr) : Prop where
  arr : h.arr < m.length
  len : h.len ≤ h.cap
  cap : h.off + h.cap ≤ (m.bytes h.arr).length

/-- What is visible through a header: the elements, and the bytes between length and capacity. -/
def Hdr.view (m : Mem) (h : Hdr) : Slice :=
  ⟨((m.bytes h.arr).drop h.off).take h.len, ((m.bytes h.arr).drop (h.off + h.len)).take (h.cap - h.len)⟩

/-- The elements of a slice. -/
def Hdr.data (m : Mem) (h : Hdr) : Bytes := (h.view m).data

/-- `s[lo:]`: panics unless `0 <= lo <= len(s)`. -/
def Hdr.sliceFrom (h : Hdr) (lo : Int) : Res Hdr :=
  if 0 ≤ lo ∧ lo ≤ (h.len : Int) then .ok ⟨h.arr, h.off + lo.toNat, h.len - lo.toNat, h.cap - lo.toNat⟩ else .panic

/-- `s[lo:hi]`: panics unless `0 <= lo <= hi <= cap(s)`. The result keeps the capacity up to the end. -/
def Hdr.sliceRange (h : Hdr) (lo hi : Int) : Res Hdr :=
  if 0 ≤ lo ∧ lo ≤ hi ∧ hi ≤ (h.cap : Int) then .ok ⟨h.arr, h.off + lo.toNat, hi.toNat - lo.toNat, h.cap - lo.toNat⟩ else .panic

/-- A freshly allocated slice holding `b`, with `spare` more bytes of capacity (zeroed). -/
def Mem.fresh (m : Mem) (b : Bytes) (spare : Nat) : Mem × Hdr :=
  (m.alloc (b ++ List.replicate spare 0), ⟨m.length, 0, b.length, b.length + spare⟩)

/-- `append(s, b...)` where `b` are the bytes to add (already read): in place when the capacity suffices, else into a new array with
`grow` bytes of extra capacity (the growth policy of the runtime is not fixed here: `grow` is arbitrary). -/
def Mem.append (grow : Nat) (m : Mem) (h : Hdr) (b : Bytes) : Mem × Hdr :=
  if h.len + b.length ≤ h.cap then (m.write h.arr (h.off + h.len) b, { h with len := h.len + b.length })
  else m.fresh (h.data m ++ b) grow

/-- Assigning elements through a slice, `copy(s, b)` with `len(b) <= len(s)`, or `s[i] = x` for several `i`. -/
def Mem.copy (m : Mem) (h : Hdr) (b : Bytes) : Mem := m.write h.arr h.off (b.take h.len)

end Verif
