/-!
# Go run-time conventions

Outcomes of a call, byte sequences, slices with capacity, fixed-size little/big-endian integers and 64-bit `int` wrap-around.
Nothing here models a function of /repo; it models the Go language and `encoding/binary`, as used by every file of /repo.
-/
namespace Verif

/-- A Go `[]byte` whose capacity and aliasing do not matter, or a Go `string` (a Go string is a byte sequence). -/
abbrev Bytes := List UInt8

/-- Outcome of a Go call: a value, a non-nil `error`, or a run-time panic. -/
inductive Res (α : Type) where
  | ok (a : α)
  | err (msg : String)
  | panic
deriving DecidableEq, Repr

namespace Res

/-- Sequencing: an error or a panic ends the computation (Go's `if err != nil { return err }` / unwinding). -/
protected def bind {α β : Type} (x : Res α) (f : α → Res β) : Res β :=
  match x with
  | .ok a => f a
  | .err m => .err m
  | .panic => .panic

instance : Monad Res where
  pure := Res.ok
  bind := Res.bind

/-- `true` for a normal return without error. -/
def isOk {α : Type} : Res α → Bool
  | .ok _ => true
  | _ => false

/-- `true` for an error return. -/
def isErr {α : Type} : Res α → Bool
  | .err _ => true
  | _ => false

@[simp] theorem pure_eq {α : Type} (a : α) : (pure a : Res α) = .ok a := rfl
@[simp] theorem ok_bind {α β : Type} (a : α) (f : α → Res β) : (Res.ok a >>= f) = f a := rfl
@[simp] theorem err_bind {α β : Type} (m : String) (f : α → Res β) : (Res.err m >>= f) = .err m := rfl
@[simp] theorem panic_bind {α β : Type} (f : α → Res β) : (Res.panic >>= f) = .panic := rfl
@[simp] theorem isOk_ok {α : Type} (a : α) : (Res.ok a).isOk = true := rfl
@[simp] theorem isOk_err {α : Type} (m : String) : (Res.err m : Res α).isOk = false := rfl
@[simp] theorem isOk_panic {α : Type} : (Res.panic : Res α).isOk = false := rfl
@[simp] theorem isErr_ok {α : Type} (a : α) : (Res.ok a).isErr = false := rfl
@[simp] theorem isErr_err {α : Type} (m : String) : (Res.err m : Res α).isErr = true := rfl
@[simp] theorem isErr_panic {α : Type} : (Res.panic : Res α).isErr = false := rfl

theorem bind_eq_ok {α β : Type} {x : Res α} {f : α → Res β} {b : β} :
    (x >>= f) = .ok b ↔ ∃ a, x = .ok a ∧ f a = .ok b := by
  cases x <;> simp

theorem bind_eq_panic {α β : Type} {x : Res α} {f : α → Res β} :
    (x >>= f) = .panic ↔ x = .panic ∨ ∃ a, x = .ok a ∧ f a = .panic := by
  cases x <;> simp

theorem bind_eq_err {α β : Type} {x : Res α} {f : α → Res β} {m : String} :
    (x >>= f) = .err m ↔ x = .err m ∨ ∃ a, x = .ok a ∧ f a = .err m := by
  cases x <;> simp

instance : LawfulMonad Res := LawfulMonad.mk'
  (id_map := by intro α x; cases x <;> rfl)
  (pure_bind := by intros; rfl)
  (bind_assoc := by intro α β γ x f g; cases x <;> rfl)

end Res

/-- Go's index expression `l[i]` for a non-negative `i`: panics when out of range. -/
def index {α : Type} (l : List α) (i : Nat) : Res α :=
  match l[i]? with
  | some a => .ok a
  | none => .panic

/-- A byte slice with its spare capacity: `data` are the `len` visible bytes, `spare` the bytes of the
backing array between `len` and `cap`. -/
structure Slice where
  data : Bytes
  spare : Bytes
deriving DecidableEq, Repr

namespace Slice

/-- A slice whose capacity equals its length. -/
def exact (b : Bytes) : Slice := ⟨b, []⟩

/-- `len(s)` -/
def len (s : Slice) : Nat := s.data.length

/-- `cap(s)` -/
def cap (s : Slice) : Nat := s.data.length + s.spare.length

/-- `s[lo:]`: panics unless `0 <= lo <= len(s)`. -/
def sliceFrom (s : Slice) (lo : Int) : Res Slice :=
  if 0 ≤ lo ∧ lo ≤ (s.len : Int) then .ok ⟨s.data.drop lo.toNat, s.spare⟩ else .panic

/-- `s[lo:hi]`: panics unless `0 <= lo <= hi <= cap(s)` — Go checks `hi` against the *capacity*, so the result may
contain bytes past `len(s)`. -/
def sliceRange (s : Slice) (lo hi : Int) : Res Slice :=
  if 0 ≤ lo ∧ lo ≤ hi ∧ hi ≤ (s.cap : Int) then
    let all := s.data ++ s.spare
    .ok ⟨(all.take hi.toNat).drop lo.toNat, all.drop hi.toNat⟩
  else .panic

end Slice

/-- `n` little-endian bytes of `v` (`binary.LittleEndian.PutUintN`; higher digits are dropped). -/
def leBytes : Nat → Nat → Bytes
  | 0, _ => []
  | n + 1, v => UInt8.ofNat (v % 256) :: leBytes n (v / 256)

/-- Little-endian value of a byte string (`binary.LittleEndian.UintN`). -/
def leNat : Bytes → Nat
  | [] => 0
  | b :: bs => b.toNat + 256 * leNat bs

/-- Big-endian value of a byte string (`binary.BigEndian.UintN`, `big.Int.SetBytes`). -/
def beNat (b : Bytes) : Nat := b.foldl (fun acc x => acc * 256 + x.toNat) 0

/-- `binary.LittleEndian.PutUint16` into a fresh 2-byte buffer. -/
def putUint16 (v : UInt16) : Bytes := leBytes 2 v.toNat
/-- `binary.LittleEndian.PutUint32` into a fresh 4-byte buffer. -/
def putUint32 (v : UInt32) : Bytes := leBytes 4 v.toNat
/-- `binary.LittleEndian.PutUint64` into a fresh 8-byte buffer. -/
def putUint64 (v : UInt64) : Bytes := leBytes 8 v.toNat

/-- `binary.LittleEndian.Uint16(b)`: panics when `len(b) < 2`. -/
def getUint16 (b : Bytes) : Res UInt16 :=
  if b.length < 2 then .panic else .ok (UInt16.ofNat (leNat (b.take 2)))
/-- `binary.LittleEndian.Uint32(b)`: panics when `len(b) < 4`. -/
def getUint32 (b : Bytes) : Res UInt32 :=
  if b.length < 4 then .panic else .ok (UInt32.ofNat (leNat (b.take 4)))
/-- `binary.LittleEndian.Uint64(b)`: panics when `len(b) < 8`. -/
def getUint64 (b : Bytes) : Res UInt64 :=
  if b.length < 8 then .panic else .ok (UInt64.ofNat (leNat (b.take 8)))

/-- Two's-complement wrap-around of Go's 64-bit `int`. -/
def wrap64 (x : Int) : Int := (x + 2 ^ 63) % 2 ^ 64 - 2 ^ 63

/-- The conversion `int(l)` of a `uint64`. -/
def intOfUint64 (l : UInt64) : Int := wrap64 l.toNat

/-- An ASCII/UTF-8 string literal as the byte sequence Go sees. -/
syntax:max "b!" str : term
macro_rules
  | `(b! $s:str) => do
    let xs := s.getString.toUTF8.toList.map fun b => Lean.Syntax.mkNumLit (toString b.toNat)
    `(([$(xs.toArray),*] : List UInt8))

end Verif
