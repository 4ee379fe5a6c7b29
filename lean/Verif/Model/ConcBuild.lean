import Verif.Model.Objects
/-!
# Goroutines that add to one transaction or redeem script

`bt.Inputs = append(bt.Inputs, input)` (transaction/Transaction.go:118-120 `AddInput`, also reached from `From` :123-141), `bt.Outputs = append(bt.Outputs, output)` (:154-157 `AddOutput`, also
reached from `PayTo` :161-169) and `rs.PublicKeys = append(rs.PublicKeys, ...)` (script/RedeemScript.go:120-149 `AddPublicKey`), made by several goroutines on one object. The code uses no lock. What
the calls do before (building the new input, output or key) touches nothing shared. The statement is cut into its accesses to shared memory: reading the slice header, then either writing the element into the
spare capacity, or copying the elements one by one into a new array; then storing the header. A schedule, any list of goroutine numbers, says who makes the next step.

A slice variable (`bt.Inputs`, `bt.Outputs`, `rs.PublicKeys`) has a number; slices of different variables have different arrays, as they have different element types or belong to objects
built separately. `α` is the type of the elements.

Simplifications: the interleaving is sequentially consistent and a slice header is loaded and stored in one step (Go promises neither for executions with a data race; Props/ConcBuild says which have one).
-/
namespace Verif.Build
open Verif
open Verif.Obj (RefSlice)

/-- A slice variable: its header and the arrays its headers can refer to. -/
structure Pool (α : Type) where
  arrays : List (List α)
  hdr : RefSlice

/-- The elements a header shows (the first `len` of its array). -/
def Pool.elems {α : Type} (p : Pool α) (s : RefSlice) : List α := (p.arrays.getD s.arr []).take s.len

/-- The elements of the variable. -/
def Pool.val {α : Type} (p : Pool α) : List α := p.elems p.hdr

/-- Where a goroutine is in `x = append(x, e)`. -/
inductive PC (α : Type) where
  /-- about to read the header -/
  | load
  /-- has the header; `append` looks at the capacity -/
  | place (s : RefSlice)
  /-- has copied `acc` of the elements shown by `s` for a new array -/
  | copy (s : RefSlice) (acc : List α)
  /-- about to store the new header -/
  | store (h : RefSlice)
  /-- has returned -/
  | done
deriving DecidableEq, Repr

/-- The shared memory: the header of a variable, or an element of one of its arrays. -/
inductive Loc where
  | header (f : Nat)
  | elem (f arr pos : Nat)
deriving DecidableEq, Repr

/-- One access to shared memory. -/
structure Access where
  by_ : Nat
  write : Bool
  loc : Loc
deriving DecidableEq, Repr

/-- One step of `x = append(x, e)` on variable number `f`: Transaction.go:119, :156, RedeemScript.go:146. `g` is how the runtime grows slices. -/
def pcStep {α : Type} [Inhabited α] (g : Nat → Nat) (f : Nat) (e : α) (p : Pool α) : PC α → Pool α × PC α × List (Bool × Loc)
  | .load => (p, .place p.hdr, [(false, .header f)])
  | .place s =>
    if s.len < s.cap then
      ({ p with arrays := p.arrays.set s.arr ((p.arrays.getD s.arr []).set s.len e) }, .store { s with len := s.len + 1 }, [(true, .elem f s.arr s.len)])
    else (p, .copy s [], [])
  | .copy s acc =>
    if acc.length < s.len then
      (p, .copy s (acc ++ [(p.arrays.getD s.arr []).getD acc.length default]), [(false, .elem f s.arr acc.length)])
    else
      ({ p with arrays := p.arrays ++ [acc ++ [e] ++ List.replicate (g s.len) default] }, .store ⟨p.arrays.length, s.len + 1, s.len + 1 + g s.len⟩, [])
  | .store h => ({ p with hdr := h }, .done, [(true, .header f)])
  | .done => (p, .done, [])

/-- A goroutine: the variable it appends to, the element, and where it is. -/
structure Thread (α : Type) where
  field : Nat
  elem : α
  pc : PC α

/-- A running program. -/
structure Sys (α : Type) where
  pool : Nat → Pool α
  threads : List (Thread α)
  log : List Access

/-- Goroutine `t` makes a step. -/
def step {α : Type} [Inhabited α] (g : Nat → Nat) (s : Sys α) (t : Nat) : Sys α :=
  match s.threads[t]? with
  | none => s
  | some th =>
    let r := pcStep g th.field th.elem (s.pool th.field) th.pc
    { pool := fun f => if f = th.field then r.1 else s.pool f
      threads := s.threads.set t { th with pc := r.2.1 }
      log := s.log ++ r.2.2.map fun a => ⟨t, a.1, a.2⟩ }

/-- The program after a schedule. -/
def run {α : Type} [Inhabited α] (g : Nat → Nat) (s : Sys α) (schedule : List Nat) : Sys α := schedule.foldl (step g) s

/-- The program when the goroutines (variable, element) are started. -/
def start {α : Type} (pool : Nat → Pool α) (jobs : List (Nat × α)) : Sys α :=
  { pool := pool, threads := jobs.map fun j => ⟨j.1, j.2, .load⟩, log := [] }

/-- Every goroutine has returned. -/
def Sys.finished {α : Type} (s : Sys α) : Prop := ∀ x ∈ s.threads, x.pc = .done

end Verif.Build
