import Verif.Model.ConcBuild
import Mathlib.Data.List.Forall2
/-!
# Specification: what goroutines that add to one slice may leave behind
-/
namespace Verif.Spec
open Verif Verif.Build

variable {α : Type}

/-- A slice variable as a Go program can hold it: length within capacity, capacity within the array. -/
def SliceOK (p : Pool α) : Prop := p.hdr.len ≤ p.hdr.cap ∧ p.hdr.cap ≤ (p.arrays.getD p.hdr.arr []).length

/-- `xs` are the elements added to variable `f` by the goroutines `ts`, in this order. -/
def AddedBy (jobs : List (Nat × α)) (f : Nat) (ts : List Nat) (xs : List α) : Prop := List.Forall₂ (fun t x => jobs[t]? = some (f, x)) ts xs

/-- `l` is `base` followed by what some goroutines added, each of them once; the others' elements are lost. -/
def Outcome (jobs : List (Nat × α)) (f : Nat) (base : List α) (ts : List Nat) (l : List α) : Prop :=
  ts.Nodup ∧ ∃ xs, AddedBy jobs f ts xs ∧ l = base ++ xs

/-- Two of the accesses race: different goroutines, the same place, at least one write. (Nothing orders the accesses of different goroutines.) -/
def BuildRace (log : List Access) : Prop := ∃ a ∈ log, ∃ b ∈ log, a.by_ ≠ b.by_ ∧ a.loc = b.loc ∧ a.write = true

end Verif.Spec
