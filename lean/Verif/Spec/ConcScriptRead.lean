import Verif.Model.ConcScriptRead
import Verif.Spec.ConcScript
/-!
# Specification: appends that do not overlap
-/
namespace Verif.Spec
open Verif Verif.Torn

/-- Call number `t` has begun and has not returned. -/
def Busy (s : Sys) (t : Nat) : Prop := ∃ th, s.threads[t]? = some th ∧ th.pc ≠ .load ∧ th.pc ≠ .done

/-- Call number `t` has returned. -/
def Returned (s : Sys) (t : Nat) : Prop := ∃ th, s.threads[t]? = some th ∧ th.pc = .done

/-- In the course of the schedule no two appends overlap: one goroutine makes all of them, or a lock is held around each of them. -/
def Orderly (s : RSys) (sch : List Nat) : Prop := ∀ p q, sch = p ++ q → ∀ t u, Busy (s.run p).app t → Busy (s.run p).app u → t = u

/-- `l` is `base` and then what the calls `ts`, and no others, append, whole and in this order. -/
def Whole (ops : List ScriptAppend) (base : Bytes) (ts : List Nat) (l : Bytes) : Prop := ts.Nodup ∧ ∃ ds, List.Forall₂ (Puts ops) ts ds ∧ l = base ++ ds.flatten

end Verif.Spec
