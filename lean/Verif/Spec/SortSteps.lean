import Verif.Model.SortSteps
import Verif.Props.Utils
/-!
# Specification: sorting algorithms, and data races of goroutines that share a redeem script
-/
namespace Verif.Spec
open Verif Verif.Redeem Verif.Props

/-- The algorithm sorts: run alone on any array it returns, without an index out of range, and leaves the array in non-decreasing order. (That the result has the same elements needs no
mention: only `Swap` changes the array.) -/
def Sorts (alg : SortAlg) : Prop :=
  ∀ b, ∃ fuel b', sortAlone alg fuel (alg.init b.length) b = .ok (some b') ∧ b'.Pairwise lexLe

/-- The calls of `Less` and `Swap` that the algorithm makes, run alone on `b`. -/
def opsAlone (alg : SortAlg) : Nat → alg.St → List Bytes → List SortOp
  | 0, _, _ => []
  | fuel + 1, s, b => match alg.op s with
    | .stop => []
    | .less i j => .less i j :: (match lessAt b i j with | .ok yes => opsAlone alg fuel (alg.next s yes) b | _ => [])
    | .swap i j => .swap i j :: (match swapAt b i j with | .ok b' => opsAlone alg fuel (alg.next s false) b' | _ => [])

/-- The algorithm swaps nothing in an array that is already in order. -/
def LeavesSorted (alg : SortAlg) : Prop :=
  ∀ b, b.Pairwise lexLe → ∀ fuel, ∀ o ∈ opsAlone alg fuel (alg.init b.length) b, ∀ i j, o ≠ .swap i j

/-- Two accesses of different goroutines to one place, at least one a write; nothing orders them, as the code uses no lock. -/
def RedeemRace (log : List Redeem.Access) : Prop := ∃ a ∈ log, ∃ b ∈ log, a.by_ ≠ b.by_ ∧ a.loc = b.loc ∧ a.write = true

/-- The states the algorithm can get to in an array of `n` elements, whatever `Less` answers (goroutines that swap behind its back make the answers inconsistent). -/
inductive CanReach (alg : SortAlg) (n : Nat) : alg.St → Prop
  | init : CanReach alg n (alg.init n)
  | less {s : alg.St} {i j : Nat} (yes : Bool) : CanReach alg n s → alg.op s = .less i j → CanReach alg n (alg.next s yes)
  | swap {s : alg.St} {i j : Nat} : CanReach alg n s → alg.op s = .swap i j → CanReach alg n (alg.next s false)

/-- The algorithm never asks for an index outside of the array, whatever `Less` answers. -/
def StaysInside (alg : SortAlg) : Prop :=
  ∀ n s, CanReach alg n s → (∀ i j, alg.op s = .less i j → i < n ∧ j < n) ∧ ∀ i j, alg.op s = .swap i j → i < n ∧ j < n

/-- What a goroutine does next is read an element that an array of `n` does not have. -/
def ReadsBeyond (alg : SortAlg) (n : Nat) : PC alg.St → Prop
  | .sorting s => ∃ i j, (alg.op s = .less i j ∨ alg.op s = .swap i j) ∧ n ≤ i
  | .less _ j _ => n ≤ j
  | .swapRead _ _ j _ => n ≤ j
  | _ => False

end Verif.Spec
