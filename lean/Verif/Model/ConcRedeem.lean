import Verif.Model.ConcBuild
import Verif.Model.SortSteps
/-!
# Goroutines that ask for a redeem script while others add keys to it

`GetRedeemScript` (script/RedeemScript.go:164-179) evaluates `rs.PublicKeys` three times: as the argument of `SortByteArrays`, which sorts the array it shows in place and whose result, the same slice, is then stored in
`rs.PublicKeys`; for the loop over the keys; and for the number of keys. `AddPublicKey` (:117-149) ends with `rs.PublicKeys = append(rs.PublicKeys, ...)`, as in Model/ConcBuild. The sort is done access by access as in Model/SortSteps.

Simplifications: as in Model/ConcBuild and Model/SortSteps (sequentially consistent; a slice header, and an element, which is a slice whose bytes no call writes, in one step). `rs.SignaturesRequired` (`m`) is written by no call.
-/
namespace Verif.Keys
open Verif Verif.Op
open Verif.Build (Pool Loc Access)
open Verif.Obj (RefSlice)
open Verif.Redeem (SortAlg)

/-- Where a goroutine is inside `GetRedeemScript`. -/
inductive CPC (St : Type) where
  /-- RedeemScript.go:168, about to evaluate the argument -/
  | load
  /-- :168, in `sort.Sort` of the keys that `h` shows -/
  | sort (h : RefSlice) (pc : Redeem.PC St)
  /-- :168, about to store the header -/
  | store (h : RefSlice)
  /-- :169, about to evaluate the range of the loop -/
  | range
  /-- :169-172, the keys read so far -/
  | walk (h : RefSlice) (acc : List Bytes)
  /-- :174, about to evaluate `len(rs.PublicKeys)` -/
  | count (acc : List Bytes)
  /-- :178, returned -/
  | done (script : Bytes)

/-- `sort.Sort` has returned. -/
def stopped (alg : SortAlg) : Redeem.PC alg.St → Bool
  | .sorting s => decide (alg.op s = .stop)
  | _ => false

/-- The arrays after the keys that `h` shows have become `b`. -/
def put (p : Pool Bytes) (h : RefSlice) (b : List Bytes) : Pool Bytes :=
  { p with arrays := p.arrays.set h.arr (b ++ (p.arrays.getD h.arr []).drop b.length) }

/-- An access made by the sort, in the array of `h`. -/
def place (h : RefSlice) : Redeem.Loc → Loc
  | .header => .header 0
  | .elem k => .elem 0 h.arr k

/-- One step of `GetRedeemScript`, script/RedeemScript.go:164-179; `none` is a panic. -/
def cstep (alg : SortAlg) (m : Int) (p : Pool Bytes) : CPC alg.St → Option (Pool Bytes × CPC alg.St × List (Bool × Loc))
  | .load => some (p, .sort p.hdr (.sorting (alg.init p.hdr.len)), [(false, .header 0)])
  | .sort h pc =>
    if stopped alg pc then some (p, .store h, [])
    else match Redeem.pcStep alg m (p.elems h) pc with
      | .ok (b, pc', acc) => some (put p h b, .sort h pc', acc.map fun a => (a.1, place h a.2))
      | _ => none
  | .store h => some ({ p with hdr := h }, .range, [(true, .header 0)])
  | .range => some (p, .walk p.hdr [], [(false, .header 0)])
  | .walk h acc =>
    if acc.length < h.len then some (p, .walk h (acc ++ [(p.arrays.getD h.arr []).getD acc.length default]), [(false, .elem 0 h.arr acc.length)])
    else some (p, .count acc, [])
  | .count acc => some (p, .done (Redeem.encode m acc p.hdr.len), [(false, .header 0)])
  | .done script => some (p, .done script, [])

/-- A running program: the goroutines that add keys, with `rs.PublicKeys` (variable 0) and the log; those inside `GetRedeemScript`; whether one has panicked. -/
structure Sys (alg : SortAlg) where
  app : Build.Sys Bytes
  calls : List (CPC alg.St)
  crashed : Bool

/-- Goroutine `t` makes a step: the first numbers are the goroutines that add, the next those that ask for the script. Nobody steps after a panic. -/
def step (alg : SortAlg) (m : Int) (g : Nat → Nat) (s : Sys alg) (t : Nat) : Sys alg :=
  if s.crashed then s
  else if t < s.app.threads.length then { s with app := Build.step g s.app t }
  else match s.calls[t - s.app.threads.length]? with
    | none => s
    | some pc =>
      match cstep alg m (s.app.pool 0) pc with
      | none => { s with crashed := true }
      | some r => { s with
          app := { s.app with pool := fun f => if f = 0 then r.1 else s.app.pool f, log := s.app.log ++ r.2.2.map fun a => ⟨t, a.1, a.2⟩ }
          calls := s.calls.set (t - s.app.threads.length) r.2.1 }

/-- The program after a schedule. -/
def run (alg : SortAlg) (m : Int) (g : Nat → Nat) (s : Sys alg) (schedule : List Nat) : Sys alg := schedule.foldl (step alg m g) s

/-- The program when goroutines are started: one for each key that is added, and `n` that ask for the redeem script. -/
def start (alg : SortAlg) (p : Pool Bytes) (added : List Bytes) (n : Nat) : Sys alg :=
  ⟨Build.start (fun _ => p) (added.map fun k => (0, k)), List.replicate n .load, false⟩

/-- The keys that the redeem script has. -/
def Sys.keys {alg : SortAlg} (s : Sys alg) : List Bytes := (s.app.pool 0).val

end Verif.Keys
