import Verif.Model.Script
/-!
# Sorting the keys of a redeem script, access by access

`sort.Sort` (used by utils/ByteManipulation.go:36-40) sees the keys only through `Len`, `Less` and `Swap`, so an algorithm is a state machine that asks for one of these at a time. What is
proved about goroutines that call `GetRedeemScript` is proved for every such algorithm that sorts; Go's own `insertionSort`, which all versions use for a handful of elements (package
sort, zsortinterface.go), is one of them.
-/
namespace Verif.Redeem
open Verif Verif.Op

/-- What a sorting algorithm does next. -/
inductive SortOp where
  /-- call `Less(i, j)` -/
  | less (i j : Nat)
  /-- call `Swap(i, j)` -/
  | swap (i j : Nat)
  /-- return -/
  | stop
deriving DecidableEq, Repr

/-- A deterministic algorithm that works through `sort.Interface`: its state at the start for a given `Len()`, what it does in a state, and its next state given the answer of
`Less` (after `Swap`: given `false`). -/
structure SortAlg where
  St : Type
  init : Nat → St
  op : St → SortOp
  next : St → Bool → St

/-- The state of Go's `insertionSort(data, 0, n)`: the loop variables, and whether the last `Less(j, j-1)` said yes. -/
structure InsSt where
  n : Nat
  i : Nat
  j : Nat
  swapping : Bool
deriving DecidableEq, Repr

/-- Package sort, `insertionSort`: `for i := 1; i < n; i++ { for j := i; j > 0 && data.Less(j, j-1); j-- { data.Swap(j, j-1) } }`. -/
def insertionSort : SortAlg where
  St := InsSt
  init n := ⟨n, 1, 1, false⟩
  op s := if s.i < s.n then (if s.swapping then .swap s.j (s.j - 1) else .less s.j (s.j - 1)) else .stop
  next s yes :=
    if s.swapping then
      if s.j - 1 = 0 then ⟨s.n, s.i + 1, s.i + 1, false⟩ else ⟨s.n, s.i, s.j - 1, false⟩
    else if yes then ⟨s.n, s.i, s.j, true⟩
    else ⟨s.n, s.i + 1, s.i + 1, false⟩

/-- utils/ByteManipulation.go:18-29 `Less(i, j)` -/
def lessAt (b : List Bytes) (i j : Nat) : Res Bool := do
  let x ← index b i
  let y ← index b j
  pure (lessBytes x y)

/-- utils/ByteManipulation.go:31-33 `Swap(i, j)`: `b[j], b[i] = b[i], b[j]` -/
def swapAt (b : List Bytes) (i j : Nat) : Res (List Bytes) := do
  let x ← index b i
  let y ← index b j
  pure ((b.set j x).set i y)

/-- The algorithm run alone on `b`, for at most `fuel` calls of `Less` and `Swap`: the final contents, `none` if it has not returned, a panic for an index out of range. -/
def sortAlone (alg : SortAlg) : Nat → alg.St → List Bytes → Res (Option (List Bytes))
  | 0, s, b => match alg.op s with
    | .stop => .ok (some b)
    | _ => .ok none
  | fuel + 1, s, b => match alg.op s with
    | .stop => .ok (some b)
    | .less i j => do
      let yes ← lessAt b i j
      sortAlone alg fuel (alg.next s yes) b
    | .swap i j => do
      let b' ← swapAt b i j
      sortAlone alg fuel (alg.next s false) b'

/-! ## Goroutines that call `GetRedeemScript` on one `*RedeemScript` -/

/-- Where a goroutine is inside `GetRedeemScript`, script/RedeemScript.go:164-179. -/
inductive PC (St : Type) where
  /-- :168, in `sort.Sort`, about to do what the algorithm says: the first access of `Less` or `Swap` is the read of `b[i]`; on return the header is stored, `rs.PublicKeys = ...` -/
  | sorting (s : St)
  /-- ByteManipulation.go:20, `b[i]` is read, `b[j]` is not yet -/
  | less (s : St) (j : Nat) (x : Bytes)
  /-- ByteManipulation.go:32, `b[i]` is read, `b[j]` is not yet -/
  | swapRead (s : St) (i j : Nat) (x : Bytes)
  /-- ByteManipulation.go:32, both are read; about to write `b[j]` -/
  | swapFirst (s : St) (i j : Nat) (x y : Bytes)
  /-- ByteManipulation.go:32, about to write `b[i]` -/
  | swapSecond (s : St) (i : Nat) (y : Bytes)
  /-- :169-172, the keys read so far by the loop -/
  | build (acc : List Bytes)
  /-- :178, returned -/
  | done (script : Bytes)

/-- The memory that calls write: the slice header `rs.PublicKeys` and its elements. -/
inductive Loc where
  | header
  | elem (k : Nat)
deriving DecidableEq, Repr

/-- One access to shared memory. -/
structure Access where
  by_ : Nat
  write : Bool
  loc : Loc
deriving DecidableEq, Repr

/-- script/RedeemScript.go:164-179: the bytes written for `m` required signatures and the keys as read. -/
def encode (m : Int) (keys : List Bytes) (n : Nat) : Bytes :=
  [OpBASE + byteOfInt m] ++ redeemKeys keys ++ [OpBASE + byteOfInt (n : Int)] ++ [OpCHECKMULTISIG]

/-- One step of a goroutine. `m` is `rs.SignaturesRequired`, which no call writes; `b` is the array of keys (its elements are slices whose bytes no call writes; reading and writing
an element is one step here, although Go promises this only without data races). The result: the array, the new position, the accesses made. -/
def pcStep (alg : SortAlg) (m : Int) (b : List Bytes) : PC alg.St → Res (List Bytes × PC alg.St × List (Bool × Loc))
  | .sorting s => match alg.op s with
    | .stop => .ok (b, .build [], [(true, .header), (false, .header)])
    | .less i j => do
      let x ← index b i
      pure (b, .less s j x, [(false, .elem i)])
    | .swap i j => do
      let x ← index b i
      pure (b, .swapRead s i j x, [(false, .elem i)])
  | .less s j x => do
    let y ← index b j
    pure (b, .sorting (alg.next s (lessBytes x y)), [(false, .elem j)])
  | .swapRead s i j x => do
    let y ← index b j
    pure (b, .swapFirst s i j x y, [(false, .elem j)])
  | .swapFirst s i j x y => .ok (b.set j x, .swapSecond s i y, [(true, .elem j)])
  | .swapSecond s i y => .ok (b.set i y, .sorting (alg.next s false), [(true, .elem i)])
  | .build acc =>
    match b[acc.length]? with
    | some pk => .ok (b, .build (acc ++ [pk]), [(false, .elem acc.length)])
    | none => .ok (b, .done (encode m acc b.length), [(false, .header)])
  | .done script => .ok (b, .done script, [])

/-- A running program: the shared keys, the goroutines, whether one has panicked (which ends the program), the accesses so far. -/
structure Sys (alg : SortAlg) where
  keys : List Bytes
  threads : List (PC alg.St)
  crashed : Bool
  log : List Access

/-- Goroutine `t` makes a step. -/
def step (alg : SortAlg) (m : Int) (σ : Sys alg) (t : Nat) : Sys alg :=
  if σ.crashed then σ
  else match σ.threads[t]? with
    | none => σ
    | some pc =>
      match pcStep alg m σ.keys pc with
      | .ok (b, pc', acc) => { keys := b, threads := σ.threads.set t pc', crashed := false, log := σ.log ++ acc.map fun a => ⟨t, a.1, a.2⟩ }
      | _ => { σ with crashed := true }

/-- The program after a schedule (a list of goroutine numbers). -/
def run (alg : SortAlg) (m : Int) (σ : Sys alg) (schedule : List Nat) : Sys alg := schedule.foldl (step alg m) σ

/-- `n` goroutines about to call `GetRedeemScript` on a redeem script with these keys (`len(rs.PublicKeys)` never changes). -/
def start (alg : SortAlg) (keys : List Bytes) (n : Nat) : Sys alg :=
  { keys := keys, threads := List.replicate n (.sorting (alg.init keys.length)), crashed := false, log := [] }

end Verif.Redeem
