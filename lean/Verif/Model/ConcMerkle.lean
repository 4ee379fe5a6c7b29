import Verif.Model.Block
/-!
# Goroutines that build Merkle roots from slices of one array

`BuildMerkleRootFromCoinbase` (block/BuildMerkleRootFromCoinbase.go:11-21) appends the first branch to its argument: `concat := append(acc, branch...)` with `acc := coinbaseHash`. If the slice has room, the branch is
written behind the hash into the caller's array, and `Sha256d` reads it from there. Here any number of goroutines call it, each with a slice of one array and branches of its own. From the second round on `acc` is the
goroutine's own (an array returned by `Sha256d`, without room), so only the first round touches the array.

Simplifications: sequentially consistent interleaving of single accesses; bytes are moved one at a time, lowest first (the finest interleaving: the runtime moves words, the hash function blocks); the branches are texts nobody
writes; the work on the goroutine's own memory is part of the step that ends the round.
-/
namespace Verif.Mrk
open Verif

/-- A call of `BuildMerkleRootFromCoinbase`, block/BuildMerkleRootFromCoinbase.go:11: where its slice lies in the array, and the branches. -/
structure Call where
  off : Nat
  len : Nat
  cap : Nat
  branches : List Bytes
deriving DecidableEq, Repr

/-- Where a goroutine is inside `BuildMerkleRootFromCoinbase`. -/
inductive PC where
  /-- block/BuildMerkleRootFromCoinbase.go:12, about to enter the loop -/
  | begin
  /-- :16, `append` in place, about to write byte `i` of the branch -/
  | write (i : Nat)
  /-- :16, `append` into a new array, has copied `got` -/
  | copy (got : Bytes)
  /-- :17, `Sha256d`, has read `got` from the caller's array -/
  | hash (got : Bytes)
  /-- :20, returned: its argument (`none`) or a hash of its own -/
  | done (r : Option Bytes)
deriving DecidableEq, Repr

/-- One step of `BuildMerkleRootFromCoinbase`, block/BuildMerkleRootFromCoinbase.go:11-21, on the array: the array, the place and the accesses (write?, position). -/
def pcStep (H : HashFns) (mem : Bytes) (k : Call) : PC → Bytes × PC × List (Bool × Nat)
  | .begin =>
    match k.branches with
    | [] => (mem, .done none, [])
    | br :: _ => if k.len + (hexDecodeIgnore br).length ≤ k.cap then (mem, .write 0, []) else (mem, .copy [], [])
  | .write i =>
    let branch := hexDecodeIgnore (k.branches.headD [])
    if i < branch.length then (mem.set (k.off + k.len + i) (branch.getD i 0), .write (i + 1), [(true, k.off + k.len + i)])
    else (mem, .hash [], [])
  | .copy got =>
    if got.length < k.len then (mem, .copy (got ++ [mem.getD (k.off + got.length) 0]), [(false, k.off + got.length)])
    else (mem, .done (some (BuildMerkleRootFromCoinbase H (Sha256d H (got ++ hexDecodeIgnore (k.branches.headD []))) k.branches.tail)), [])
  | .hash got =>
    if got.length < k.len + (hexDecodeIgnore (k.branches.headD [])).length then
      (mem, .hash (got ++ [mem.getD (k.off + got.length) 0]), [(false, k.off + got.length)])
    else (mem, .done (some (BuildMerkleRootFromCoinbase H (Sha256d H got) k.branches.tail)), [])
  | .done r => (mem, .done r, [])

/-- An access of goroutine `by_` to byte `at_` of the array. -/
structure Access where
  by_ : Nat
  write : Bool
  at_ : Nat
deriving DecidableEq, Repr

/-- A running program: the array, the goroutines with their calls, the accesses made so far. -/
structure Sys where
  mem : Bytes
  threads : List (Call × PC)
  log : List Access

/-- Goroutine `t` makes a step. -/
def step (H : HashFns) (s : Sys) (t : Nat) : Sys :=
  match s.threads[t]? with
  | none => s
  | some (k, pc) =>
    let r := pcStep H s.mem k pc
    ⟨r.1, s.threads.set t (k, r.2.1), s.log ++ r.2.2.map fun a => ⟨t, a.1, a.2⟩⟩

/-- The program after a schedule. -/
def run (H : HashFns) (s : Sys) (schedule : List Nat) : Sys := schedule.foldl (step H) s

/-- One goroutine for each call, on the array `mem`. -/
def start (mem : Bytes) (calls : List Call) : Sys := ⟨mem, calls.map fun k => (k, .begin), []⟩

end Verif.Mrk
