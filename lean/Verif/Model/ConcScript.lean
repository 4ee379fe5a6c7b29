import Verif.Model.Heap
import Verif.Model.ConcBuild
/-!
# Goroutines that append to one script

`*s = append(*s, p...)` (script/Script.go:129-137 `AppendPushData`, :155-163 `AppendPushDataArray`, :176-178 `AppendOpCode`; the hex, string and strings forms call the first two), made by several goroutines
on one `*Script`. The code uses no lock. What the calls do before (`EncodeParts`, into a buffer of their own) touches nothing shared, and a call that fails touches nothing shared at all. The statement is cut
into its accesses to shared memory: reading the slice header; then either writing the new bytes, one after the other, into the spare capacity, or copying the old bytes, one after the other, into a new array;
then storing the header. A schedule, any list of goroutine numbers, says who makes the next step.

Simplifications: the interleaving is sequentially consistent and a slice header is loaded and stored in one step (Go promises neither for executions with a data race; Props/ConcScript says which have one).
Bytes are moved one at a time, lowest first (the runtime may move several at once: some of the mixtures below are then not seen).
-/
namespace Verif.Torn
open Verif
open Verif.Build (Loc Access)

/-- Where a goroutine is in `*s = append(*s, p...)`. -/
inductive PC where
  /-- about to read the header -/
  | load
  /-- has the header; `append` looks at the capacity -/
  | place (s : Hdr)
  /-- has written `i` bytes behind the elements of `s` -/
  | write (s : Hdr) (i : Nat)
  /-- has copied `acc` of the bytes shown by `s` for a new array -/
  | copy (s : Hdr) (acc : Bytes)
  /-- about to store the new header -/
  | store (h : Hdr)
  /-- has returned -/
  | done
deriving DecidableEq, Repr

/-- One step of `*s = append(*s, d...)`: script/Script.go:135, :161, :177. `k` is the extra capacity the runtime takes if it makes a new array. The memory and the script variable are `m` and `v`; variable and
arrays get number 0 in the log of accesses. -/
def pcStep (d : Bytes) (k : Nat) (m : Mem) (v : Hdr) : PC → Mem × Hdr × PC × List (Bool × Loc)
  | .load => (m, v, .place v, [(false, .header 0)])
  | .place s => if s.len + d.length ≤ s.cap then (m, v, .write s 0, []) else (m, v, .copy s [], [])
  | .write s i =>
    if i < d.length then (m.write s.arr (s.off + s.len + i) [d.getD i 0], v, .write s (i + 1), [(true, .elem 0 s.arr (s.off + s.len + i))])
    else (m, v, .store { s with len := s.len + d.length }, [])
  | .copy s acc =>
    if acc.length < s.len then (m, v, .copy s (acc ++ [(m.bytes s.arr).getD (s.off + acc.length) 0]), [(false, .elem 0 s.arr (s.off + acc.length))])
    else ((m.fresh (acc ++ d) k).1, v, .store (m.fresh (acc ++ d) k).2, [])
  | .store h => (m, h, .done, [(true, .header 0)])
  | .done => (m, v, .done, [])

/-- A goroutine: the bytes its call appends, the runtime's choice, and where it is. -/
structure Thread where
  data : Bytes
  grow : Nat
  pc : PC
deriving DecidableEq, Repr

/-- A running program: memory, the script variable, the goroutines, and the accesses so far. -/
structure Sys where
  mem : Mem
  hdr : Hdr
  threads : List Thread
  log : List Access

/-- Goroutine `t` makes a step. -/
def step (s : Sys) (t : Nat) : Sys :=
  match s.threads[t]? with
  | none => s
  | some th =>
    let r := pcStep th.data th.grow s.mem s.hdr th.pc
    { mem := r.1, hdr := r.2.1, threads := s.threads.set t { th with pc := r.2.2.1 }, log := s.log ++ r.2.2.2.map fun a => ⟨t, a.1, a.2⟩ }

/-- The program after a schedule. -/
def run (s : Sys) (schedule : List Nat) : Sys := schedule.foldl step s

/-- The goroutine that makes call `op`: when the call fails (script/Script.go:131-133, :157-159) it returns before it touches the script. -/
def thread (op : ScriptAppend) : Thread :=
  match op.bytes with
  | .ok p => ⟨p, op.grow, .load⟩
  | _ => ⟨[], op.grow, .done⟩

/-- The program when the goroutines are started, one for each call, all on the script variable `v`. -/
def start (m : Mem) (v : Hdr) (ops : List ScriptAppend) : Sys := ⟨m, v, ops.map thread, []⟩

/-- The bytes of the script. -/
def Sys.script (s : Sys) : Bytes := s.hdr.data s.mem

/-- Every goroutine has returned. -/
def Sys.finished (s : Sys) : Prop := ∀ x ∈ s.threads, x.pc = .done

end Verif.Torn
