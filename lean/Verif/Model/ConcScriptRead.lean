import Verif.Model.ConcScript
import Verif.Model.Script
import Verif.Model.Tx
/-!
# Goroutines that read a script while others append to it

`ToString`, `ToASM`, `IsP2PKH`, `IsP2PK`, `IsP2SH`, `IsData` and `IsMultisigOut` (script/Script.go:182-281) and `GetLockingScriptHexString` (transaction/output/Output.go:152-154) evaluate the script variable once,
which reads the slice header, and then look at the bytes behind that header. `Output.ToBytes` (Output.go:164-174) and `GetBytesForSigHash` (:178-189) evaluate it twice: once for `len(*o.LockingScript)`, and once
more for the bytes. A reading goroutine reads the header (once or twice) and then the bytes, one after the other; what the call returns is a function of the length and the bytes it read.

Simplification: every byte is read once and in order (the functions read some bytes not at all and others more than once). `GetPublicKeyHash` (Script.go:290-308) reads the header up to four times; `pkhRead` is what it
returns when it finds four scripts.
-/
namespace Verif.Torn
open Verif
open Verif.Build (Loc Access)

/-- Where a reading goroutine is. -/
inductive RPC where
  /-- about to read the header -/
  | load
  /-- has read the length (Output.go:170, :185) and is about to read the header again (:171, :186) -/
  | reload (len : Nat)
  /-- has a length, the header and the bytes `acc` -/
  | read (len : Nat) (h : Hdr) (acc : Bytes)
  /-- has read all the bytes -/
  | done (len : Nat) (bytes : Bytes)
deriving DecidableEq, Repr

/-- One step of a reading call (script/Script.go:182-281; with `twice`, transaction/output/Output.go:164-189): the header, then byte after byte. -/
def readStep (twice : Bool) (m : Mem) (v : Hdr) : RPC → RPC × List (Bool × Loc)
  | .load => (if twice then .reload v.len else .read v.len v [], [(false, .header 0)])
  | .reload n => (.read n v [], [(false, .header 0)])
  | .read n h acc =>
    if acc.length < h.len then (.read n h (acc ++ [(m.bytes h.arr).getD (h.off + acc.length) 0]), [(false, .elem 0 h.arr (h.off + acc.length))])
    else (.done n acc, [])
  | .done n b => (.done n b, [])

/-- What `Output.ToBytes` returns when it read the length `n` and the bytes `b`: transaction/output/Output.go:164-174 (`GetBytesForSigHash` :178-189 is the same). -/
def outputRead (sats : UInt64) (n : Nat) (b : Bytes) : Bytes := putUint64 sats ++ VarInt (UInt64.ofNat n) ++ b

/-- What `GetPublicKeyHash` returns when its four evaluations of `*s` find the scripts `r0`, `r1`, `r2` and `r3`: script/Script.go:291, :295 (twice), :299. -/
def pkhRead (r0 r1 r2 r3 : Bytes) : Res Bytes :=
  if r0.length = 0 then .err "Script is empty"
  else do
    let s0 ← index r1 0
    if s0 ≠ 0x76 then .err "Not a P2PKH"
    else do
      let s1 ← index r2 1
      if s1 ≠ 0xa9 then .err "Not a P2PKH"
      else do
        let parts ← DecodeParts (r3.drop 2)
        index parts 0

/-- A reading goroutine: does it evaluate the variable twice, and where it is. -/
structure Reader where
  twice : Bool
  pc : RPC
deriving DecidableEq, Repr

/-- A running program with appending and reading goroutines. -/
structure RSys where
  app : Sys
  readers : List Reader

/-- Goroutine `t` makes a step: the first numbers are the appending goroutines, the next the reading ones. -/
def RSys.step (s : RSys) (t : Nat) : RSys :=
  if t < s.app.threads.length then { s with app := Torn.step s.app t }
  else match s.readers[t - s.app.threads.length]? with
    | none => s
    | some rd =>
      let r := readStep rd.twice s.app.mem s.app.hdr rd.pc
      { app := { s.app with log := s.app.log ++ r.2.map fun a => ⟨t, a.1, a.2⟩ }, readers := s.readers.set (t - s.app.threads.length) { rd with pc := r.1 } }

/-- The program after a schedule. -/
def RSys.run (s : RSys) (schedule : List Nat) : RSys := schedule.foldl RSys.step s

/-- The program when the goroutines are started: one for each call that appends, and one for each reading call. -/
def startR (m : Mem) (v : Hdr) (ops : List ScriptAppend) (readers : List Bool) : RSys := ⟨start m v ops, readers.map fun tw => ⟨tw, .load⟩⟩

/-- The bytes of the script. -/
def RSys.script (s : RSys) : Bytes := s.app.script

end Verif.Torn
