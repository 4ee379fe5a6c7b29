import Verif.Model.Concurrent
/-!
# Goroutines that serialise a transaction while others sign it

`tx.ToBytes()` (transaction/Transaction.go:222-259, also inside `ToString` :216-218 and `GetTxID` :211-213) called by some goroutines while others sign the same `*Transaction` (Model/Concurrent). The only
memory that the signers write and `ToBytes` reads is the transaction struct and the inputs' `UnlockingScript` pointers. `Input.ToBytes` (transaction/input/Input.go:102-122) reads the pointer three times: for the
nil test, for the length and for the contents. One step per such read. A panic of a reader ends the program like a panic of a signer.

Simplifications as in Model/Concurrent (sequentially consistent). The bytes of a script never change: a signer stores a pointer to a new script. The transaction struct is read in one step at the
beginning and one at the end; the signers only ever overwrite it with itself.
-/
namespace Verif.Conc
open Verif

/-- Where a reader is inside `ToBytes`; `acc` are the bytes collected. -/
inductive RPC where
  /-- Transaction.go:233 -/
  | begin
  /-- at input `k` (or past the last), about to read the pointer for the nil test, Input.go:112 -/
  | test (k : Nat) (acc : Bytes)
  /-- about to read the pointer for the length, Input.go:115 -/
  | len (k : Nat) (acc : Bytes)
  /-- about to read the pointer for the contents, Input.go:116 -/
  | body (k : Nat) (acc : Bytes)
  /-- has returned the bytes -/
  | done (b : Bytes)
deriving DecidableEq, Repr

/-- One step of a reader: Transaction.go:232-259, Input.go:102-122. -/
def readStep (tx : Transaction) : RPC → Res (RPC × List (Bool × Loc))
  | .begin => .ok (.test 0 (putUint32 tx.Version ++ VarInt (UInt64.ofNat tx.Inputs.length)), [(false, .header)])
  | .test k acc =>
    match tx.Inputs[k]? with
    | none => .ok (.done (acc ++ VarInt (UInt64.ofNat tx.Outputs.length) ++ tx.Outputs.flatMap Output.ToBytes ++ putUint32 tx.Locktime), [(false, .header)])
    | some i =>
      let acc := acc ++ ReverseBytes (hexDecodeIgnore i.PreviousTxID) ++ putUint32 i.PreviousTxOutIndex
      match i.UnlockingScript with
      | none => .ok (.test (k + 1) (acc ++ VarInt 0 ++ putUint32 i.SequenceNumber), [(false, .unlocking k)])
      | some _ => .ok (.len k acc, [(false, .unlocking k)])
  | .len k acc => do
    let i ← index tx.Inputs k
    match i.UnlockingScript with
    | none => .panic
    | some s => .ok (.body k (acc ++ VarInt (UInt64.ofNat s.length)), [(false, .unlocking k)])
  | .body k acc => do
    let i ← index tx.Inputs k
    match i.UnlockingScript with
    | none => .panic
    | some s => .ok (.test (k + 1) (acc ++ s ++ putUint32 i.SequenceNumber), [(false, .unlocking k)])
  | .done b => .ok (.done b, [])

/-- Who makes the next step. -/
inductive Who where
  | signer (t : Nat)
  | reader (r : Nat)
deriving DecidableEq, Repr

/-- Signers and readers of one transaction, with the readers' accesses. -/
structure RSys where
  sys : Sys
  readers : List RPC
  rlog : List Access

/-- One step. -/
def rstep (H : HashFns) (s : RSys) : Who → RSys
  | .signer t => { s with sys := step H s.sys t }
  | .reader r =>
    if s.sys.crashed then s
    else match s.readers[r]? with
      | none => s
      | some pc =>
        match readStep s.sys.shared.tx pc with
        | .ok (pc', acc) => { s with readers := s.readers.set r pc', rlog := s.rlog ++ acc.map fun a => ⟨r, a.1, a.2⟩ }
        | _ => { s with sys := { s.sys with crashed := true } }

/-- The program after a schedule. -/
def rrun (H : HashFns) (s : RSys) (schedule : List Who) : RSys := schedule.foldl (rstep H) s

/-- The program when the signers (signer and call) and `n` readers are started. -/
def rstart (tx : Transaction) (signers : List InternalSigner) (jobs : List (Nat × Job)) (n : Nat) : RSys :=
  { sys := start tx signers jobs, readers := List.replicate n .begin, rlog := [] }

end Verif.Conc
