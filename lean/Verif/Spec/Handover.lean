import Mathlib.Data.List.Forall2
import Verif.Spec.TxFormat
import Verif.Model.SigHash
/-!
# Specification: handing a transaction from one signer to the next as bytes

The wire format carries neither the previous script nor the previous amount of an input, so a party that receives a transaction as bytes has to put them back
before it can sign. This file says what "put them back" means and when two transactions are the same as far as signers are concerned.
-/
namespace Verif.Spec
open Verif

/-- The previous script and amount of every input, in order: what a party needs besides the bytes. -/
def previousOutputs (tx : Transaction) : List (Option Bytes × UInt64) := tx.Inputs.map fun i => (i.PreviousTxScript, i.PreviousTxSatoshis)

/-- The receiver sets `PreviousTxScript` and `PreviousTxSatoshis` of each input (by assignment: the library has no function for it). -/
def withPrevious (t : Transaction) (prev : List (Option Bytes × UInt64)) : Transaction :=
  { t with Inputs := List.zipWith (fun i p => { i with PreviousTxScript := p.1, PreviousTxSatoshis := p.2 }) t.Inputs prev }

/-- Two inputs that spend the same output in the same way: they may differ in the case of the txid's hex digits and in whether an empty unlocking script is
nil or empty. -/
structure SameSpend (i j : Input) : Prop where
  txid : i.PreviousTxID.map lowerChar = j.PreviousTxID.map lowerChar
  index : i.PreviousTxOutIndex = j.PreviousTxOutIndex
  satoshis : i.PreviousTxSatoshis = j.PreviousTxSatoshis
  script : i.PreviousTxScript = j.PreviousTxScript
  unlocking : i.UnlockingScript.getD [] = j.UnlockingScript.getD []
  sequence : i.SequenceNumber = j.SequenceNumber

/-- Two transactions that are the same to a signer and on the wire. -/
structure SameTx (tx tx' : Transaction) : Prop where
  version : tx.Version = tx'.Version
  locktime : tx.Locktime = tx'.Locktime
  outputs : tx.Outputs = tx'.Outputs
  inputs : List.Forall₂ SameSpend tx.Inputs tx'.Inputs

/-- A signer's job: sign one input, or every input that pays to its key. -/
inductive SignJob where
  | one (is : InternalSigner) (idx : UInt32)
  | auto (is : InternalSigner)

/-- Doing the job on a transaction held in memory: the transaction after the call and the error it returned. -/
def SignJob.run (H : HashFns) (tx : Transaction) : SignJob → Res (Transaction × Option String)
  | .one is idx => tx.Sign H idx is
  | .auto is => tx.SignAuto H is

/-- Doing the job on received bytes (with `sp` behind them in memory): parse, put the previous outputs back, sign, serialise. -/
def SignJob.onBytes (H : HashFns) (prev : List (Option Bytes × UInt64)) (sp b : Bytes) (j : SignJob) : Res (Bytes × Option String) := do
  let t ← Transaction.NewFromBytes ⟨b, sp⟩
  let r ← j.run H (withPrevious t prev)
  pure (r.1.ToBytes, r.2)

/-- One process does all jobs, ignoring errors. -/
def allInOne (H : HashFns) : List SignJob → Transaction → Res Transaction
  | [], tx => .ok tx
  | j :: js, tx => do
    let r ← j.run H tx
    allInOne H js r.1

/-- Each job is done by another party, the transaction goes from one to the next as bytes. -/
def relay (H : HashFns) (prev : List (Option Bytes × UInt64)) : List SignJob → Bytes → Res Bytes
  | [], b => .ok b
  | j :: js, b => do
    let r ← j.onBytes H prev [] b
    relay H prev js r.1

end Verif.Spec
