import Verif.Model.ConcRead
import Verif.Spec.Concurrent
/-!
# Specification: what a reader of a transaction that is being signed may return
-/
namespace Verif.Spec
open Verif Verif.Conc

/-- A value input `k`'s unlocking script can have while the calls run: the initial one, or one that some call gives it when made alone on the initial transaction. -/
def MayShow (H : HashFns) (S : List InternalSigner) (tx : Transaction) (jobs : List (Nat × Job)) (k : Nat) (v : Option Bytes) : Prop :=
  (∃ i, tx.Inputs[k]? = some i ∧ i.UnlockingScript = v) ∨ ∃ j ∈ jobs, ∃ s, Writes H S tx j k s ∧ v = some s

/-- A script as it is written into a transaction; a missing one is written as the empty one. -/
def scriptField : Option Bytes → Bytes
  | none => VarInt 0
  | some s => VarInt (UInt64.ofNat s.length) ++ s

/-- What a reader may write for input `k`'s script: nothing, or the length of a script the input can have followed by a script the input can have. -/
def FieldOK (H : HashFns) (S : List InternalSigner) (tx : Transaction) (jobs : List (Nat × Job)) (k : Nat) (f : Bytes) : Prop :=
  (MayShow H S tx jobs k none ∧ f = VarInt 0) ∨
    ∃ s s', MayShow H S tx jobs k (some s) ∧ MayShow H S tx jobs k (some s') ∧ f = VarInt (UInt64.ofNat s.length) ++ s'

/-- An input with the given script field. -/
def inputWith (i : Input) (f : Bytes) : Bytes := ReverseBytes (hexDecodeIgnore i.PreviousTxID) ++ putUint32 i.PreviousTxOutIndex ++ f ++ putUint32 i.SequenceNumber

/-- The transaction with the given script fields. -/
def txWith (tx : Transaction) (fs : List Bytes) : Bytes :=
  putUint32 tx.Version ++ VarInt (UInt64.ofNat tx.Inputs.length) ++ (List.zipWith inputWith tx.Inputs fs).flatten ++
    VarInt (UInt64.ofNat tx.Outputs.length) ++ tx.Outputs.flatMap Output.ToBytes ++ putUint32 tx.Locktime

end Verif.Spec
