import Verif.Model.Stateful
/-!
# Specification: all or nothing

What a method with a pointer receiver should do with its receiver: become the new value if the call succeeds, stay as it is if the call returns an error or panics.
-/
namespace Verif.Spec
open Verif

/-- `r` is the new value of the receiver, or the failure. -/
def allOrNothing {σ : Type} (s : σ) : Res σ → σ × Res Unit
  | .ok s' => (s', .ok ())
  | .err e => (s, .err e)
  | .panic => (s, .panic)

/-- A caller that makes calls one after the other and goes on after errors and recovered panics: the receiver at the end, and for each call whether it succeeded. -/
def carryOn {σ : Type} : List (σ → σ × Res Unit) → σ → σ × List Bool
  | [], s => (s, [])
  | m :: ms, s => let r := carryOn ms (m s).1; (r.1, (m s).2.isOk :: r.2)

/-- A caller that makes calls one after the other and stops at the first failure. -/
def inSequence {σ : Type} : List (σ → Res σ) → σ → Res σ
  | [], s => .ok s
  | f :: fs, s => f s >>= inSequence fs

/-- The elements of a list at the positions marked `true`. -/
def marked {α : Type} : List α → List Bool → List α
  | a :: l, true :: bs => a :: marked l bs
  | _ :: l, false :: bs => marked l bs
  | _, _ => []

/-- The calls on a script. -/
inductive ScriptCall where
  | data (d : Bytes)
  | hex (str : Bytes)
  | str (str : Bytes)
  | array (d : List Bytes)
  | strings (strs : List Bytes)

/-- The calls on a transaction that can fail in the middle of its construction. -/
inductive TxCall where
  | fromUtxo (txid : Bytes) (vout : UInt32) (scriptHex : Bytes) (sats : UInt64)
  | payTo (addr : Bytes) (sats : UInt64)
  | apply (idx : UInt32) (s : Bytes)
  | sign (idx : UInt32) (is : InternalSigner)

/-- The transaction in which input `k` has another previous script. -/
def withPrevScript (tx : Transaction) (k : Nat) (s : Option Bytes) : Transaction :=
  { tx with Inputs := tx.Inputs.mapIdx fun j i => if j = k then { i with PreviousTxScript := s } else i }

end Verif.Spec
