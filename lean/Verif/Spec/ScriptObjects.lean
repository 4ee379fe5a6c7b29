import Verif.Model.ScriptObjects
import Verif.Spec.Objects
/-!
# Programs that append to scripts through pointers
-/
namespace Verif.Obj
open Verif

/-- What is appended: one call of an append method with its argument. -/
inductive Piece where
  /-- `AppendPushData(d)` -/
  | data (d : Bytes)
  /-- `AppendPushDataHexString(str)` -/
  | hex (str : Bytes)
  /-- `AppendPushDataString(str)` -/
  | text (str : Bytes)
  /-- `AppendPushDataArray(d)` -/
  | array (d : List Bytes)
  /-- `AppendPushDataStrings(strs)` -/
  | strings (strs : List Bytes)
  /-- `AppendOpCode(o)` -/
  | op (o : UInt8)

/-- The call on a pointer. -/
def Piece.call (σ : Store) (s : Ref) : Piece → Res Store
  | .data d => AppendPushData σ s d
  | .hex str => AppendPushDataHexString σ s str
  | .text str => AppendPushDataString σ s str
  | .array d => AppendPushDataArray σ s d
  | .strings strs => AppendPushDataStrings σ s strs
  | .op o => AppendOpCode σ s o

/-- What the call does to a script that holds `b`: the functions on contents. -/
def Piece.onto (b : Script) : Piece → Res Script
  | .data d => Verif.AppendPushData b d
  | .hex str => Verif.AppendPushDataHexString b str
  | .text str => Verif.AppendPushDataString b str
  | .array d => Verif.AppendPushDataArray b d
  | .strings strs => Verif.AppendPushDataStrings b strs
  | .op o => .ok (Verif.AppendOpCode b o)

/-- What the call does to an optional script: without a script it panics, unless the argument cannot be encoded, which is found first. -/
def Piece.onto? (p : Piece) : Option Script → Res Script
  | some b => p.onto b
  | none => match p.onto [] with
    | .err e => .err e
    | _ => .panic

/-- A script field of a transaction: of the input or output at a position. -/
inductive Place where
  | previous (i : Nat)
  | unlocking (i : Nat)
  | locking (j : Nat)

/-- The pointer in the field: `tx.Inputs[i].PreviousTxScript`, `tx.Inputs[i].UnlockingScript`, `tx.Outputs[j].LockingScript`. -/
def Place.pointer (σ : Store) (t : Nat) : Place → Res Ref
  | .previous i => do let x ← σ.tx (some t); let p ← index (σ.refs x.Inputs) i; let o ← σ.input p; pure o.PreviousTxScript
  | .unlocking i => do let x ← σ.tx (some t); let p ← index (σ.refs x.Inputs) i; let o ← σ.input p; pure o.UnlockingScript
  | .locking j => do let x ← σ.tx (some t); let p ← index (σ.refs x.Outputs) j; let o ← σ.output p; pure o.LockingScript

/-- The transaction with the piece appended to the script in one field, all else as it was. -/
def Place.grow (T : Transaction) (p : Piece) : Place → Res Transaction
  | .previous i => do
    let x ← index T.Inputs i
    let s ← p.onto? x.PreviousTxScript
    pure { T with Inputs := T.Inputs.set i { x with PreviousTxScript := some s } }
  | .unlocking i => do
    let x ← index T.Inputs i
    let s ← p.onto? x.UnlockingScript
    pure { T with Inputs := T.Inputs.set i { x with UnlockingScript := some s } }
  | .locking j => do
    let x ← index T.Outputs j
    let s ← p.onto x.LockingScript
    pure { T with Outputs := T.Outputs.set j { x with LockingScript := s } }

/-- A step of a program: one of the calls of Spec/Objects, or an append through a field: `tx.Outputs[j].LockingScript.AppendOpCode(o)` and the like. -/
inductive Step where
  | call (c : Call)
  | append (t : Nat) (w : Place) (p : Piece)

/-- Not `NewFromBytes`: the scripts of a parsed transaction lie in one buffer, and that is the subject of Model/Heap. -/
def Step.built : Step → Prop
  | .call (.parse _) => False
  | _ => True

/-- One step on the store. -/
def Step.run (H : HashFns) (g : Nat → Nat) (σ : Store) : Step → Res Store
  | .call c => c.run H g σ
  | .append t w p => do let r ← w.pointer σ t; orKeep σ (p.call σ r)

/-- One step on values: only the named field of the named transaction changes. -/
def Step.runValues (H : HashFns) (v : Values) : Step → Res Values
  | .call c => c.runValues H v
  | .append t w p => v.at t (w.grow · p)

/-- A program on the store. -/
def runSteps (H : HashFns) (g : Nat → Nat) : List Step → Store → Res Store
  | [], σ => .ok σ
  | c :: cs, σ => do let σ' ← c.run H g σ; runSteps H g cs σ'

/-- A program on values. -/
def runStepValues (H : HashFns) : List Step → Values → Res Values
  | [], v => .ok v
  | c :: cs, v => do let v' ← c.runValues H v; runStepValues H cs v'

end Verif.Obj
