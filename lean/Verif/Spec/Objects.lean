import Verif.Model.Objects
import Mathlib.Data.List.Forall2
/-!
# What a caller sees through the pointers

`Reads σ t T`: transaction object `t` of store `σ` shows the transaction value `T`: every pointer is followed, none of them is nil except those of scripts that are optional.
-/
namespace Verif.Obj

/-- What an optional script pointer shows. -/
def seesScript (σ : Store) : Ref → Option Bytes → Prop
  | none, b => b = none
  | some k, b => b.isSome ∧ σ.scripts[k]? = b

/-- What a pointer to an input shows. -/
def seesInput (σ : Store) (p : Ref) (i : Input) : Prop :=
  ∃ k o, p = some k ∧ σ.inputs[k]? = some o ∧ o.PreviousTxID = i.PreviousTxID ∧ o.PreviousTxOutIndex = i.PreviousTxOutIndex ∧
    o.PreviousTxSatoshis = i.PreviousTxSatoshis ∧ seesScript σ o.PreviousTxScript i.PreviousTxScript ∧
    seesScript σ o.UnlockingScript i.UnlockingScript ∧ o.SequenceNumber = i.SequenceNumber

/-- What a pointer to an output shows. -/
def seesOutput (σ : Store) (p : Ref) (o : Output) : Prop :=
  ∃ k b, p = some k ∧ σ.outputs[k]? = some b ∧ b.Satoshis = o.Satoshis ∧ seesScript σ b.LockingScript (some o.LockingScript)

/-- A slice header a Go program can hold. -/
def RefSlice.WF (σ : Store) (s : RefSlice) : Prop := s.len ≤ s.cap ∧ (s.cap = 0 ∨ ∃ a, σ.arrays[s.arr]? = some a ∧ s.cap ≤ a.length)

/-- What a transaction object shows. -/
def Reads (σ : Store) (t : Nat) (T : Transaction) : Prop :=
  ∃ o, σ.txs[t]? = some o ∧ o.Inputs.WF σ ∧ o.Outputs.WF σ ∧ o.Version = T.Version ∧ o.Locktime = T.Locktime ∧
    List.Forall₂ (seesInput σ) (σ.refs o.Inputs) T.Inputs ∧ List.Forall₂ (seesOutput σ) (σ.refs o.Outputs) T.Outputs

/-- A pointer that is nil or names an object: what Go's type system guarantees. -/
def inBounds {α : Type} (l : List α) (r : Ref) : Prop := ∀ k, r = some k → k < l.length

/-- A store as a Go program can reach it: slices lie in their arrays and no pointer dangles. Nil pointers and any sharing are allowed. -/
structure Valid (σ : Store) : Prop where
  slices : ∀ t ∈ σ.txs, t.Inputs.WF σ ∧ t.Outputs.WF σ
  inputRefs : ∀ t ∈ σ.txs, ∀ r ∈ σ.refs t.Inputs, inBounds σ.inputs r
  outputRefs : ∀ t ∈ σ.txs, ∀ r ∈ σ.refs t.Outputs, inBounds σ.outputs r
  prevScripts : ∀ i ∈ σ.inputs, inBounds σ.scripts i.PreviousTxScript
  unlockingScripts : ∀ i ∈ σ.inputs, inBounds σ.scripts i.UnlockingScript
  lockingScripts : ∀ o ∈ σ.outputs, inBounds σ.scripts o.LockingScript

/-- A pointer to an output whose bytes cannot be written: nil, or the output's script pointer is nil. -/
def badOutput (σ : Store) (r : Ref) : Prop := r = none ∨ ∃ k o, r = some k ∧ σ.outputs[k]? = some o ∧ o.LockingScript = none

/-- The calls of a program that works on several transactions and never hands the same input or output object to two of them (nor twice to one). Transactions and signers
are named by their numbers, in the order of creation. -/
inductive Call where
  /-- `transaction.New()` -/
  | new
  /-- `transaction.NewFromBytes(b)` -/
  | parse (b : Slice)
  /-- `tx.From(txID, vout, scriptSig, satoshis)` -/
  | from (t : Nat) (txID : Bytes) (vout : UInt32) (scriptSig : Bytes) (satoshis : UInt64)
  /-- `tx.PayTo(addr, satoshis)` -/
  | payTo (t : Nat) (addr : Bytes) (satoshis : UInt64)
  /-- `tx.AddInput(i)` with an input just made (by a constructor or a literal) -/
  | addInput (t : Nat) (i : Input)
  /-- `tx.AddOutput(o)` with an output just made -/
  | addOutput (t : Nat) (o : Output)
  /-- `tx.ApplyUnlockingScript(idx, s)` with a script just made -/
  | apply (t : Nat) (idx : UInt32) (s : Bytes)
  /-- `&InternalSigner{...}` -/
  | signer (s : InternalSigner)
  /-- `tx.Sign(idx, signer)` -/
  | sign (t : Nat) (idx : UInt32) (sg : Nat)
  /-- `tx.SignAuto(signer)` -/
  | signAuto (t : Nat) (sg : Nat)

/-- The transaction a call works on. -/
def Call.target : Call → Option Nat
  | .from t .. | .payTo t .. | .addInput t .. | .addOutput t .. | .apply t .. | .sign t .. | .signAuto t .. => some t
  | _ => none

/-- An error return leaves the program running: keep the given state. -/
def orKeep {α : Type} (a : α) : Res α → Res α
  | .err _ => .ok a
  | r => r

/-- One call on the store. (A number without transaction is a program error here: panic.) -/
def Call.run (H : HashFns) (g : Nat → Nat) (σ : Store) : Call → Res Store
  | .new => .ok (New σ).1
  | .parse b => orKeep σ (do let r ← NewFromBytes g σ b; pure r.1)
  | .from t txID vout scriptSig satoshis => do let _ ← σ.tx (some t); orKeep σ (From g σ t txID vout scriptSig satoshis)
  | .payTo t addr satoshis => do let _ ← σ.tx (some t); orKeep σ (PayTo g σ t addr satoshis)
  | .addInput t i => AddInput g (mkInput σ i).1 t (mkInput σ i).2
  | .addOutput t o => AddOutput g (mkOutput σ o).1 t (mkOutput σ o).2
  | .apply t idx s => orKeep σ (ApplyUnlockingScript (σ.newScript s).1 t idx (σ.newScript s).2)
  | .signer s => .ok { σ with signers := σ.signers ++ [s] }
  | .sign t idx sg => do let r ← Sign σ t idx (internal H sg); pure r.1
  | .signAuto t sg => do let r ← SignAuto σ t (internal H sg); pure r.1

/-- The same program on values: a list of transactions and a list of signers. A number without transaction or signer is a nil pointer: panic. -/
structure Values where
  txs : List Transaction
  signers : List InternalSigner

/-- Change transaction `t`; an error keeps it. -/
def Values.at (v : Values) (t : Nat) (f : Transaction → Res Transaction) : Res Values := do
  let x ← index v.txs t
  let y ← orKeep x (f x)
  pure { v with txs := v.txs.set t y }

/-- One call on values: only the named transaction changes, as the value-level functions say. -/
def Call.runValues (H : HashFns) (v : Values) : Call → Res Values
  | .new => .ok { v with txs := v.txs ++ [Transaction.New] }
  | .parse b => match Transaction.NewFromBytes b with
    | .ok t => .ok { v with txs := v.txs ++ [t] }
    | .err _ => .ok v
    | .panic => .panic
  | .from t txID vout scriptSig satoshis => v.at t (·.From txID vout scriptSig satoshis)
  | .payTo t addr satoshis => v.at t (·.PayTo addr satoshis)
  | .addInput t i => v.at t (fun x => .ok (x.AddInput i))
  | .addOutput t o => v.at t (fun x => .ok (x.AddOutput o))
  | .apply t idx s => v.at t (·.ApplyUnlockingScript idx s)
  | .signer s => .ok { v with signers := v.signers ++ [s] }
  | .sign t idx sg => do let s ← index v.signers sg; v.at t (fun x => s.Sign H idx x)
  | .signAuto t sg => do let s ← index v.signers sg; v.at t (fun x => s.SignAuto H x)

/-- A history of calls on the store. -/
def runCalls (H : HashFns) (g : Nat → Nat) : List Call → Store → Res Store
  | [], σ => .ok σ
  | c :: cs, σ => do let σ' ← c.run H g σ; runCalls H g cs σ'

/-- A history of calls on values. -/
def runValues (H : HashFns) : List Call → Values → Res Values
  | [], v => .ok v
  | c :: cs, v => do let v' ← c.runValues H v; runValues H cs v'

end Verif.Obj
