import Verif.Model.SigHash
import Verif.Model.Script
/-!
# Methods with a pointer receiver: what the receiver holds when the method fails

The functional models (Model/Script, Model/Tx, Model/SigHash) give the receiver after a call that returns without error. Here the same methods are written statement by statement over a state
that survives a failure: an error return and a panic (which the caller may `recover` from) keep every store made before it.

Simplifications: the entries of `tx.Inputs` are distinct non-nil objects and scripts are values (sharing is the subject of Model/Objects and Model/Heap).
-/
namespace Verif.Eff
open Verif

/-- A method body: from the state at the call to the state at its end and how it ended. -/
def Eff (σ α : Type) : Type := σ → σ × Res α

/-- Sequencing: an error or a panic skips the rest and keeps the state. -/
protected def bind {σ α β : Type} (m : Eff σ α) (f : α → Eff σ β) : Eff σ β := fun s =>
  match m s with
  | (s', .ok a) => f a s'
  | (s', .err e) => (s', .err e)
  | (s', .panic) => (s', .panic)

instance (σ : Type) : Monad (Eff σ) where
  pure a := fun s => (s, .ok a)
  bind := Eff.bind

/-- Reads the state. -/
def read {σ : Type} : Eff σ σ := fun s => (s, .ok s)

/-- A store. -/
def store {σ : Type} (f : σ → σ) : Eff σ Unit := fun s => (f s, .ok ())

/-- A call that does not touch the state. -/
def call {σ α : Type} (r : Res α) : Eff σ α := fun s => (s, r)

/-- A call whose error is dropped, `f()` or `x, _ := f()`: what it returned if it returned no error. A panic is not caught. -/
def dropErr {σ α : Type} (m : Eff σ α) : Eff σ (Option α) := fun s =>
  match m s with
  | (s', .ok a) => (s', .ok (some a))
  | (s', .err _) => (s', .ok none)
  | (s', .panic) => (s', .panic)

/-- script/Script.go:129-137 `AppendPushData` -/
def AppendPushData (d : Bytes) : Eff Script Unit := do
  let p ← call (EncodeParts [d])
  store (· ++ p)

/-- script/Script.go:140-147 `AppendPushDataHexString` -/
def AppendPushDataHexString (str : Bytes) : Eff Script Unit := do
  let h ← call (hexDecodeRes str)
  AppendPushData h

/-- script/Script.go:150-152 `AppendPushDataString` -/
def AppendPushDataString (str : Bytes) : Eff Script Unit := AppendPushData str

/-- script/Script.go:155-163 `AppendPushDataArray` -/
def AppendPushDataArray (d : List Bytes) : Eff Script Unit := do
  let p ← call (EncodeParts d)
  store (· ++ p)

/-- script/Script.go:166-174 `AppendPushDataStrings` -/
def AppendPushDataStrings (strs : List Bytes) : Eff Script Unit := AppendPushDataArray (strs.map id)

/-- script/RedeemScript.go:120-149 `AddPublicKey` -/
def AddPublicKey (hd : HDKeychain) (pkey : Bytes) (derivationPath : List UInt32) : Eff RedeemScript Unit := do
  if derivationPath.length ≠ 2 then call (.err "We only support derivation paths with exactly 2 levels")
  else
    let pk ← call (hd.newKeyFromString pkey)
    let d0 ← call (index derivationPath 0)
    let result ← call (hd.child pk d0)
    let d1 ← call (index derivationPath 1)
    let result2 ← call (hd.child result d1)
    let ecpk ← call (hd.ecPubKey result2)
    store fun rs => { rs with PublicKeys := rs.PublicKeys ++ [ecpk] }

/-- transaction/Transaction.go:118-120 `AddInput` -/
def AddInput (i : Input) : Eff Transaction Unit := store fun bt => { bt with Inputs := bt.Inputs ++ [i] }

/-- transaction/Transaction.go:123-141 `From` -/
def From (txID : Bytes) (vout : UInt32) (scriptSig : Bytes) (satoshis : UInt64) : Eff Transaction Unit := do
  let pts ← call (Script.NewFromHexString scriptSig)
  let i : Input := { PreviousTxID := txID, PreviousTxOutIndex := vout, PreviousTxSatoshis := satoshis, PreviousTxScript := some pts,
                     UnlockingScript := none, SequenceNumber := 0xffffffff }
  AddInput i

/-- transaction/Transaction.go:154-157 `AddOutput` -/
def AddOutput (o : Output) : Eff Transaction Unit := store fun bt => { bt with Outputs := bt.Outputs ++ [o] }

/-- transaction/Transaction.go:161-169 `PayTo` -/
def PayTo (addr : Bytes) (satoshis : UInt64) : Eff Transaction Unit := do
  let o ← call (Output.NewP2PKHFromAddress addr satoshis)
  AddOutput o

/-- transaction/Transaction.go:290-297 `ApplyUnlockingScript`: `bt.Inputs[index]` panics out of range. -/
def ApplyUnlockingScript (idx : UInt32) (s : Script) : Eff Transaction Unit := do
  let bt ← read
  let i ← call (index bt.Inputs idx.toNat)
  store fun bt => { bt with Inputs := bt.Inputs.set idx.toNat { i with UnlockingScript := some s } }

/-- The objects of a signing call: the transaction and the signer, both by pointer. -/
structure Signing where
  tx : Transaction
  signer : InternalSigner

/-- A method of the transaction inside a signing call. -/
def onTx {α : Type} (m : Eff Transaction α) : Eff Signing α := fun s => let r := m s.tx; ({ s with tx := r.1 }, r.2)

/-- transaction/signature/InternalSigner.go:25-27 and 53-55: flag 0 is replaced in the signer. -/
def defaultFlag : Eff Signing Unit := do
  let s ← read
  if s.signer.SigHashFlag = 0 then store fun s => { s with signer := { s.signer with SigHashFlag := sighash.AllForkID } }
  else pure ()

/-- transaction/signature/InternalSigner.go:24-47 `Sign`. It returns the transaction it was given. -/
def Sign (H : HashFns) (idx : UInt32) : Eff Signing Unit := do
  defaultFlag
  let s ← read
  let sh ← call (s.tx.GetInputSignatureHash H idx s.signer.SigHashFlag)
  let sig ← call (s.signer.sign (ReverseBytes sh))
  onTx (ApplyUnlockingScript idx (NewP2PKHUnlockingScript s.signer.pubKey sig s.signer.SigHashFlag).1)

/-- The loop of transaction/signature/InternalSigner.go:57-68 over positions `i, i+1, ...` (`n` of them). -/
def signAutoLoop (H : HashFns) : Nat → Nat → Eff Signing Unit
  | 0, _ => pure ()
  | n + 1, i => do
    let s ← read
    let inp ← call (index s.tx.Inputs i)
    let pubKeyHash ← dropErr (call (GetPublicKeyHash inp.PreviousTxScript))
    if hexEncode (pubKeyHash.getD []) = hexEncode (Hash160 H s.signer.pubKey) then
      let _ ← dropErr (Sign H (UInt32.ofNat i))
      signAutoLoop H n (i + 1)
    else signAutoLoop H n (i + 1)

/-- transaction/signature/InternalSigner.go:52-71 `SignAuto`. It returns the transaction it was given. -/
def SignAuto (H : HashFns) : Eff Signing Unit := do
  defaultFlag
  let s ← read
  signAutoLoop H s.tx.Inputs.length 0

/-- transaction/Transaction.go:265-272 `Sign`: the final `*bt = *signedTx` copies the transaction to itself. -/
def txSign (H : HashFns) (idx : UInt32) : Eff Signing Unit := do
  Sign H idx
  store fun s => { s with tx := s.tx }

/-- transaction/Transaction.go:279-286 `SignAuto` -/
def txSignAuto (H : HashFns) : Eff Signing Unit := do
  SignAuto H
  store fun s => { s with tx := s.tx }

end Verif.Eff
