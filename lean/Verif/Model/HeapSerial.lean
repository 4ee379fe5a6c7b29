import Verif.Model.Heap
import Verif.Model.SigHash
/-!
# The functions that build byte slices, on slice headers in an explicit memory

script/OpPushdata.go `EncodeParts`, `GetPushDataPrefix`, transaction/input/Input.go `ToBytes`, transaction/output/Output.go `ToBytes`, `GetBytesForSigHash`,
transaction/Transaction.go `toBytesHelper`, transaction/SignatureHash.go. Each makes an empty slice and appends to it; whether an `append` writes into an array the caller can also see is
what this file is about. Numbers and strings are values; a buffer that a helper allocates, fills and hands out once (`putUint32`, `hex.DecodeString`, `ReverseBytes`, a hash) is a value until
it is appended. `g` says how much extra capacity the runtime takes when it reallocates: any function of the memory, the slice and the bytes.
-/
namespace Verif.Ser
open Verif

/-- How the runtime grows slices. -/
abbrev Growth := Mem → Hdr → Bytes → Nat

/-- `h = append(h, b...)` for a variable `h` and bytes `b` (Go language). -/
def app (g : Growth) (s : Mem × Hdr) (b : Bytes) : Mem × Hdr := s.1.append (g s.1 s.2 b) s.2 b

/-- `h = append(h, x...)` for a slice `x`, read at this moment (Go language). -/
def appRef (g : Growth) (s : Mem × Hdr) (x : Hdr) : Mem × Hdr := app g s (x.data s.1)

/-- `make([]byte, 0)` (Go language). -/
def make0 (m : Mem) : Mem × Hdr := m.fresh [] 0

/-- transaction/input/Input.go:25-32 `Input`: script pointers are nil or show a slice. -/
structure MInput where
  PreviousTxID : Bytes
  PreviousTxOutIndex : UInt32
  PreviousTxSatoshis : UInt64
  PreviousTxScript : Option Hdr
  UnlockingScript : Option Hdr
  SequenceNumber : UInt32

/-- transaction/output/Output.go:25-28 `Output` -/
structure MOutput where
  Satoshis : UInt64
  LockingScript : Hdr

/-- transaction/Transaction.go:37-42 `Transaction`. Nothing here writes to the objects, so they stand in place of their pointers. -/
structure MTransaction where
  Version : UInt32
  Inputs : List MInput
  Outputs : List MOutput
  Locktime : UInt32

/-- The input as a caller sees it in memory `m`. -/
def MInput.read (m : Mem) (i : MInput) : Input :=
  { PreviousTxID := i.PreviousTxID, PreviousTxOutIndex := i.PreviousTxOutIndex, PreviousTxSatoshis := i.PreviousTxSatoshis,
    PreviousTxScript := i.PreviousTxScript.map (Hdr.data m), UnlockingScript := i.UnlockingScript.map (Hdr.data m), SequenceNumber := i.SequenceNumber }

/-- The output as a caller sees it. -/
def MOutput.read (m : Mem) (o : MOutput) : Output := { Satoshis := o.Satoshis, LockingScript := o.LockingScript.data m }

/-- The transaction as a caller sees it. -/
def MTransaction.read (m : Mem) (tx : MTransaction) : Transaction :=
  { Version := tx.Version, Inputs := tx.Inputs.map (MInput.read m), Outputs := tx.Outputs.map (MOutput.read m), Locktime := tx.Locktime }

/-- All slices the transaction holds. -/
def MTransaction.slices (tx : MTransaction) : List Hdr :=
  tx.Inputs.flatMap (fun i => i.PreviousTxScript.toList ++ i.UnlockingScript.toList) ++ tx.Outputs.map (·.LockingScript)

/-- transaction/input/Input.go:102-122 `ToBytes` -/
def MInput.ToBytes (g : Growth) (m : Mem) (i : MInput) (clear : Bool) : Mem × Hdr :=
  let h := make0 m
  let pid := hexDecodeIgnore i.PreviousTxID
  let h := app g h (ReverseBytes pid)
  let h := app g h (putUint32 i.PreviousTxOutIndex)
  let h :=
    if clear then app g h [0x00]
    else match i.UnlockingScript with
      | none => app g h (VarInt 0)
      | some s => appRef g (app g h (VarInt (UInt64.ofNat s.len))) s
  app g h (putUint32 i.SequenceNumber)

/-- transaction/output/Output.go:164-174 `ToBytes` -/
def MOutput.ToBytes (g : Growth) (m : Mem) (o : MOutput) : Mem × Hdr :=
  let h := make0 m
  let h := app g h (putUint64 o.Satoshis)
  let h := app g h (VarInt (UInt64.ofNat o.LockingScript.len))
  appRef g h o.LockingScript

/-- transaction/output/Output.go:178-189 `GetBytesForSigHash` -/
def MOutput.GetBytesForSigHash (g : Growth) (m : Mem) (o : MOutput) : Mem × Hdr :=
  let buf := make0 m
  let buf := app g buf (putUint64 o.Satoshis)
  let buf := app g buf (VarInt (UInt64.ofNat o.LockingScript.len))
  appRef g buf o.LockingScript

namespace MTransaction

/-- The input loop of `toBytesHelper`, transaction/Transaction.go:239-247, from position `k` on: `s := in.ToBytes(...)` is made even when it is not used. -/
def inputsLoop (g : Growth) (idx : Int) (scriptPubKey : Option Hdr) : Nat → List MInput → Mem × Hdr → Mem × Hdr
  | _, [], h => h
  | k, i :: is, h =>
    let s := i.ToBytes g h.1 scriptPubKey.isSome
    let h := (s.1, h.2)
    let h := match scriptPubKey with
      | some scr => if (k : Int) = idx then appRef g (app g h (VarInt (UInt64.ofNat scr.len))) scr else appRef g h s.2
      | none => appRef g h s.2
    inputsLoop g idx scriptPubKey (k + 1) is h

/-- The output loop of `toBytesHelper`, transaction/Transaction.go:250-252. -/
def outputsLoop (g : Growth) : List MOutput → Mem × Hdr → Mem × Hdr
  | [], h => h
  | o :: os, h =>
    let s := o.ToBytes g h.1
    outputsLoop g os (appRef g (s.1, h.2) s.2)

/-- transaction/Transaction.go:232-259 `toBytesHelper` -/
def toBytesHelper (g : Growth) (m : Mem) (bt : MTransaction) (idx : Int) (scriptPubKey : Option Hdr) : Mem × Hdr :=
  let h := make0 m
  let h := app g h (putUint32 bt.Version)
  let h := app g h (VarInt (UInt64.ofNat bt.Inputs.length))
  let h := inputsLoop g idx scriptPubKey 0 bt.Inputs h
  let h := app g h (VarInt (UInt64.ofNat bt.Outputs.length))
  let h := outputsLoop g bt.Outputs h
  app g h (putUint32 bt.Locktime)

/-- transaction/Transaction.go:222-224 `ToBytes` -/
def ToBytes (g : Growth) (m : Mem) (bt : MTransaction) : Mem × Hdr := toBytesHelper g m bt 0 none

/-- transaction/Transaction.go:228-230 `ToBytesWithClearedInputs` -/
def ToBytesWithClearedInputs (g : Growth) (m : Mem) (bt : MTransaction) (idx : Int) (scriptPubKey : Option Hdr) : Mem × Hdr :=
  toBytesHelper g m bt idx scriptPubKey

/-- The loop of `getPrevoutHash`, transaction/SignatureHash.go:104-110. -/
def prevoutsLoop (g : Growth) : List MInput → Mem × Hdr → Mem × Hdr
  | [], buf => buf
  | i :: is, buf => prevoutsLoop g is (app g (app g buf (ReverseBytes (hexDecodeIgnore i.PreviousTxID))) (putUint32 i.PreviousTxOutIndex))

/-- transaction/SignatureHash.go:101-113 `getPrevoutHash` -/
def getPrevoutHash (H : HashFns) (g : Growth) (m : Mem) (bt : MTransaction) : Mem × Hdr :=
  let buf := prevoutsLoop g bt.Inputs (make0 m)
  buf.1.fresh (Sha256d H (buf.2.data buf.1)) 0

/-- The loop of `getSequenceHash`, transaction/SignatureHash.go:118-122. -/
def sequencesLoop (g : Growth) : List MInput → Mem × Hdr → Mem × Hdr
  | [], buf => buf
  | i :: is, buf => sequencesLoop g is (app g buf (putUint32 i.SequenceNumber))

/-- transaction/SignatureHash.go:115-125 `getSequenceHash` -/
def getSequenceHash (H : HashFns) (g : Growth) (m : Mem) (bt : MTransaction) : Mem × Hdr :=
  let buf := sequencesLoop g bt.Inputs (make0 m)
  buf.1.fresh (Sha256d H (buf.2.data buf.1)) 0

/-- The loop of `getOutputsHash`, transaction/SignatureHash.go:131-133. -/
def sigOutputsLoop (g : Growth) : List MOutput → Mem × Hdr → Mem × Hdr
  | [], buf => buf
  | o :: os, buf =>
    let s := o.GetBytesForSigHash g buf.1
    sigOutputsLoop g os (appRef g (s.1, buf.2) s.2)

/-- transaction/SignatureHash.go:127-139 `getOutputsHash` -/
def getOutputsHash (H : HashFns) (g : Growth) (m : Mem) (bt : MTransaction) (n : Int) : Res (Mem × Hdr) :=
  if n = -1 then
    let buf := sigOutputsLoop g bt.Outputs (make0 m)
    .ok (buf.1.fresh (Sha256d H (buf.2.data buf.1)) 0)
  else if n < 0 then .panic
  else do
    let o ← index bt.Outputs n.toNat
    let buf := make0 m
    let s := o.GetBytesForSigHash g buf.1
    let buf := appRef g (s.1, buf.2) s.2
    pure (buf.1.fresh (Sha256d H (buf.2.data buf.1)) 0)

/-- transaction/SignatureHash.go:27-52, the three hashes of `GetInputSignatureHash` (prevouts, sequences, outputs): slices of 32 zeros at first. -/
def sigHashes (H : HashFns) (g : Growth) (m : Mem) (bt : MTransaction) (inputNumber : UInt32) (sigHashFlag : UInt8) : Res (Mem × Hdr × Hdr × Hdr) := do
  let zp := m.fresh (List.replicate 32 0) 0
  let zs := zp.1.fresh (List.replicate 32 0) 0
  let zo := zs.1.fresh (List.replicate 32 0) 0
  let hp := if sigHashFlag &&& sighash.AnyOneCanPay = 0 then getPrevoutHash H g zo.1 bt else (zo.1, zp.2)
  let hs :=
    if sigHashFlag &&& sighash.AnyOneCanPay = 0 ∧ sigHashFlag &&& 31 ≠ sighash.Single ∧ sigHashFlag &&& 31 ≠ sighash.None
    then getSequenceHash H g hp.1 bt else (hp.1, zs.2)
  let ho ←
    if sigHashFlag &&& 31 ≠ sighash.Single ∧ sigHashFlag &&& 31 ≠ sighash.None then getOutputsHash H g hs.1 bt (-1)
    else if sigHashFlag &&& 31 = sighash.Single ∧ inputNumber < UInt32.ofNat bt.Outputs.length then
      getOutputsHash H g hs.1 bt (Transaction.int32OfUint32 inputNumber)
    else .ok (hs.1, zo.2)
  pure (ho.1, hp.2, hs.2, ho.2)

/-- transaction/SignatureHash.go:54-95, the buffer of `GetInputSignatureHash`. -/
def sigBuffer (g : Growth) (m : Mem) (bt : MTransaction) (i : MInput) (prevScript : Hdr) (sigHashFlag : UInt8) (hashPrevouts hashSequence hashOutputs : Hdr) : Mem × Hdr :=
  let buf := make0 m
  let buf := app g buf (putUint32 bt.Version)
  let buf := appRef g buf hashPrevouts
  let buf := appRef g buf hashSequence
  let buf := app g buf (ReverseBytes (hexDecodeIgnore i.PreviousTxID))
  let buf := app g buf (putUint32 i.PreviousTxOutIndex)
  let buf := app g buf (VarInt (UInt64.ofNat prevScript.len))
  let buf := appRef g buf prevScript
  let buf := app g buf (putUint64 i.PreviousTxSatoshis)
  let buf := app g buf (putUint32 i.SequenceNumber)
  let buf := appRef g buf hashOutputs
  let buf := app g buf (putUint32 bt.Locktime)
  app g buf (putUint32 sigHashFlag.toUInt32)

/-- transaction/SignatureHash.go:17-99 `GetInputSignatureHash` -/
def GetInputSignatureHash (H : HashFns) (g : Growth) (m : Mem) (bt : MTransaction) (inputNumber : UInt32) (sigHashFlag : UInt8) : Res (Mem × Hdr) := do
  let i ← index bt.Inputs inputNumber.toNat
  if i.PreviousTxID = [] then .err "'PreviousTxID' not supplied"
  else match i.PreviousTxScript with
  | none => .err "'PreviousTxScript' not supplied"
  | some prevScript => do
    let h ← sigHashes H g m bt inputNumber sigHashFlag
    let buf := sigBuffer g h.1 bt i prevScript sigHashFlag h.2.1 h.2.2.1 h.2.2.2
    let ret := Sha256d H (buf.2.data buf.1)
    pure (buf.1.fresh (ReverseBytes ret) 0)

end MTransaction

/-- The loop of `EncodeParts`, script/OpPushdata.go:20-28. -/
def encodeLoop (g : Growth) : List Hdr → Mem × Hdr → Res (Mem × Hdr)
  | [], b => .ok b
  | part :: parts, b =>
    match GetPushDataPrefix (part.data b.1) with
    | .ok pd => encodeLoop g parts (appRef g (app g b pd) part)
    | .err _ => .err "part is too big"
    | .panic => .panic

/-- script/OpPushdata.go:17-31 `EncodeParts`. Simplification: the error message does not carry the part number. -/
def EncodePartsH (g : Growth) (m : Mem) (parts : List Hdr) : Res (Mem × Hdr) := encodeLoop g parts (make0 m)

/-- utils/ByteManipulation.go:44-52 `ReverseBytes`: the slice is made, filled and returned. -/
def ReverseBytesH (m : Mem) (a : Hdr) : Mem × Hdr := m.fresh (ReverseBytes (a.data m)) 0

/-- script/Script.go:26-29 `NewFromBytes`: the script is the caller's slice. -/
def ScriptNewFromBytesH (m : Mem) (b : Hdr) : Mem × Hdr := (m, b)

end Verif.Ser
