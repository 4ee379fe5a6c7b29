import Verif.Model.Script
/-!
# transaction/input/Input.go, transaction/output/Output.go, transaction/Transaction.go

Pointers are modelled as values (`*script.Script` that may be nil is an `Option`): nil inputs/outputs, nil locking scripts and
the sharing of one `*Input` by two positions are not represented here (see Model/Heap.lean for aliasing).
-/
namespace Verif
open Op

/-- transaction/input/Input.go:25-32 `Input` -/
structure Input where
  PreviousTxID : Bytes
  PreviousTxOutIndex : UInt32
  PreviousTxSatoshis : UInt64
  PreviousTxScript : Option Script
  UnlockingScript : Option Script
  SequenceNumber : UInt32
deriving DecidableEq, Repr

/-- transaction/output/Output.go:25-28 `Output` -/
structure Output where
  Satoshis : UInt64
  LockingScript : Script
deriving DecidableEq, Repr

/-- transaction/Transaction.go:37-42 `Transaction` -/
structure Transaction where
  Version : UInt32
  Inputs : List Input
  Outputs : List Output
  Locktime : UInt32
deriving DecidableEq, Repr

/-! ## input -/

/-- transaction/input/Input.go:35-43 `New` -/
def Input.New : Input :=
  { PreviousTxID := [], PreviousTxOutIndex := 0, PreviousTxSatoshis := 0, PreviousTxScript := none,
    UnlockingScript := some [], SequenceNumber := 0xFFFFFFFF }

/-- transaction/input/Input.go:46-72 `NewFromBytes`: the input and the number of bytes it occupies. `int(l)` and the sums wrap. -/
def Input.NewFromBytes (bytes : Slice) : Res (Input × Int) :=
  if bytes.len < 36 then .err "input length too short < 36"
  else do
    let h ← bytes.sliceRange 0 32
    let txid := hexEncode (ReverseBytes h.data)
    let is ← bytes.sliceRange 32 36
    let idx ← getUint32 is.data
    let tail ← bytes.sliceFrom 36
    let (l, size) ← DecodeVarInt tail
    let offset : Int := 36 + size
    let stop := wrap64 (offset + intOfUint64 l)
    let totalLength := wrap64 (stop + 4)
    if (bytes.len : Int) < totalLength then .err "input length too short < 36 + script + 4"
    else do
      let scr ← bytes.sliceRange offset stop
      let rest ← bytes.sliceFrom stop
      let seq ← getUint32 rest.data
      pure ({ PreviousTxID := txid, PreviousTxOutIndex := idx, PreviousTxSatoshis := 0, PreviousTxScript := none,
              UnlockingScript := some scr.data, SequenceNumber := seq }, totalLength)

/-- transaction/input/Input.go:75-90 `NewFromUTXO` -/
def Input.NewFromUTXO (prevTxID : Bytes) (prevTxIndex : UInt32) (prevTxSats : UInt64) (prevTxScript : Bytes) (nSeq : UInt32) :
    Res Input := do
  let pts ← Script.NewFromHexString prevTxScript
  pure { PreviousTxID := prevTxID, PreviousTxOutIndex := prevTxIndex, PreviousTxSatoshis := prevTxSats,
         PreviousTxScript := some pts, UnlockingScript := none, SequenceNumber := nSeq }

/-- transaction/input/Input.go:102-122 `ToBytes`. `GetLittleEndianBytes(v, 4)` is `putUint32 v` (C06). -/
def Input.ToBytes (i : Input) (clear : Bool) : Bytes :=
  let pid := hexDecodeIgnore i.PreviousTxID
  ReverseBytes pid ++ putUint32 i.PreviousTxOutIndex ++
    (if clear then [0x00]
     else match i.UnlockingScript with
      | none => VarInt 0
      | some s => VarInt (UInt64.ofNat s.length) ++ s) ++
    putUint32 i.SequenceNumber

/-! ## output -/

/-- transaction/output/Output.go:31-54 `NewFromBytes` -/
def Output.NewFromBytes (bytes : Slice) : Res (Output × Int) :=
  if bytes.len < 8 then .err "output length too short < 8"
  else do
    let ss ← bytes.sliceRange 0 8
    let sat ← getUint64 ss.data
    let tail ← bytes.sliceFrom 8
    let (l, size) ← DecodeVarInt tail
    let offset : Int := 8 + size
    let totalLength := wrap64 (offset + intOfUint64 l)
    if (bytes.len : Int) < totalLength then .err "output length too short < 8 + script"
    else do
      let s ← bytes.sliceRange offset totalLength
      pure ({ Satoshis := sat, LockingScript := s.data }, totalLength)

/-- transaction/output/Output.go:57-67 `NewP2PkhFromPubKeyHash` -/
def Output.NewP2PkhFromPubKeyHash (publicKeyHash : Bytes) (satoshis : UInt64) : Res Output := do
  let s ← NewP2PKHFromPubKeyHashStr publicKeyHash
  pure { Satoshis := satoshis, LockingScript := s }

/-- transaction/output/Output.go:70-80 `NewP2PKHFromAddress` -/
def Output.NewP2PKHFromAddress (addr : Bytes) (satoshis : UInt64) : Res Output := do
  let s ← Verif.NewP2PKHFromAddress addr
  pure { Satoshis := satoshis, LockingScript := s }

/-- transaction/output/Output.go:83-112 `NewHashPuzzle` -/
def Output.NewHashPuzzle (H : HashFns) (secret publicKeyHash : Bytes) (satoshis : UInt64) : Res Output := do
  let publicKeyHashBytes ← hexDecodeRes publicKeyHash
  let s : Script := AppendOpCode [] OpHASH160
  let secretBytesHash := Hash160 H secret
  let s ← AppendPushData s secretBytesHash
  let s := AppendOpCode s OpEQUALVERIFY
  let s := AppendOpCode s OpDUP
  let s := AppendOpCode s OpHASH160
  let s ← AppendPushData s publicKeyHashBytes
  let s := AppendOpCode s OpEQUALVERIFY
  let s := AppendOpCode s OpCHECKSIG
  pure { Satoshis := satoshis, LockingScript := s }

/-- transaction/output/Output.go:136-148 `createOpReturnOutput` -/
def createOpReturnOutput (data : List Bytes) : Res Output := do
  let s : Script := []
  let s := AppendOpCode s OpFALSE
  let s := AppendOpCode s OpRETURN
  let s ← AppendPushDataArray s data
  pure { Satoshis := 0, LockingScript := s }

/-- transaction/output/Output.go:116-123 `NewOpReturn` -/
def Output.NewOpReturn (data : Bytes) : Res Output := createOpReturnOutput [data]

/-- transaction/output/Output.go:127-134 `NewOpReturnParts` -/
def Output.NewOpReturnParts (data : List Bytes) : Res Output := createOpReturnOutput data

/-- transaction/output/Output.go:152-154 `GetLockingScriptHexString` -/
def Output.GetLockingScriptHexString (o : Output) : Bytes := hexEncode o.LockingScript

/-- transaction/output/Output.go:164-174 `ToBytes` -/
def Output.ToBytes (o : Output) : Bytes :=
  putUint64 o.Satoshis ++ VarInt (UInt64.ofNat o.LockingScript.length) ++ o.LockingScript

/-- transaction/output/Output.go:178-189 `GetBytesForSigHash` -/
def Output.GetBytesForSigHash (o : Output) : Bytes :=
  let buf : Bytes := putUint64 o.Satoshis
  buf ++ VarInt (UInt64.ofNat o.LockingScript.length) ++ o.LockingScript

/-! ## transaction -/
namespace Transaction

/-- transaction/Transaction.go:45-52 `New` -/
def New : Transaction := { Version := 1, Inputs := [], Outputs := [], Locktime := 0 }

/-- The input loop of `NewFromBytes`, transaction/Transaction.go:83-91: `n` more inputs starting at `offset`. -/
def readInputs : Nat → Slice → Int → Res (List Input × Int)
  | 0, _, offset => .ok ([], offset)
  | n + 1, b, offset => do
    let s ← b.sliceFrom offset
    let (i, size) ← Input.NewFromBytes s
    let (is, off) ← readInputs n b (wrap64 (offset + size))
    pure (i :: is, off)

/-- The output loop of `NewFromBytes`, transaction/Transaction.go:96-103. -/
def readOutputs : Nat → Slice → Int → Res (List Output × Int)
  | 0, _, offset => .ok ([], offset)
  | n + 1, b, offset => do
    let s ← b.sliceFrom offset
    let (o, size) ← Output.NewFromBytes s
    let (os, off) ← readOutputs n b (wrap64 (offset + size))
    pure (o :: os, off)

/-- transaction/Transaction.go:66-115 `NewFromBytes` -/
def NewFromBytes (b : Slice) : Res Transaction :=
  if b.len < 10 then .err "too short to be a tx - even an empty tx has 10 bytes"
  else do
    let vs ← b.sliceRange 0 4
    let version ← getUint32 vs.data
    let offset : Int := 4
    let s ← b.sliceFrom offset
    let (inputCount, size) ← DecodeVarInt s
    let offset := wrap64 (offset + size)
    let (ins, offset) ← readInputs inputCount.toNat b offset
    let s ← b.sliceFrom offset
    let (outputCount, size) ← DecodeVarInt s
    let offset := wrap64 (offset + size)
    let (outs, offset) ← readOutputs outputCount.toNat b offset
    let nLT ← b.sliceFrom offset
    if nLT.len ≠ 4 then .err "nLockTime length must be 4 bytes long"
    else do
      let lt ← getUint32 nLT.data
      pure { Version := version, Inputs := ins, Outputs := outs, Locktime := lt }

/-- transaction/Transaction.go:56-63 `NewFromString`; `extra` is allocator rounding past the decoded string. -/
def NewFromString (extra : Bytes) (str : Bytes) : Res Transaction := do
  let bytes ← hexDecodeSlice extra str
  NewFromBytes bytes

/-- transaction/Transaction.go:118-120 `AddInput` -/
def AddInput (bt : Transaction) (i : Input) : Transaction := { bt with Inputs := bt.Inputs ++ [i] }

/-- transaction/Transaction.go:123-141 `From`; on error the receiver is unchanged. -/
def From (bt : Transaction) (txID : Bytes) (vout : UInt32) (scriptSig : Bytes) (satoshis : UInt64) : Res Transaction := do
  let pts ← Script.NewFromHexString scriptSig
  let i : Input := { PreviousTxID := txID, PreviousTxOutIndex := vout, PreviousTxSatoshis := satoshis, PreviousTxScript := some pts,
                     UnlockingScript := none, SequenceNumber := 0xffffffff }
  pure (AddInput bt i)

/-- transaction/Transaction.go:144-146 `InputCount` -/
def InputCount (bt : Transaction) : Nat := bt.Inputs.length

/-- transaction/Transaction.go:149-151 `OutputCount` -/
def OutputCount (bt : Transaction) : Nat := bt.Outputs.length

/-- transaction/Transaction.go:154-157 `AddOutput` -/
def AddOutput (bt : Transaction) (o : Output) : Transaction := { bt with Outputs := bt.Outputs ++ [o] }

/-- transaction/Transaction.go:161-169 `PayTo`; on error the receiver is unchanged. -/
def PayTo (bt : Transaction) (addr : Bytes) (satoshis : UInt64) : Res Transaction := do
  let o ← Output.NewP2PKHFromAddress addr satoshis
  pure (AddOutput bt o)

/-- The 64-zero string of transaction/Transaction.go:178. -/
def zeroTxID : Bytes := List.replicate 64 48

/-- transaction/Transaction.go:173-187 `IsCoinbase` -/
def IsCoinbase (bt : Transaction) : Bool :=
  match bt.Inputs with
  | [i] =>
    if i.PreviousTxID ≠ zeroTxID then false
    else i.PreviousTxOutIndex == 0xFFFFFFFF || i.SequenceNumber == 0xFFFFFFFF
  | _ => false

/-- transaction/Transaction.go:200-207 `GetTotalOutputSatoshis` (uint64 addition wraps). -/
def GetTotalOutputSatoshis (bt : Transaction) : UInt64 := bt.Outputs.foldl (fun total o => total + o.Satoshis) 0

/-- The input loop of `toBytesHelper`, transaction/Transaction.go:239-247, starting at position `k`; `index` is a Go `int`. -/
def inputsHelper (index : Int) (scriptPubKey : Option Bytes) : Nat → List Input → Bytes
  | _, [] => []
  | k, i :: is =>
    let s := i.ToBytes scriptPubKey.isSome
    (match scriptPubKey with
     | some scr => if (k : Int) = index then VarInt (UInt64.ofNat scr.length) ++ scr else s
     | none => s) ++ inputsHelper index scriptPubKey (k + 1) is

/-- transaction/Transaction.go:232-259 `toBytesHelper`; `scriptPubKey = none` is the nil slice. -/
def toBytesHelper (bt : Transaction) (index : Int) (scriptPubKey : Option Bytes) : Bytes :=
  putUint32 bt.Version ++ VarInt (UInt64.ofNat bt.Inputs.length) ++ inputsHelper index scriptPubKey 0 bt.Inputs ++
    VarInt (UInt64.ofNat bt.Outputs.length) ++ bt.Outputs.flatMap Output.ToBytes ++ putUint32 bt.Locktime

/-- transaction/Transaction.go:222-224 `ToBytes` -/
def ToBytes (bt : Transaction) : Bytes := toBytesHelper bt 0 none

/-- transaction/Transaction.go:228-230 `ToBytesWithClearedInputs` -/
def ToBytesWithClearedInputs (bt : Transaction) (index : Int) (scriptPubKey : Option Bytes) : Bytes :=
  toBytesHelper bt index scriptPubKey

/-- transaction/Transaction.go:216-218 `ToString` -/
def ToString (bt : Transaction) : Bytes := hexEncode (ToBytes bt)

/-- transaction/Transaction.go:211-213 `GetTxID` -/
def GetTxID (H : HashFns) (bt : Transaction) : Bytes := hexEncode (ReverseBytes (Sha256d H (ToBytes bt)))

/-- transaction/Transaction.go:290-297 `ApplyUnlockingScript`: `bt.Inputs[index]` panics out of range; inputs are never nil in this model. -/
def ApplyUnlockingScript (bt : Transaction) (idx : UInt32) (s : Script) : Res Transaction := do
  let i ← index bt.Inputs idx.toNat
  pure { bt with Inputs := bt.Inputs.set idx.toNat { i with UnlockingScript := some s } }

end Transaction
end Verif
