import Verif.Model.SigHash
import Verif.Model.Block
/-!
# How much work the functions do

The functions that loop over untrusted data, and signing, written again with a counter. Nothing is simplified against Model/Tx, Model/PushData, Model/Block, Model/SigHash: Props/Work proves that forgetting the
counter gives those models back. What is counted is said at each function.
-/
namespace Verif

/-- A call that counts: the count and the outcome. After an error or a panic nothing is counted any more. -/
structure Work (α : Type) where
  count : Nat
  res : Res α

namespace Work

/-- Sequencing adds the counts. -/
protected def bind {α β : Type} (x : Work α) (f : α → Work β) : Work β :=
  match x.res with
  | .ok a => ⟨x.count + (f a).count, (f a).res⟩
  | .err m => ⟨x.count, .err m⟩
  | .panic => ⟨x.count, .panic⟩

instance : Monad Work where
  pure a := ⟨0, .ok a⟩
  bind := Work.bind

/-- A call in which nothing is counted. -/
def free {α : Type} (r : Res α) : Work α := ⟨0, r⟩

/-- Count `n`. -/
def tick (n : Nat) : Work Unit := ⟨n, .ok ()⟩

end Work
open Work

namespace Transaction

/-- transaction/Transaction.go:83-91, the input loop of `NewFromBytes`; the calls of `input.NewFromBytes` are counted. -/
def readInputsW : Nat → Slice → Int → Work (List Input × Int)
  | 0, _, offset => pure ([], offset)
  | n + 1, b, offset => do
    let s ← free (b.sliceFrom offset)
    tick 1
    let (i, size) ← free (Input.NewFromBytes s)
    let (is, off) ← readInputsW n b (wrap64 (offset + size))
    pure (i :: is, off)

/-- transaction/Transaction.go:96-103, the output loop of `NewFromBytes`; the calls of `output.NewFromBytes` are counted. -/
def readOutputsW : Nat → Slice → Int → Work (List Output × Int)
  | 0, _, offset => pure ([], offset)
  | n + 1, b, offset => do
    let s ← free (b.sliceFrom offset)
    tick 1
    let (o, size) ← free (Output.NewFromBytes s)
    let (os, off) ← readOutputsW n b (wrap64 (offset + size))
    pure (o :: os, off)

/-- transaction/Transaction.go:66-115 `NewFromBytes`; the iterations of both loops are counted. -/
def NewFromBytesW (b : Slice) : Work Transaction :=
  if b.len < 10 then free (.err "too short to be a tx - even an empty tx has 10 bytes")
  else do
    let vs ← free (b.sliceRange 0 4)
    let version ← free (getUint32 vs.data)
    let offset : Int := 4
    let s ← free (b.sliceFrom offset)
    let (inputCount, size) ← free (DecodeVarInt s)
    let offset := wrap64 (offset + size)
    let (ins, offset) ← readInputsW inputCount.toNat b offset
    let s ← free (b.sliceFrom offset)
    let (outputCount, size) ← free (DecodeVarInt s)
    let offset := wrap64 (offset + size)
    let (outs, offset) ← readOutputsW outputCount.toNat b offset
    let nLT ← free (b.sliceFrom offset)
    if nLT.len ≠ 4 then free (.err "nLockTime length must be 4 bytes long")
    else do
      let lt ← free (getUint32 nLT.data)
      pure { Version := version, Inputs := ins, Outputs := outs, Locktime := lt }

/-- crypto/Hash.go:16-20 `Sha256d`, counting the bytes it is given. -/
def sha256dW (H : HashFns) (b : Bytes) : Work Bytes := do
  tick b.length
  pure (Sha256d H b)

/-- transaction/SignatureHash.go:127-139 `getOutputsHash`; bytes hashed. -/
def getOutputsHashW (H : HashFns) (bt : Transaction) (n : Int) : Work Bytes :=
  if n = -1 then sha256dW H (bt.Outputs.flatMap Output.GetBytesForSigHash)
  else if n < 0 then free .panic
  else do
    let o ← free (index bt.Outputs n.toNat)
    sha256dW H o.GetBytesForSigHash

/-- transaction/SignatureHash.go:31-34 (with `getPrevoutHash`, 101-113); bytes hashed. -/
def prevoutsFieldW (H : HashFns) (bt : Transaction) (sigHashFlag : UInt8) : Work Bytes :=
  if sigHashFlag &&& sighash.AnyOneCanPay = 0 then
    sha256dW H (bt.Inputs.flatMap fun i => ReverseBytes (hexDecodeIgnore i.PreviousTxID) ++ putUint32 i.PreviousTxOutIndex)
  else pure (List.replicate 32 0)

/-- transaction/SignatureHash.go:36-41 (with `getSequenceHash`, 115-125); bytes hashed. -/
def sequenceFieldW (H : HashFns) (bt : Transaction) (sigHashFlag : UInt8) : Work Bytes :=
  if sigHashFlag &&& sighash.AnyOneCanPay = 0 ∧ sigHashFlag &&& 31 ≠ sighash.Single ∧ sigHashFlag &&& 31 ≠ sighash.None then
    sha256dW H (bt.Inputs.flatMap fun i => putUint32 i.SequenceNumber)
  else pure (List.replicate 32 0)

/-- transaction/SignatureHash.go:43-49; bytes hashed. -/
def outputsFieldW (H : HashFns) (bt : Transaction) (inputNumber : UInt32) (sigHashFlag : UInt8) : Work Bytes :=
  if sigHashFlag &&& 31 ≠ sighash.Single ∧ sigHashFlag &&& 31 ≠ sighash.None then getOutputsHashW H bt (-1)
  else if sigHashFlag &&& 31 = sighash.Single ∧ inputNumber < UInt32.ofNat bt.Outputs.length then
    getOutputsHashW H bt (int32OfUint32 inputNumber)
  else pure (List.replicate 32 0)

/-- transaction/SignatureHash.go:17-99 `GetInputSignatureHash`; the bytes given to `crypto.Sha256d` are counted. -/
def GetInputSignatureHashW (H : HashFns) (bt : Transaction) (inputNumber : UInt32) (sigHashFlag : UInt8) : Work Bytes := do
  let i ← free (index bt.Inputs inputNumber.toNat)
  if i.PreviousTxID = [] then free (.err "'PreviousTxID' not supplied")
  else match i.PreviousTxScript with
  | none => free (.err "'PreviousTxScript' not supplied")
  | some prevScript => do
    let hashPrevouts ← prevoutsFieldW H bt sigHashFlag
    let hashSequence ← sequenceFieldW H bt sigHashFlag
    let hashOutputs ← outputsFieldW H bt inputNumber sigHashFlag
    let buf : Bytes := putUint32 bt.Version ++ hashPrevouts ++ hashSequence ++
      ReverseBytes (hexDecodeIgnore i.PreviousTxID) ++ putUint32 i.PreviousTxOutIndex ++
      VarInt (UInt64.ofNat prevScript.length) ++ prevScript ++
      putUint64 i.PreviousTxSatoshis ++ putUint32 i.SequenceNumber ++ hashOutputs ++ putUint32 bt.Locktime ++
      putUint32 sigHashFlag.toUInt32
    let ret ← sha256dW H buf
    pure (ReverseBytes ret)

end Transaction

namespace InternalSigner

/-- transaction/signature/InternalSigner.go:24-47 `Sign`; bytes hashed for the signature hash. -/
def SignW (H : HashFns) (is : InternalSigner) (idx : UInt32) (unsignedTx : Transaction) : Work Transaction := do
  let flag := is.effFlag
  let sh ← unsignedTx.GetInputSignatureHashW H idx flag
  let sig ← free (is.sign (ReverseBytes sh))
  let s := (NewP2PKHUnlockingScript is.pubKey sig flag).1
  free (unsignedTx.ApplyUnlockingScript idx s)

/-- One iteration of the loop of `SignAuto`, InternalSigner.go:57-68; bytes hashed for signature hashes. -/
def signAutoStepW (H : HashFns) (is : InternalSigner) (i : Nat) (tx : Transaction) : Work Transaction :=
  match tx.Inputs[i]? with
  | none => pure tx
  | some inp =>
    match GetPublicKeyHash inp.PreviousTxScript with
    | .panic => free .panic
    | r =>
      let pubKeyHash := match r with | .ok h => h | _ => []
      if hexEncode pubKeyHash = hexEncode (Hash160 H is.pubKey) then
        let w := is.SignW H (UInt32.ofNat i) tx
        match w.res with
        | .ok tx' => ⟨w.count, .ok tx'⟩
        | .err _ => ⟨w.count, .ok tx⟩
        | .panic => ⟨w.count, .panic⟩
      else pure tx

/-- The loop of `SignAuto` over positions `i, i+1, ...` (`n` of them). -/
def signAutoLoopW (H : HashFns) (is : InternalSigner) : Nat → Nat → Transaction → Work Transaction
  | 0, _, tx => pure tx
  | n + 1, i, tx => do
    let tx' ← signAutoStepW H is i tx
    signAutoLoopW H is n (i + 1) tx'

/-- transaction/signature/InternalSigner.go:52-71 `SignAuto`; bytes hashed for signature hashes. -/
def SignAutoW (H : HashFns) (is : InternalSigner) (unsignedTx : Transaction) : Work Transaction :=
  signAutoLoopW H is unsignedTx.Inputs.length 0 unsignedTx

end InternalSigner

/-- The loop of `DecodeParts`, script/OpPushdata.go:86-139: its iterations, the parts, and how it ends. `fuel` bounds the iterations. -/
def decodeLoopW : Nat → Bytes → Nat × List Bytes × Ending
  | 0, _ => (0, [], .done)
  | fuel + 1, b =>
    match decodeStep b with
    | .error .done => (0, [], .done)
    | .error e => (1, [], e)
    | .ok (part, rest) =>
      let r := decodeLoopW fuel rest
      (r.1 + 1, part :: r.2.1, r.2.2)

/-- The pairing loop of `walkBranch`, block/GetMerkleBranches.go:39-51; the calls of `Sha256d` are counted. -/
def pairUpW (H : HashFns) : List Bytes → Nat × List Bytes
  | [] => (0, [])
  | [x] =>
    let a := hexDecodeIgnore x
    (1, [hexEncode (Sha256d H (a ++ a))])
  | x :: y :: rest =>
    let r := pairUpW H rest
    (r.1 + 1, hexEncode (Sha256d H (hexDecodeIgnore x ++ hexDecodeIgnore y)) :: r.2)

/-- `walkBranch`, block/GetMerkleBranches.go:28-54; calls of itself and of `Sha256d`. -/
def walkBranchW (H : HashFns) : Nat → List Bytes → (Nat × Nat) × List Bytes
  | 0, _ => ((0, 0), [])
  | fuel + 1, hashes => match hashes with
    | [] => ((1, 0), [])
    | [_] => ((1, 0), [])
    | x :: y :: rest =>
      let p := pairUpW H (x :: y :: rest)
      let r := walkBranchW H fuel p.2
      ((r.1.1 + 1, r.1.2 + p.1), y :: r.2)

/-- block/GetMerkleBranches.go:22-59 `GetMerkleBranches`; calls of `walkBranch` and of `Sha256d`. -/
def GetMerkleBranchesW (H : HashFns) (template : List Bytes) : (Nat × Nat) × List Bytes :=
  let hashes := getHashes template
  walkBranchW H (hashes.length + 1) hashes

end Verif
