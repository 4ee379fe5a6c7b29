import Verif.Model.Tx
/-!
# transaction/SignatureHash.go, transaction/signature/sighash/SigHashFlag.go, transaction/signature/InternalSigner.go
-/
namespace Verif

/-! transaction/signature/sighash/SigHashFlag.go:8-28 -/
namespace sighash
/-- SigHashFlag.go:11 -/ def None : UInt8 := 0x2
/-- SigHashFlag.go:12 -/ def Single : UInt8 := 0x3
/-- SigHashFlag.go:13 -/ def AnyOneCanPay : UInt8 := 0x80
/-- SigHashFlag.go:16 -/ def AllForkID : UInt8 := 0x1 ||| 0x40
end sighash

namespace Transaction

/-- transaction/SignatureHash.go:101-113 `getPrevoutHash` -/
def getPrevoutHash (H : HashFns) (bt : Transaction) : Bytes :=
  Sha256d H (bt.Inputs.flatMap fun i => ReverseBytes (hexDecodeIgnore i.PreviousTxID) ++ putUint32 i.PreviousTxOutIndex)

/-- transaction/SignatureHash.go:115-125 `getSequenceHash` -/
def getSequenceHash (H : HashFns) (bt : Transaction) : Bytes :=
  Sha256d H (bt.Inputs.flatMap fun i => putUint32 i.SequenceNumber)

/-- `int32(v)` of a uint32. -/
def int32OfUint32 (v : UInt32) : Int := ((v.toNat : Int) + 2 ^ 31) % 2 ^ 32 - 2 ^ 31

/-- transaction/SignatureHash.go:127-139 `getOutputsHash`: -1 means all outputs, other negative indices panic. -/
def getOutputsHash (H : HashFns) (bt : Transaction) (n : Int) : Res Bytes :=
  if n = -1 then .ok (Sha256d H (bt.Outputs.flatMap Output.GetBytesForSigHash))
  else if n < 0 then .panic
  else do
    let o ← index bt.Outputs n.toNat
    pure (Sha256d H o.GetBytesForSigHash)

/-- transaction/SignatureHash.go:17-99 `GetInputSignatureHash` -/
def GetInputSignatureHash (H : HashFns) (bt : Transaction) (inputNumber : UInt32) (sigHashFlag : UInt8) : Res Bytes := do
  let i ← index bt.Inputs inputNumber.toNat
  if i.PreviousTxID = [] then .err "'PreviousTxID' not supplied"
  else match i.PreviousTxScript with
  | none => .err "'PreviousTxScript' not supplied"
  | some prevScript => do
    let zero := List.replicate 32 (0 : UInt8)
    let hashPrevouts := if sigHashFlag &&& sighash.AnyOneCanPay = 0 then getPrevoutHash H bt else zero
    let hashSequence :=
      if sigHashFlag &&& sighash.AnyOneCanPay = 0 ∧ sigHashFlag &&& 31 ≠ sighash.Single ∧ sigHashFlag &&& 31 ≠ sighash.None
      then getSequenceHash H bt else zero
    let hashOutputs ←
      if sigHashFlag &&& 31 ≠ sighash.Single ∧ sigHashFlag &&& 31 ≠ sighash.None then getOutputsHash H bt (-1)
      else if sigHashFlag &&& 31 = sighash.Single ∧ inputNumber < UInt32.ofNat bt.Outputs.length then
        getOutputsHash H bt (int32OfUint32 inputNumber)
      else .ok zero
    let buf : Bytes := putUint32 bt.Version ++ hashPrevouts ++ hashSequence ++
      ReverseBytes (hexDecodeIgnore i.PreviousTxID) ++ putUint32 i.PreviousTxOutIndex ++
      VarInt (UInt64.ofNat prevScript.length) ++ prevScript ++
      putUint64 i.PreviousTxSatoshis ++ putUint32 i.SequenceNumber ++ hashOutputs ++ putUint32 bt.Locktime ++
      putUint32 sigHashFlag.toUInt32
    let ret := Sha256d H buf
    pure (ReverseBytes ret)

end Transaction

/-- transaction/signature/InternalSigner.go:17-20 `InternalSigner`. The bsvec private key is represented by what the code uses of it:
signing a digest (with DER serialisation) and its compressed public key. -/
structure InternalSigner where
  sign : Bytes → Res Bytes
  pubKey : Bytes
  SigHashFlag : UInt8

namespace InternalSigner

/-- The flag after the defaulting of InternalSigner.go:25-27 and 53-55. The code stores it back into the receiver; later calls then use the
same value, so the store itself is not modelled here (Model/Objects.lean has it). -/
def effFlag (is : InternalSigner) : UInt8 := if is.SigHashFlag = 0 then sighash.AllForkID else is.SigHashFlag

/-- transaction/signature/InternalSigner.go:24-47 `Sign`: the error of `NewP2PKHUnlockingScript` is overwritten. -/
def Sign (H : HashFns) (is : InternalSigner) (idx : UInt32) (unsignedTx : Transaction) : Res Transaction := do
  let flag := is.effFlag
  let sh ← unsignedTx.GetInputSignatureHash H idx flag
  let sig ← is.sign (ReverseBytes sh)
  let s := (NewP2PKHUnlockingScript is.pubKey sig flag).1
  unsignedTx.ApplyUnlockingScript idx s

/-- One iteration of the loop of `SignAuto`, InternalSigner.go:57-68: errors of `GetPublicKeyHash` give the empty hash, errors of `Sign`
leave the transaction unchanged. -/
def signAutoStep (H : HashFns) (is : InternalSigner) (i : Nat) (tx : Transaction) : Res Transaction :=
  match tx.Inputs[i]? with
  | none => .ok tx
  | some inp =>
    match GetPublicKeyHash inp.PreviousTxScript with
    | .panic => .panic
    | r =>
      let pubKeyHash := match r with | .ok h => h | _ => []
      if hexEncode pubKeyHash = hexEncode (Hash160 H is.pubKey) then
        match is.Sign H (UInt32.ofNat i) tx with
        | .ok tx' => .ok tx'
        | .err _ => .ok tx
        | .panic => .panic
      else .ok tx

/-- The loop of `SignAuto` over positions `i, i+1, ...` (`n` of them). -/
def signAutoLoop (H : HashFns) (is : InternalSigner) : Nat → Nat → Transaction → Res Transaction
  | 0, _, tx => .ok tx
  | n + 1, i, tx => do
    let tx' ← signAutoStep H is i tx
    signAutoLoop H is n (i + 1) tx'

/-- transaction/signature/InternalSigner.go:52-71 `SignAuto` -/
def SignAuto (H : HashFns) (is : InternalSigner) (unsignedTx : Transaction) : Res Transaction :=
  signAutoLoop H is unsignedTx.Inputs.length 0 unsignedTx

end InternalSigner

/-- transaction/Transaction.go:265-272 `Sign` with an `InternalSigner`: the transaction after the call and the error, if any. -/
def Transaction.Sign (H : HashFns) (bt : Transaction) (idx : UInt32) (s : InternalSigner) : Res (Transaction × Option String) :=
  match s.Sign H idx bt with
  | .ok t => .ok (t, none)
  | .err e => .ok (bt, some e)
  | .panic => .panic

/-- transaction/Transaction.go:279-286 `SignAuto` with an `InternalSigner`. -/
def Transaction.SignAuto (H : HashFns) (bt : Transaction) (s : InternalSigner) : Res (Transaction × Option String) :=
  match s.SignAuto H bt with
  | .ok t => .ok (t, none)
  | .err e => .ok (bt, some e)
  | .panic => .panic

end Verif
