import Verif.Model.Tx
/-!
# Specification: the replay-protected signature digest

Written from the published algorithm (bitcoin-sv doc/abc/replay-protected-sighash.md), not from the Go code. Only the record types and
`hexDecodeIgnore` (Go's lenient `hex.DecodeString`) are shared with the model.
-/
namespace Verif.Spec
open Verif

/-- The shortest variable-length encoding of a count. -/
def compactSize (n : Nat) : Bytes :=
  if n < 0xfd then [UInt8.ofNat n]
  else if n < 2 ^ 16 then 0xfd :: leBytes 2 n
  else if n < 2 ^ 32 then 0xfe :: leBytes 4 n
  else 0xff :: leBytes 8 n

/-- Bit 7 of the flag. -/
def anyoneCanPay (flag : UInt8) : Bool := 128 ≤ flag.toNat
/-- The low five bits of the flag are 2. -/
def isNone (flag : UInt8) : Bool := flag.toNat % 32 = 2
/-- The low five bits of the flag are 3. -/
def isSingle (flag : UInt8) : Bool := flag.toNat % 32 = 3

/-- The outpoint of an input as it is hashed: previous txid in internal byte order and index. -/
def outpoint (i : Input) : Bytes := (hexDecodeIgnore i.PreviousTxID).reverse ++ leBytes 4 i.PreviousTxOutIndex.toNat

/-- An output as it is hashed. -/
def outputBytes (o : Output) : Bytes := leBytes 8 o.Satoshis.toNat ++ compactSize o.LockingScript.length ++ o.LockingScript

/-- The string behind `hashPrevouts`. -/
def prevoutsString (tx : Transaction) : Bytes := tx.Inputs.flatMap outpoint
/-- The string behind `hashSequence`. -/
def sequenceString (tx : Transaction) : Bytes := tx.Inputs.flatMap fun i => leBytes 4 i.SequenceNumber.toNat
/-- The string behind `hashOutputs`, `none` when the field is zero. -/
def outputsString (tx : Transaction) (idx : Nat) (flag : UInt8) : Option Bytes :=
  if isNone flag then none
  else if isSingle flag then (tx.Outputs[idx]?).map outputBytes
  else some (tx.Outputs.flatMap outputBytes)

/-- Thirty-two zero bytes. -/
def zero32 : Bytes := List.replicate 32 0

/-- The ten fields of the preimage, in order, for a hash function `dsha` (double SHA256). -/
def preimage (dsha : Bytes → Bytes) (tx : Transaction) (idx : Nat) (inp : Input) (scriptCode : Bytes) (flag : UInt8) : Bytes :=
  leBytes 4 tx.Version.toNat ++
  (if anyoneCanPay flag then zero32 else dsha (prevoutsString tx)) ++
  (if anyoneCanPay flag || isNone flag || isSingle flag then zero32 else dsha (sequenceString tx)) ++
  outpoint inp ++
  (compactSize scriptCode.length ++ scriptCode) ++
  leBytes 8 inp.PreviousTxSatoshis.toNat ++
  leBytes 4 inp.SequenceNumber.toNat ++
  (match outputsString tx idx flag with | some s => dsha s | none => zero32) ++
  leBytes 4 tx.Locktime.toNat ++
  leBytes 4 flag.toNat

/-- The strings that are hashed (with double SHA256) while the signature hash is computed. -/
def hashedStrings (dsha : Bytes → Bytes) (tx : Transaction) (idx : Nat) (inp : Input) (code : Bytes) (flag : UInt8) : List Bytes :=
  [preimage dsha tx idx inp code flag, prevoutsString tx, sequenceString tx] ++ (outputsString tx idx flag).toList

/-- Two different strings among those hashed collide, or one hashes to zero. -/
def Collision (dsha : Bytes → Bytes) (as bs : List Bytes) : Prop :=
  (∃ a ∈ as, ∃ b ∈ bs, a ≠ b ∧ dsha a = dsha b) ∨ (∃ a, (a ∈ as ∨ a ∈ bs) ∧ dsha a = zero32)

/-- A transaction of realistic size: fewer than 2^31 inputs, fewer than 2^32 outputs, scripts below 2^64 bytes. -/
def Sized (tx : Transaction) : Prop :=
  tx.Inputs.length < 2 ^ 31 ∧ tx.Outputs.length < 2 ^ 32 ∧ (∀ o ∈ tx.Outputs, o.LockingScript.length < 2 ^ 64) ∧
  (∀ i ∈ tx.Inputs, ∀ s, i.PreviousTxScript = some s → s.length < 2 ^ 64)

end Verif.Spec
