import Verif.Go.Heap
import Verif.Model.Tx
import Verif.Model.Block
import Verif.Model.Encryption
/-!
# Functions of the code whose use of memory is visible to callers

The same functions as in Model/Tx, Model/Script, Model/Block, but on slice headers in an explicit memory. The value-level models are
related to these by refinement theorems (Props/Memory). Integers, strings and freshly allocated intermediate buffers that do not escape
stay values.
-/
namespace Verif

/-- transaction/input/Input.go:25-32 `Input` as parsed: the unlocking script is a slice header. -/
structure HInput where
  PreviousTxID : Bytes
  PreviousTxOutIndex : UInt32
  UnlockingScript : Hdr
  SequenceNumber : UInt32
deriving DecidableEq, Repr

/-- transaction/output/Output.go:25-28 `Output` -/
structure HOutput where
  Satoshis : UInt64
  LockingScript : Hdr
deriving DecidableEq, Repr

/-- transaction/Transaction.go:37-42 `Transaction`. Every `*Input`, `*Output`, `*Script` made by the parser is a distinct object, so the
objects are kept in place of the pointers. -/
structure HTransaction where
  Version : UInt32
  Inputs : List HInput
  Outputs : List HOutput
  Locktime : UInt32
deriving DecidableEq, Repr

/-- utils/VarInt.go:30-51 `DecodeVarInt` through a header (it keeps no reference to its argument). -/
def DecodeVarIntH (m : Mem) (h : Hdr) : Res (UInt64 × Nat) := DecodeVarInt (h.view m)

/-- transaction/input/Input.go:46-72 `NewFromBytes`: the script is `bytes[offset : offset+int(l)]`, no copy. -/
def HInput.NewFromBytes (m : Mem) (bytes : Hdr) : Res (HInput × Int) :=
  if bytes.len < 36 then .err "input length too short < 36"
  else do
    let h ← bytes.sliceRange 0 32
    let txid := hexEncode (ReverseBytes (h.data m))
    let is ← bytes.sliceRange 32 36
    let idx ← getUint32 (is.data m)
    let tail ← bytes.sliceFrom 36
    let (l, size) ← DecodeVarIntH m tail
    let offset : Int := 36 + size
    let stop := wrap64 (offset + intOfUint64 l)
    let totalLength := wrap64 (stop + 4)
    if (bytes.len : Int) < totalLength then .err "input length too short < 36 + script + 4"
    else do
      let scr ← bytes.sliceRange offset stop
      let rest ← bytes.sliceFrom stop
      let seq ← getUint32 (rest.data m)
      pure ({ PreviousTxID := txid, PreviousTxOutIndex := idx, UnlockingScript := scr, SequenceNumber := seq }, totalLength)

/-- transaction/output/Output.go:31-54 `NewFromBytes`: the script is `bytes[offset:totalLength]`, no copy. -/
def HOutput.NewFromBytes (m : Mem) (bytes : Hdr) : Res (HOutput × Int) :=
  if bytes.len < 8 then .err "output length too short < 8"
  else do
    let ss ← bytes.sliceRange 0 8
    let sat ← getUint64 (ss.data m)
    let tail ← bytes.sliceFrom 8
    let (l, size) ← DecodeVarIntH m tail
    let offset : Int := 8 + size
    let totalLength := wrap64 (offset + intOfUint64 l)
    if (bytes.len : Int) < totalLength then .err "output length too short < 8 + script"
    else do
      let s ← bytes.sliceRange offset totalLength
      pure ({ Satoshis := sat, LockingScript := s }, totalLength)

namespace HTransaction

/-- transaction/Transaction.go:83-91, the input loop of `NewFromBytes` -/
def readInputs (m : Mem) : Nat → Hdr → Int → Res (List HInput × Int)
  | 0, _, offset => .ok ([], offset)
  | n + 1, b, offset => do
    let s ← b.sliceFrom offset
    let (i, size) ← HInput.NewFromBytes m s
    let (is, off) ← readInputs m n b (wrap64 (offset + size))
    pure (i :: is, off)

/-- transaction/Transaction.go:96-103, the output loop of `NewFromBytes` -/
def readOutputs (m : Mem) : Nat → Hdr → Int → Res (List HOutput × Int)
  | 0, _, offset => .ok ([], offset)
  | n + 1, b, offset => do
    let s ← b.sliceFrom offset
    let (o, size) ← HOutput.NewFromBytes m s
    let (os, off) ← readOutputs m n b (wrap64 (offset + size))
    pure (o :: os, off)

/-- transaction/Transaction.go:66-115 `NewFromBytes` -/
def NewFromBytes (m : Mem) (b : Hdr) : Res HTransaction :=
  if b.len < 10 then .err "too short to be a tx - even an empty tx has 10 bytes"
  else do
    let vs ← b.sliceRange 0 4
    let version ← getUint32 (vs.data m)
    let offset : Int := 4
    let s ← b.sliceFrom offset
    let (inputCount, size) ← DecodeVarIntH m s
    let offset := wrap64 (offset + size)
    let (ins, offset) ← readInputs m inputCount.toNat b offset
    let s ← b.sliceFrom offset
    let (outputCount, size) ← DecodeVarIntH m s
    let offset := wrap64 (offset + size)
    let (outs, offset) ← readOutputs m outputCount.toNat b offset
    let nLT ← b.sliceFrom offset
    if nLT.len ≠ 4 then .err "nLockTime length must be 4 bytes long"
    else do
      let lt ← getUint32 (nLT.data m)
      pure { Version := version, Inputs := ins, Outputs := outs, Locktime := lt }

/-- All scripts of a parsed transaction, in the order in which they are serialised. -/
def scripts (tx : HTransaction) : List Hdr := tx.Inputs.map (·.UnlockingScript) ++ tx.Outputs.map (·.LockingScript)

end HTransaction

/-- The transaction that a caller sees in memory `m`. -/
def HInput.read (m : Mem) (i : HInput) : Input :=
  { PreviousTxID := i.PreviousTxID, PreviousTxOutIndex := i.PreviousTxOutIndex, PreviousTxSatoshis := 0, PreviousTxScript := none,
    UnlockingScript := some (i.UnlockingScript.data m), SequenceNumber := i.SequenceNumber }

/-- see `HInput.read` -/
def HOutput.read (m : Mem) (o : HOutput) : Output := { Satoshis := o.Satoshis, LockingScript := o.LockingScript.data m }

/-- see `HInput.read` -/
def HTransaction.read (m : Mem) (tx : HTransaction) : Transaction :=
  { Version := tx.Version, Inputs := tx.Inputs.map (HInput.read m), Outputs := tx.Outputs.map (HOutput.read m), Locktime := tx.Locktime }

/-- One call that appends to a script object: script/Script.go:127-135 `AppendPushData`, :154-162 `AppendPushDataArray`,
:175-177 `AppendOpCode` (the hex, string and strings forms call the first two). `grow` is what the runtime adds if it reallocates. -/
inductive ScriptAppend where
  | pushes (data : List Bytes) (grow : Nat)
  | opcode (o : UInt8) (grow : Nat)

/-- The bytes the call appends: `EncodeParts` builds them in a new buffer before `append`. -/
def ScriptAppend.bytes : ScriptAppend → Res Bytes
  | .pushes d _ => EncodeParts d
  | .opcode o _ => .ok [o]

/-- The extra capacity chosen by the runtime. -/
def ScriptAppend.grow : ScriptAppend → Nat
  | .pushes _ g => g
  | .opcode _ g => g

/-- The effect of the call on memory and on the script variable: `*s = append(*s, p...)`; on an error nothing changes. -/
def ScriptAppend.run (op : ScriptAppend) (m : Mem) (s : Hdr) : Mem × Hdr :=
  match op.bytes with
  | .ok p => m.append op.grow s p
  | _ => (m, s)

/-- The call applied to script number `t` of several script variables. -/
def runAt (m : Mem) (ss : List Hdr) (t : Nat) (op : ScriptAppend) : Mem × List Hdr :=
  match ss[t]? with
  | some s => let r := op.run m s; (r.1, ss.set t r.2)
  | none => (m, ss)

/-- A history of such calls. -/
def runAll (m : Mem) (ss : List Hdr) : List (Nat × ScriptAppend) → Mem × List Hdr
  | [] => (m, ss)
  | (t, op) :: rest => let r := runAt m ss t op; runAll r.1 r.2 rest

/-- A call that works on script variables: create one in memory of its own, or append to number `t`. -/
inductive ScriptCall where
  | make (value : Bytes) (spare : Nat)
  | append (t : Nat) (op : ScriptAppend)

/-- Script-creating calls that allocate: script/Script.go:18-24 `NewFromHexString`, :32-49 `NewFromASM`, :53-95 the P2PKH constructors from keys
and hashes, :99-124 `NewP2PKHFromAddress`, input/Input.go:35-43 `New`; the value is theirs, the spare capacity whatever they leave (zeros here:
what lies in the spare bytes is never read). -/
def ScriptCall.run (c : ScriptCall) (m : Mem) (ss : List Hdr) : Mem × List Hdr :=
  match c with
  | .make v spare => let r := m.fresh v spare; (r.1, ss ++ [r.2])
  | .append t op => runAt m ss t op

/-- A history of such calls. -/
def runCalls (m : Mem) (ss : List Hdr) : List ScriptCall → Mem × List Hdr
  | [] => (m, ss)
  | c :: rest => let r := c.run m ss; runCalls r.1 r.2 rest

/-! ## script: decoding -/

/-- `part := b[lo:hi]; b = b[hi:]` of script/OpPushdata.go:97-99, 109-111, 121-123, 130-132: both share the array of `b`. -/
def cutH (b : Hdr) (lo hi : Nat) : Except Ending (Hdr × Hdr) :=
  match b.sliceRange lo hi, b.sliceFrom hi with
  | .ok part, .ok rest => .ok (part, rest)
  | _, _ => .error .panic

/-- One iteration of the loop of `DecodeParts`, script/OpPushdata.go:86-139, on slice headers: a pushed part is a slice of `b`, the part of an
opcode is the new slice `[]byte{b[0]}` (:135). -/
def decodeStepH (m : Mem) (b : Hdr) : Except Ending (Mem × Hdr × Hdr) :=
  if b.len = 0 then .error .done
  else
    let d := b.data m
    let b0 := d.getD 0 0
    if b0 = Op.OpPUSHDATA1 then
      if b.len < 2 then .error .notEnoughData
      else
        let l : UInt64 := (d.getD 1 0).toUInt64
        let hi := (2 + l).toNat
        if b.len < hi then .error .notEnoughData
        else (cutH b 2 hi).map fun r => (m, r.1, r.2)
    else if b0 = Op.OpPUSHDATA2 then
      if b.len < 3 then .error .notEnoughData
      else
        let l : UInt16 := UInt16.ofNat (leNat ((d.drop 1).take 2))
        let hi := (3 + l).toNat
        if b.len < hi then .error .notEnoughData
        else (cutH b 3 hi).map fun r => (m, r.1, r.2)
    else if b0 = Op.OpPUSHDATA4 then
      if b.len < 5 then .error .notEnoughData
      else
        let l : UInt32 := UInt32.ofNat (leNat ((d.drop 1).take 4))
        let hi := (5 + l).toNat
        if b.len < hi then .error .notEnoughData
        else (cutH b 5 hi).map fun r => (m, r.1, r.2)
    else if b0 ≥ 0x01 ∧ b0 ≤ 0x4e then
      let l : UInt8 := b0
      let hi := (1 + l).toNat
      if b.len < hi then .error .notEnoughData
      else (cutH b 1 hi).map fun r => (m, r.1, r.2)
    else
      let f := m.fresh [b0] 0
      match b.sliceFrom 1 with
      | .ok rest => .ok (f.1, f.2, rest)
      | _ => .error .panic

/-- The loop of `DecodeParts`; `fuel` bounds the iterations. -/
def decodeLoopH : Nat → Mem → Hdr → Mem × List Hdr × Ending
  | 0, m, _ => (m, [], .done)
  | fuel + 1, m, b =>
    match decodeStepH m b with
    | .error e => (m, [], e)
    | .ok (m, part, rest) =>
      let r := decodeLoopH fuel m rest
      (r.1, part :: r.2.1, r.2.2)

/-- script/OpPushdata.go:84-142 `DecodeParts` on slice headers: the memory afterwards, the parts, how decoding ended. -/
def DecodePartsH (m : Mem) (b : Hdr) : Mem × List Hdr × Ending := decodeLoopH (b.len + 1) m b

/-- script/Script.go:288-303 `GetPublicKeyHash` on slice headers, for a non-nil script: the result is the first part of `(*s)[2:]`. -/
def GetPublicKeyHashH (m : Mem) (s : Hdr) : Res (Mem × Hdr) :=
  if s.len = 0 then .err "Script is empty"
  else do
    let s0 ← index (s.data m) 0
    if s0 ≠ 0x76 then .err "Not a P2PKH"
    else do
      let s1 ← index (s.data m) 1
      if s1 ≠ 0xa9 then .err "Not a P2PKH"
      else do
        let t ← s.sliceFrom 2
        match DecodePartsH m t with
        | (m, parts, .done) => do
          let p ← index parts 0
          pure (m, p)
        | (_, _, .notEnoughData) => .err "Not enough data"
        | (_, _, .panic) => .panic

/-! ## block -/

/-- block/BuildMerkleRootFromCoinbase.go:11-20: the loop. `branch` and the result of `Sha256d` are fresh; `append(acc, branch...)` may write
into the array of `acc`. `grows` is the runtime's choice for each reallocation. -/
def merkleRootLoopH (H : HashFns) (m : Mem) (acc : Hdr) : List (Bytes × Nat) → Mem × Hdr
  | [] => (m, acc)
  | (br, grow) :: rest =>
    let branch := hexDecodeIgnore br
    let (m, concat) := m.append grow acc branch
    let hash := Sha256d H (concat.data m)
    let (m, acc) := m.fresh hash 0
    merkleRootLoopH H m acc rest

/-- block/BuildMerkleRootFromCoinbase.go:11-21 `BuildMerkleRootFromCoinbase` -/
def BuildMerkleRootFromCoinbaseH (H : HashFns) (m : Mem) (coinbaseHash : Hdr) (merkleBranches : List (Bytes × Nat)) : Mem × Hdr :=
  merkleRootLoopH H m coinbaseHash merkleBranches

/-- Repeated `a = append(a, x...)`, each argument being a slice read when it is appended. -/
def appendAllH (m : Mem) (a : Hdr) : List (Hdr × Nat) → Mem × Hdr
  | [] => (m, a)
  | (x, grow) :: rest =>
    let (m, a) := m.append grow a (x.data m)
    appendAllH m a rest

/-- block/BuildBlockHeader.go:11-26 `BuildBlockHeader`: `v` and `p` are fresh buffers, `a := []byte{}` is an empty slice. -/
def BuildBlockHeaderH (m : Mem) (version : UInt32) (previousBlockHash : Bytes) (merkleRoot time bits nonce : Hdr) (grows : List Nat) : Mem × Hdr :=
  let (m, v) := m.fresh (putUint32 version) 0
  let (m, p) := m.fresh (ReverseBytes (hexDecodeIgnore previousBlockHash)) 0
  let (m, a) := m.fresh [] 0
  appendAllH m a ([v, p, merkleRoot, time, bits, nonce].zip (grows ++ List.replicate 6 0))

/-- block/GetCoinbaseParts.go:50-60 `BuildCoinbase` -/
def BuildCoinbaseH (m : Mem) (c1 c2 : Hdr) (extraNonce1 extraNonce2 : Bytes) (grows : List Nat) : Mem × Hdr :=
  let (m, e1) := m.fresh (hexDecodeIgnore extraNonce1) 0
  let (m, e2) := m.fresh (hexDecodeIgnore extraNonce2) 0
  let (m, a) := m.fresh [] 0
  appendAllH m a ([c1, e1, e2, c2].zip (grows ++ List.replicate 4 0))

/-! ## crypto -/

/-- crypto/Encryption.go:26-39 `Decrypt`: `cfb.XORKeyStream(text, text)` writes the plaintext into the caller's array; the result is fresh. -/
def DecryptH (ciph : BlockCipher) (m : Mem) (ciphertext : Hdr) : Res Bytes × Mem :=
  if ciphertext.len < 16 then (.err "ciphertext too short", m)
  else
    match ciphertext.sliceRange 0 16, ciphertext.sliceFrom 16 with
    | .ok iv, .ok text =>
      if ciph.BlockSize ≠ 16 then (.panic, m)
      else
        let m' := m.copy text (cfbDecrypt ciph.Encrypt text.len (iv.data m) (text.data m))
        (base64Decode (text.data m'), m')
    | _, _ => (.panic, m)

end Verif
