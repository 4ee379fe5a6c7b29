import Verif.Model.Tx
/-!
# block/*.go (without the floating-point functions, see Model/Float.lean)
-/
namespace Verif

/-! ## GetMerkleBranches.go -/

/-- block/GetMerkleBranches.go:11-19 `getHashes` -/
def getHashes (txHashes : List Bytes) : List Bytes := txHashes.map ReverseHexString

/-- The pairing loop of `walkBranch`, block/GetMerkleBranches.go:39-51. -/
def pairUp (H : HashFns) : List Bytes → List Bytes
  | [] => []
  | [x] =>
    let a := hexDecodeIgnore x
    [hexEncode (Sha256d H (a ++ a))]
  | x :: y :: rest => hexEncode (Sha256d H (hexDecodeIgnore x ++ hexDecodeIgnore y)) :: pairUp H rest

/-- `walkBranch`, block/GetMerkleBranches.go:28-54: the branches appended by this call and the recursive ones. `fuel` bounds the
recursion depth (the list shrinks at every level). -/
def walkBranch (H : HashFns) : Nat → List Bytes → List Bytes
  | 0, _ => []
  | fuel + 1, hashes => match hashes with
    | [] => []
    | [_] => []
    | x :: y :: rest => y :: walkBranch H fuel (pairUp H (x :: y :: rest))

/-- block/GetMerkleBranches.go:22-59 `GetMerkleBranches` -/
def GetMerkleBranches (H : HashFns) (template : List Bytes) : List Bytes :=
  let hashes := getHashes template
  walkBranch H hashes.length hashes

/-- The loop of `MerkleRootFromBranches`, block/GetMerkleBranches.go:71-86: the hash and the index after all branches. `txIndex&1` and
`txIndex >>= 1` on a (possibly negative) two's-complement int are remainder and floor division by 2. -/
def merkleLoop (H : HashFns) : Bytes → Int → List Bytes → Res (Bytes × Int)
  | hash, idx, [] => .ok (hash, idx)
  | hash, idx, b :: bs => do
    let h ← hexDecodeRes b
    let h := ReverseBytes h
    let hash := if idx % 2 > 0 then Sha256d H (h ++ hash) else Sha256d H (hash ++ h)
    merkleLoop H hash (idx / 2) bs

/-- block/GetMerkleBranches.go:63-94 `MerkleRootFromBranches` -/
def MerkleRootFromBranches (H : HashFns) (txHash : Bytes) (txIndex : Int) (branches : List Bytes) : Res Bytes := do
  let hash ← hexDecodeRes txHash
  let hash := ReverseBytes hash
  let (hash, idx) ← merkleLoop H hash txIndex branches
  if idx > 0 then .err "index out of range for proof"
  else pure (hexEncode (ReverseBytes hash))

/-! ## BuildMerkleRootFromCoinbase.go, BuildBlockHeader.go -/

/-- block/BuildMerkleRootFromCoinbase.go:11-21 `BuildMerkleRootFromCoinbase` (result only; for its effect on memory see Model/Heap.lean). -/
def BuildMerkleRootFromCoinbase (H : HashFns) (coinbaseHash : Bytes) (merkleBranches : List Bytes) : Bytes :=
  merkleBranches.foldl (fun acc br => Sha256d H (acc ++ hexDecodeIgnore br)) coinbaseHash

/-- block/BuildBlockHeader.go:11-26 `BuildBlockHeader` -/
def BuildBlockHeader (version : UInt32) (previousBlockHash merkleRoot time bits nonce : Bytes) : Bytes :=
  let p := ReverseBytes (hexDecodeIgnore previousBlockHash)
  putUint32 version ++ p ++ merkleRoot ++ time ++ bits ++ nonce

/-! ## Difficulty.go: compact targets -/

/-- `binary.BigEndian.Uint32(b)`: panics when `len(b) < 4`. -/
def getUint32BE (b : Bytes) : Res UInt32 :=
  if b.length < 4 then .panic else .ok (UInt32.ofNat (beNat (b.take 4)))

/-- block/Difficulty.go:58-82: the target of a compact value. -/
def expandCompact (compact : UInt32) : Int :=
  let mantissa : UInt32 := compact &&& 0x007fffff
  let isNegative : Bool := compact &&& 0x00800000 ≠ 0
  let exponent : Nat := (compact >>> 24).toNat
  let bn : Int :=
    if exponent ≤ 3 then ((mantissa.toNat >>> (8 * (3 - exponent)) : Nat) : Int)
    else ((mantissa.toNat <<< (8 * (exponent - 3)) : Nat) : Int)
  if isNegative then -bn else bn

/-- block/Difficulty.go:53-85 `ExpandTargetFromAsInt` -/
def ExpandTargetFromAsInt (bits : Bytes) : Res Int := do
  let binaryBits ← hexDecodeRes bits
  let compact ← getUint32BE binaryBits
  pure (expandCompact compact)

/-- block/Difficulty.go:39-50 `ExpandTargetFrom`: `dst[32-len(b):]` panics when the target needs more than 32 bytes; the sign is lost. -/
def ExpandTargetFrom (bits : Bytes) : Res Bytes := do
  let bn ← ExpandTargetFromAsInt bits
  let b := bigBytes bn.natAbs
  if b.length > 32 then .panic
  else pure (hexEncode (List.replicate (32 - b.length) 0 ++ b))

/-- block/Difficulty.go:105-110 `toCompactSize`. `big.Int.Exp` with a non-positive exponent and nil modulus is 1. -/
def toCompactSize (bits : UInt32) : Nat :=
  let t := (bits % 0x01000000).toNat
  let e : Int := 8 * (((bits / 0x01000000).toNat : Int) - 3)
  t * (if e ≤ 0 then 1 else 2 ^ e.toNat)

/-! ## GetCoinbaseParts.go -/

/-- block/GetCoinbaseParts.go:50-60 `BuildCoinbase` -/
def BuildCoinbase (c1 c2 extraNonce1 extraNonce2 : Bytes) : Bytes :=
  let e1 := hexDecodeIgnore extraNonce1
  let e2 := hexDecodeIgnore extraNonce2
  c1 ++ e1 ++ e2 ++ c2

/-- block/GetCoinbaseParts.go:77-84 `makeCoinbaseInputTransaction` -/
def makeCoinbaseInputTransaction (coinbaseData : Bytes) : Bytes :=
  List.replicate 32 0 ++ [0xff, 0xff, 0xff, 0xff] ++ VarInt (UInt64.ofNat coinbaseData.length) ++ coinbaseData ++
    [0xff, 0xff, 0xff, 0xff]

/-- block/GetCoinbaseParts.go:86-125 `makeCoinbaseOutputTransactions` -/
def makeCoinbaseOutputTransactions (coinbaseValue : UInt64) (defaultWitnessCommitment wallet minerIDBytes : Bytes) : Res Bytes := do
  let o ← Output.NewP2PKHFromAddress wallet coinbaseValue
  let buf : Bytes := putUint64 coinbaseValue ++ VarInt (UInt64.ofNat o.LockingScript.length) ++ o.LockingScript
  let numberOfTransactions : Nat := 1
  let (buf, numberOfTransactions) ←
    if defaultWitnessCommitment ≠ [] then do
      let wc ← hexDecodeRes defaultWitnessCommitment
      pure (buf ++ List.replicate 8 (0 : UInt8) ++ VarInt (UInt64.ofNat wc.length) ++ wc, numberOfTransactions + 1)
    else pure (buf, numberOfTransactions)
  let (buf, numberOfTransactions) :=
    if minerIDBytes.length > 0 then
      (buf ++ List.replicate 8 (0 : UInt8) ++ VarInt (UInt64.ofNat minerIDBytes.length) ++ minerIDBytes, numberOfTransactions + 1)
    else (buf, numberOfTransactions)
  pure (VarInt (UInt64.ofNat numberOfTransactions) ++ buf)

/-- block/GetCoinbaseParts.go:127-154 `makeCoinbase1` -/
def makeCoinbase1 (height : UInt32) (coinbaseText : Bytes) : Bytes :=
  let spaceForExtraNonce := 12
  let blockHeightBytes := putUint32 height
  let arbitraryData : Bytes := [0x03] ++ blockHeightBytes.take 3 ++ coinbaseText
  let arbitraryData := if arbitraryData.length > 100 - spaceForExtraNonce then arbitraryData.take (100 - spaceForExtraNonce) else arbitraryData
  putUint32 1 ++ [0x01] ++ List.replicate 32 0 ++ [0xff, 0xff, 0xff, 0xff] ++
    VarInt (UInt64.ofNat (arbitraryData.length + spaceForExtraNonce)) ++ arbitraryData

/-- block/GetCoinbaseParts.go:156-164 `makeCoinbase2` -/
def makeCoinbase2 (ot : Bytes) : Bytes := [0xff, 0xff, 0xff, 0xff] ++ ot ++ List.replicate 4 0

/-- block/GetCoinbaseParts.go:64-75 `GetCoinbaseParts`. Simplification: on error only the error is returned (Go also returns `coinbase1`). -/
def GetCoinbaseParts (height : UInt32) (coinbaseValue : UInt64) (defaultWitnessCommitment coinbaseText walletAddress minerIDBytes : Bytes) :
    Res (Bytes × Bytes) := do
  let coinbase1 := makeCoinbase1 height coinbaseText
  let ot ← makeCoinbaseOutputTransactions coinbaseValue defaultWitnessCommitment walletAddress minerIDBytes
  pure (coinbase1, makeCoinbase2 ot)

/-- The loop of `chunk`, block/GetCoinbaseParts.go:170-178. -/
def chunkLoop (msg : Bytes) (limit : Nat) : Nat → Nat → List Bytes
  | 0, _ => []
  | n + 1, i =>
    let s := i * limit
    let e := if (i + 1) * limit > msg.length then msg.length else (i + 1) * limit
    (msg.take e).drop s :: chunkLoop msg limit n (i + 1)

/-- block/GetCoinbaseParts.go:166-180 `chunk` for a non-negative limit (division by zero panics). -/
def chunk (msg : Bytes) (limit : Nat) : Res (List Bytes) :=
  if limit = 0 then .panic else .ok (chunkLoop msg limit (msg.length / limit + 1) 0)

end Verif
