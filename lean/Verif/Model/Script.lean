import Verif.Model.PushData
import Verif.Model.Address
import Verif.Model.Utils
/-!
# script/Script.go, script/UnlockingScript.go, script/RedeemScript.go
-/
namespace Verif
open Op

/-- script/Script.go:14 `Script` -/
abbrev Script := Bytes

/-- script/Script.go:17-23 `NewFromHexString` -/
def Script.NewFromHexString (s : Bytes) : Res Script := do
  let b ← hexDecodeRes s
  pure b

/-- script/Script.go:176-178 `AppendOpCode` -/
def AppendOpCode (s : Script) (o : UInt8) : Script := s ++ [o]

/-- script/Script.go:129-137 `AppendPushData`; on error the receiver is unchanged. -/
def AppendPushData (s : Script) (d : Bytes) : Res Script := do
  let p ← EncodeParts [d]
  pure (s ++ p)

/-- script/Script.go:140-147 `AppendPushDataHexString` -/
def AppendPushDataHexString (s : Script) (str : Bytes) : Res Script := do
  let h ← hexDecodeRes str
  AppendPushData s h

/-- script/Script.go:150-152 `AppendPushDataString` (a Go string converts to its bytes). -/
def AppendPushDataString (s : Script) (str : Bytes) : Res Script := AppendPushData s str

/-- script/Script.go:155-163 `AppendPushDataArray` -/
def AppendPushDataArray (s : Script) (d : List Bytes) : Res Script := do
  let p ← EncodeParts d
  pure (s ++ p)

/-- script/Script.go:166-174 `AppendPushDataStrings` -/
def AppendPushDataStrings (s : Script) (strs : List Bytes) : Res Script := AppendPushDataArray s (strs.map id)

/-- The loop of `NewFromASM`, script/Script.go:37-46. -/
def asmLoop : Script → List Bytes → Res Script
  | s, [] => .ok s
  | s, sec :: secs =>
    match opCodeStrings.lookup sec with
    | some val => asmLoop (AppendOpCode s val) secs
    | none => match AppendPushDataHexString s sec with
      | .ok s' => asmLoop s' secs
      | _ => .err "invalid opcode data"

/-- script/Script.go:32-49 `NewFromASM` -/
def NewFromASM (str : Bytes) : Res Script := asmLoop [] (splitOn 32 str)

/-- The opcode name printed by `ToASM`: the zero value "" for a missing map key. -/
def opName (b : UInt8) : Bytes := (opCodeValues.lookup b).getD []

/-- One part as printed by `ToASM`, script/Script.go:195-199. -/
def asmPart (p : Bytes) : Bytes :=
  if p.length = 1 then opName (p.getD 0 0) else hexEncode p

/-- script/Script.go:187-203 `ToASM` -/
def ToASM (s : Script) : Res Bytes := do
  let parts ← DecodeParts s
  let asmScript := parts.foldl (fun acc p => acc ++ [32] ++ asmPart p) []
  pure (trimSpace asmScript)

/-- script/Script.go:64-78 `NewP2PKHFromPubKeyBytes` -/
def NewP2PKHFromPubKeyBytes (H : HashFns) (pubKeyBytes : Bytes) : Script :=
  let hash := Hash160 H pubKeyBytes
  [OpDUP, OpHASH160, 0x14] ++ hash ++ [OpEQUALVERIFY] ++ [OpCHECKSIG]

/-- script/Script.go:53-60 `NewP2PKHFromPubKeyStr` -/
def NewP2PKHFromPubKeyStr (H : HashFns) (pubKey : Bytes) : Res Script := do
  let pubKeyBytes ← hexDecodeRes pubKey
  pure (NewP2PKHFromPubKeyBytes H pubKeyBytes)

/-- script/Script.go:82-99 `NewP2PKHFromPubKeyHashStr` -/
def NewP2PKHFromPubKeyHashStr (pubKeyHash : Bytes) : Res Script := do
  let hash ← hexDecodeRes pubKeyHash
  pure ([OpDUP, OpHASH160, 0x14] ++ hash ++ [OpEQUALVERIFY] ++ [OpCHECKSIG])

/-- script/Script.go:103-126 `NewP2PKHFromAddress` -/
def NewP2PKHFromAddress (addr : Bytes) : Res Script := do
  let a ← Address.NewFromString addr
  let publicKeyHashBytes ← hexDecodeRes a.PublicKeyHash
  let s : Script := []
  let s := AppendOpCode s OpDUP
  let s := AppendOpCode s OpHASH160
  let s ← AppendPushData s publicKeyHashBytes
  let s := AppendOpCode s OpEQUALVERIFY
  pure (AppendOpCode s OpCHECKSIG)

/-- script/Script.go:206-214 `IsP2PKH` -/
def IsP2PKH (b : Script) : Bool :=
  b.length == 25 && b.getD 0 0 == OpDUP && b.getD 1 0 == OpHASH160 && b.getD 2 0 == 0x14 &&
    b.getD 23 0 == OpEQUALVERIFY && b.getD 24 0 == OpCHECKSIG

/-- script/Script.go:217-237 `IsP2PK`. `parts[1][0]` panics when the second part is empty. -/
def IsP2PK (s : Script) : Res Bool :=
  match DecodeParts s with
  | .panic => .panic
  | .err _ => .ok false
  | .ok parts =>
    if parts.length = 2 ∧ (parts.getD 0 []).length > 0 then do
      let c ← index (parts.getD 1 []) 0
      if c = OpCHECKSIG then
        let pubkey := parts.getD 0 []
        let version := pubkey.getD 0 0
        if (version = 0x04 ∨ version = 0x06 ∨ version = 0x07) ∧ pubkey.length = 65 then pure true
        else if (version = 0x03 ∨ version = 0x02) ∧ pubkey.length = 33 then pure true
        else pure false
      else pure false
    else .ok false

/-- script/Script.go:240-247 `IsP2SH` -/
def IsP2SH (b : Script) : Bool :=
  b.length == 23 && b.getD 0 0 == OpHASH160 && b.getD 1 0 == 0x14 && b.getD 22 0 == OpEQUAL

/-- script/Script.go:251-256 `IsData`: `b[0]` and `b[1]` are unguarded. -/
def IsData (b : Script) : Res Bool := do
  let b0 ← index b 0
  if b0 = 0x6a then pure true
  else if b0 = 0x00 then do
    let b1 ← index b 1
    pure (b1 == 0x6a)
  else pure false

/-- script/Script.go:283-285 `isSmallIntOp` -/
def isSmallIntOp (opcode : UInt8) : Bool := opcode == OpZERO || (opcode ≥ OpONE && opcode ≤ Op16)

/-- script/Script.go:259-281 `IsMultisigOut`: `parts[0][0]`, `parts[len-2][0]`, `parts[len-1][0]` panic on empty parts. -/
def IsMultisigOut (s : Script) : Res Bool :=
  match DecodeParts s with
  | .panic => .panic
  | .err _ => .ok false
  | .ok parts =>
    if parts.length < 3 then .ok false
    else do
      let p0 ← index (parts.getD 0 []) 0
      if isSmallIntOp p0 = false then pure false
      else if ((parts.take (parts.length - 2)).drop 1).any (fun p => p.length < 1) then pure false
      else do
        let n ← index (parts.getD (parts.length - 2) []) 0
        if isSmallIntOp n then do
          let c ← index (parts.getD (parts.length - 1) []) 0
          pure (c == OpCHECKMULTISIG)
        else pure false

/-- script/Script.go:288-303 `GetPublicKeyHash`; `none` is the nil receiver. -/
def GetPublicKeyHash (s : Option Script) : Res Bytes :=
  match s with
  | none => .err "Script is empty"
  | some s =>
    if s.length = 0 then .err "Script is empty"
    else do
      let s0 ← index s 0
      if s0 ≠ 0x76 then .err "Not a P2PKH"
      else do
        let s1 ← index s 1
        if s1 ≠ 0xa9 then .err "Not a P2PKH"
        else do
          let parts ← DecodeParts (s.drop 2)
          index parts 0

/-- script/UnlockingScript.go:7-19 `NewP2PKHUnlockingScript`: the script and the error of `AppendPushDataArray`
(a non-nil empty script is returned together with the error). -/
def NewP2PKHUnlockingScript (pubKey sig : Bytes) (sigHashFlag : UInt8) : Script × Option String :=
  let sigBuf := sig ++ [sigHashFlag]
  match AppendPushDataArray [] [sigBuf, pubKey] with
  | .ok s => (s, none)
  | .err e => ([], some e)
  | .panic => ([], none)

/-! ## RedeemScript.go -/

/-- script/RedeemScript.go:16-20 `RedeemScript` -/
structure RedeemScript where
  SignaturesRequired : Int
  PublicKeys : List Bytes
  Signatures : List Bytes
deriving DecidableEq, Repr

/-- script/RedeemScript.go:23-37 `NewRedeemScript` -/
def NewRedeemScript (signaturesRequired : Int) : Res RedeemScript :=
  if signaturesRequired < 2 then .err "Must have 2 or more required signatures for multisig"
  else if signaturesRequired > 16 then .err "More than 16 signatures is not supported"
  else .ok { SignaturesRequired := signaturesRequired, PublicKeys := [], Signatures := [] }

/-- The external package `bsvutil/hdkeychain` (BIP32), as used by RedeemScript.go: arbitrary functions. -/
structure HDKeychain where
  Key : Type
  newKeyFromString : Bytes → Res Key
  child : Key → UInt32 → Res Key
  /-- `ECPubKey` followed by `SerializeCompressed` -/
  ecPubKey : Key → Res Bytes

/-- The derivation of one public key: `NewKeyFromString`, two `Child` steps, `ECPubKey` (script/RedeemScript.go:90-107 and 126-144). -/
def HDKeychain.derive (hd : HDKeychain) (xpub : Bytes) (i j : UInt32) : Res Bytes := do
  let k ← hd.newKeyFromString xpub
  let k ← hd.child k i
  let k ← hd.child k j
  hd.ecPubKey k

/-- script/RedeemScript.go:120-149 `AddPublicKey`; on error the receiver is unchanged. -/
def AddPublicKey (hd : HDKeychain) (rs : RedeemScript) (pkey : Bytes) (derivationPath : List UInt32) : Res RedeemScript :=
  if derivationPath.length ≠ 2 then .err "We only support derivation paths with exactly 2 levels"
  else do
    let pk ← hd.derive pkey (derivationPath.getD 0 0) (derivationPath.getD 1 0)
    pure { rs with PublicKeys := rs.PublicKeys ++ [pk] }

/-- The key loop of `GetRedeemScript`, script/RedeemScript.go:169-172. -/
def redeemKeys : List Bytes → Bytes
  | [] => []
  | pk :: pks => UInt8.ofNat pk.length :: (pk ++ redeemKeys pks)

/-- `byte(n)` of a Go `int`. -/
def byteOfInt (n : Int) : UInt8 := UInt8.ofNat (n % 256).toNat

/-- script/RedeemScript.go:164-179 `GetRedeemScript`: the script and the receiver, whose keys are now sorted. -/
def GetRedeemScript (rs : RedeemScript) : Bytes × RedeemScript :=
  let rs' := { rs with PublicKeys := SortByteArrays rs.PublicKeys }
  ([OpBASE + byteOfInt rs.SignaturesRequired] ++ redeemKeys rs'.PublicKeys ++
    [OpBASE + byteOfInt (rs'.PublicKeys.length : Int)] ++ [OpCHECKMULTISIG], rs')

/-- script/RedeemScript.go:182-184 `GetRedeemScriptHash` -/
def GetRedeemScriptHash (H : HashFns) (rs : RedeemScript) : Bytes := Hash160 H (GetRedeemScript rs).1

/-- script/RedeemScript.go:152-157 `GetAddress`; `base58.CheckEncode(hash, 5)` is base58 of version, hash and the 4-byte
double-SHA256 checksum. -/
def RedeemScript.GetAddress (H : HashFns) (rs : RedeemScript) : Bytes :=
  let hash := Hash160 H (GetRedeemScript rs).1
  Base58EncodeMissingChecksum H (0x05 :: hash)

/-- script/RedeemScript.go:186-197 `getScriptPubKey` -/
def getScriptPubKey (H : HashFns) (rs : RedeemScript) : Bytes :=
  let h := GetRedeemScriptHash H rs
  [OpHASH160] ++ [UInt8.ofNat h.length] ++ h ++ [OpEQUAL]

/-- The 16-bit little-endian derivation path loop, script/RedeemScript.go:78-83: `derivationPath[0:2]` and `derivationPath[2:]`;
an odd trailing byte panics (at the latest in `derivationPath[2:]`). -/
def derivationPath16 : Bytes → Res (List UInt16)
  | [] => .ok []
  | [_] => .panic
  | a :: b :: rest => do
    let ns ← derivationPath16 rest
    pure (UInt16.ofNat (leNat [a, b]) :: ns)

/-- One iteration of the key loop of `NewRedeemScriptFromElectrum`, script/RedeemScript.go:69-110. `pubkey[0:78]` is checked
against the capacity but `pubkey[78:]` against the length, so a short key panics either way. -/
def electrumKey (H : HashFns) (hd : HDKeychain) (pubkey : Bytes) : Res Bytes := do
  let p0 ← index pubkey 0
  if p0 ≠ 0xff then .err "All Electrum pubkeys should start with 0xff"
  else
    let pubkey := pubkey.drop 1
    if pubkey.length < 78 then .panic
    else do
      let xpub := Base58EncodeMissingChecksum H (pubkey.take 78)
      let s ← derivationPath16 (pubkey.drop 78)
      if s.length ≠ 2 then .err "Derivation path should have exactly 2 items"
      else hd.derive xpub (s.getD 0 0).toUInt32 (s.getD 1 0).toUInt32

/-- The key loop itself. -/
def electrumKeys (H : HashFns) (hd : HDKeychain) : List Bytes → Res (List Bytes)
  | [] => .ok []
  | p :: ps => do
    let k ← electrumKey H hd p
    let ks ← electrumKeys H hd ps
    pure (k :: ks)

/-- script/RedeemScript.go:40-117 `NewRedeemScriptFromElectrum` -/
def NewRedeemScriptFromElectrum (H : HashFns) (hd : HDKeychain) (script : Bytes) : Res RedeemScript := do
  let parts ← DecodeStringParts script
  if parts.length = 0 then .err "There should be 5 parts in this redeemScript"
  else do
    let p0 ← index (parts.getD 0 []) 0
    let signaturesRequired := (p0 - OpBASE).toNat
    if signaturesRequired < 2 then .err "Must have 2 or more required signatures for multisig"
    else if signaturesRequired > 15 then .err "More than 15 signatures is not supported"
    else if parts.length < 2 then .panic
    else do
      let pn ← index (parts.getD (parts.length - 2) []) 0
      let signatureCount := (pn - OpBASE).toNat
      let pl ← index (parts.getD (parts.length - 1) []) 0
      if pl ≠ OpCHECKMULTISIG then .err "Script must end with OP_CHECKMULTISIG"
      else if parts.length < 3 then .panic
      else do
        let keys ← electrumKeys H hd ((parts.take (parts.length - 2)).drop 1)
        if keys.length ≠ signatureCount then .err "Number of public keys must equal the required"
        else pure { SignaturesRequired := signaturesRequired, PublicKeys := keys, Signatures := [] }

end Verif
