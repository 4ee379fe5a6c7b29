import Verif.Model.Crypto
import Verif.Go.Base58
/-!
# script/address/Address.go, script/address/AddressValidation.go, script/address/BIP276.go
-/
namespace Verif

/-- script/address/Address.go:15-18 `Address` -/
structure Address where
  AddressString : Bytes
  PublicKeyHash : Bytes
deriving DecidableEq, Repr

/-- script/address/Address.go:34-56 `addressToPubKeyHashStr` -/
def addressToPubKeyHashStr (address : Bytes) : Res Bytes :=
  let decoded := base58Decode address
  if decoded.length ≠ 25 then .err "invalid address length"
  else
    let v := decoded.getD 0 0
    if v = 0x00 then .ok (hexEncode ((decoded.take (decoded.length - 4)).drop 1))
    else if v = 0x6f then .ok (hexEncode ((decoded.take (decoded.length - 4)).drop 1))
    else .err "Address is not supported"

/-- script/address/Address.go:22-32 `NewFromString` -/
def Address.NewFromString (addr : Bytes) : Res Address := do
  let pkh ← addressToPubKeyHashStr addr
  pure { AddressString := addr, PublicKeyHash := pkh }

/-- script/address/Address.go:126-130 `checksum` -/
def checksum (H : HashFns) (input : Bytes) : Bytes := (Sha256d H input).take 4

/-- script/address/Address.go:118-124 `Base58EncodeMissingChecksum` -/
def Base58EncodeMissingChecksum (H : HashFns) (input : Bytes) : Bytes :=
  let cksum := checksum H input
  base58Encode (input ++ cksum)

/-- script/address/Address.go:72-90 `NewFromPublicKeyHash` (never returns an error). -/
def Address.NewFromPublicKeyHash (H : HashFns) (hash : Bytes) (mainnet : Bool) : Address :=
  let bb : UInt8 := if mainnet = false then 111 else 0
  { AddressString := Base58EncodeMissingChecksum H (bb :: hash), PublicKeyHash := hexEncode hash }

/-- script/address/Address.go:61-67 `NewFromPublicKeyString` -/
def Address.NewFromPublicKeyString (H : HashFns) (pubKey : Bytes) (mainnet : Bool) : Res Address := do
  let pubKeyBytes ← hexDecodeRes pubKey
  pure (Address.NewFromPublicKeyHash H (Hash160 H pubKeyBytes) mainnet)

/-- script/address/Address.go:95-114 `NewFromPublicKey`; the argument is the compressed serialisation of the bsvec key. -/
def Address.NewFromPublicKey (H : HashFns) (serializedCompressed : Bytes) (mainnet : Bool) : Address :=
  let hash := Hash160 H serializedCompressed
  let bb : UInt8 := if mainnet = false then 111 else 0
  { AddressString := Base58EncodeMissingChecksum H (bb :: hash), PublicKeyHash := hexEncode hash }

/-! ## AddressValidation.go -/

/-- The inner loop of `set58` (script/address/AddressValidation.go:40-44): `for j := 24; j >= 0; j--` over the 25-byte array.
The argument is the array *reversed* (position 24 first), the carry is the Go `int` `c` (at most 58*255+255, no overflow). -/
def set58Inner : Nat → List UInt8 → List UInt8 × Nat
  | c, [] => ([], c)
  | c, aj :: rest =>
    let c' := c + 58 * aj.toNat
    let r := set58Inner (c' / 256) rest
    (UInt8.ofNat (c' % 256) :: r.1, r.2)

/-- The outer loop of `set58` (script/address/AddressValidation.go:34-50), on the reversed array. -/
def set58Loop : List UInt8 → Bytes → Res (List UInt8)
  | ra, [] => .ok ra
  | ra, s1 :: s => match index58 s1 with
    | none => .err "bad char"
    | some c =>
      let r := set58Inner c ra
      if r.2 > 0 then .err "too long" else set58Loop r.1 s

/-- script/address/AddressValidation.go:34-50 `set58` on the zero array; `tmpl` (line 28) is the same 58-character alphabet. -/
def set58 (s : Bytes) : Res Bytes := do
  let ra ← set58Loop (List.replicate 25 0) s
  pure ra.reverse

/-- script/address/AddressValidation.go:14-17 `embeddedChecksum` -/
def embeddedChecksum (a : Bytes) : Bytes := a.drop 21

/-- script/address/AddressValidation.go:21-24 `computeChecksum` -/
def computeChecksum (H : HashFns) (a : Bytes) : Bytes := (Sha256d H (a.take 21)).take 4

/-- script/address/AddressValidation.go:67-83 `validA58` -/
def validA58 (H : HashFns) (a58 : Bytes) : Res Bool := do
  let a ← set58 a58
  if a.getD 0 0 ≠ 0 ∧ a.getD 0 0 ≠ 0x6f then .err "not version 0 or 6f"
  else if embeddedChecksum a ≠ computeChecksum H a then .err "checksum failed"
  else pure true

/-! ## BIP276.go -/

/-- `fmt` verb `%.2x` of an `int`: at least two lower-case hex digits, `-` sign for negative numbers. -/
def fmt2x (n : Int) : Bytes :=
  let digits := (digitsLE 16 (n.natAbs.log2 + 1) n.natAbs).reverse.map (fun d => hexChar (UInt8.ofNat d))
  let padded := List.replicate (2 - digits.length) 48 ++ digits
  if n < 0 then 45 :: padded else padded

/-- script/address/BIP276.go:46-51 `createBIP276`: payload and checksum. -/
def createBIP276 (H : HashFns) (pfx : Bytes) (network version : Int) (data : Bytes) : Bytes × Bytes :=
  let payload := pfx ++ [58] ++ fmt2x network ++ fmt2x version ++ hexEncode data
  let checksum := hexEncode ((Sha256d H payload).take 4)
  (payload, checksum)

/-- script/address/BIP276.go:36-44 `EncodeBIP276` -/
def EncodeBIP276 (H : HashFns) (pfx : Bytes) (network version : Int) (data : Bytes) : Bytes :=
  if version = 0 ∨ version > 255 ∨ network = 0 ∨ network > 255 then b!"ERROR"
  else
    let pc := createBIP276 H pfx network version data
    pc.1 ++ pc.2

/-- `\d` -/
def isDigit (c : UInt8) : Bool := 48 ≤ c && c ≤ 57
/-- `[0-9A-Fa-f]` -/
def isHexDigit (c : UInt8) : Bool := (48 ≤ c && c ≤ 57) || (65 ≤ c && c ≤ 70) || (97 ≤ c && c ≤ 102)

/-- `(\d{2})(\d{2})([0-9A-Fa-f]+)([0-9A-Fa-f]{8})$` matched at the start of the rest of the text. The class of group 4 and 5
are the same, so greedy matching gives group 5 the last eight characters. -/
def matchTail276 (r : Bytes) : Option (Bytes × Bytes × Bytes × Bytes) :=
  let body := r.drop 4
  if (r.take 4).all isDigit ∧ r.length ≥ 13 ∧ body.all isHexDigit then
    some (r.take 2, (r.drop 2).take 2, body.take (body.length - 8), body.drop (body.length - 8))
  else none

/-- `^(.+?):` followed by the tail: the shortest non-empty prefix without newline that is followed by `:` and a matching tail.
`pre` is the (reversed) prefix read so far. -/
def matchBIP276 : Bytes → Bytes → Option (Bytes × Bytes × Bytes × Bytes × Bytes)
  | _, [] => none
  | pre, c :: cs =>
    if c = 58 ∧ pre ≠ [] then
      match matchTail276 cs with
      | some m => some (pre.reverse, m)
      | none => matchBIP276 (c :: pre) cs
    else if c = 10 then none
    else matchBIP276 (c :: pre) cs

/-- `strconv.Atoi` on a string of decimal digits. -/
def atoi (s : Bytes) : Nat := s.foldl (fun acc c => acc * 10 + (c.toNat - 48)) 0

/-- Results of `DecodeBIP276`. -/
structure BIP276 where
  pfx : Bytes
  version : Int
  network : Int
  data : Bytes
deriving DecidableEq, Repr

/-- script/address/BIP276.go:55-81 `DecodeBIP276`. When the regular expression does not match, `res` is nil and `res[1]` panics.
`strconv.Atoi` cannot fail on two digits. Note that the text's first number is called version and the second network,
the opposite of `createBIP276`. Simplification: on error only the error is returned. -/
def DecodeBIP276 (H : HashFns) (text : Bytes) : Res BIP276 :=
  match matchBIP276 [] text with
  | none => .panic
  | some (pfx, r2, r3, r4, r5) => do
    let version : Int := atoi r2
    let network : Int := atoi r3
    let data ← hexDecodeRes r4
    let cs := (createBIP276 H pfx network version data).2
    if r5 ≠ cs then .err "Invalid checksum"
    else pure { pfx := pfx, version := version, network := network, data := data }

/-- script/address/AddressValidation.go:54-65 `ValidateAddress` -/
def ValidateAddress (H : HashFns) (address : Bytes) : Res Bool :=
  if (b!"bitcoin-script:").isPrefixOf address then
    match DecodeBIP276 H address with
    | .ok _ => .ok true
    | .err _ => .err "bitcoin-script invalid"
    | .panic => .panic
  else validA58 H address

end Verif
