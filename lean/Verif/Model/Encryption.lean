import Verif.Go.Hex
/-!
# crypto/Encryption.go, with `encoding/base64` (StdEncoding) and `crypto/cipher` CFB mode
-/
namespace Verif

/-! ## encoding/base64 -/

/-- The standard base64 alphabet. -/
def alphabet64 : Bytes := b!"ABCDEFGHIJKLMNOPQRSTUVWXYZabcdefghijklmnopqrstuvwxyz0123456789+/"

/-- `encodeStd[n]` -/
def char64 (n : UInt8) : UInt8 := alphabet64.getD n.toNat 0

/-- Position of a character in the alphabet. -/
def index64 (c : UInt8) : Option UInt8 := (alphabet64.findIdx? (· == c)).map UInt8.ofNat

/-- `base64.StdEncoding.EncodeToString` -/
def base64Encode : Bytes → Bytes
  | [] => []
  | [a] => [char64 (a >>> 2), char64 ((a &&& 3) <<< 4), 61, 61]
  | [a, b] => [char64 (a >>> 2), char64 (((a &&& 3) <<< 4) ||| (b >>> 4)), char64 ((b &&& 15) <<< 2), 61]
  | a :: b :: c :: rest =>
    char64 (a >>> 2) :: char64 (((a &&& 3) <<< 4) ||| (b >>> 4)) :: char64 (((b &&& 15) <<< 2) ||| (c >>> 6)) ::
      char64 (c &&& 63) :: base64Encode rest

/-- Decoding of a newline-free text, in groups of four characters; padding only in the last group; not strict (left-over bits ignored). -/
def base64Groups : Bytes → Res Bytes
  | [] => .ok []
  | a :: b :: c :: d :: rest =>
    match index64 a, index64 b with
    | some x, some y =>
      if c = 61 then
        if d = 61 ∧ rest = [] then .ok [(x <<< 2) ||| (y >>> 4)] else .err "illegal base64 data"
      else match index64 c with
        | none => .err "illegal base64 data"
        | some z =>
          if d = 61 then
            if rest = [] then .ok [(x <<< 2) ||| (y >>> 4), (y <<< 4) ||| (z >>> 2)] else .err "illegal base64 data"
          else match index64 d with
            | none => .err "illegal base64 data"
            | some w => do
              let r ← base64Groups rest
              pure (((x <<< 2) ||| (y >>> 4)) :: ((y <<< 4) ||| (z >>> 2)) :: ((z <<< 6) ||| w) :: r)
    | _, _ => .err "illegal base64 data"
  | _ => .err "illegal base64 data"

/-- `base64.StdEncoding.DecodeString`: CR and LF are skipped. -/
def base64Decode (s : Bytes) : Res Bytes := base64Groups (s.filter fun c => c ≠ 10 ∧ c ≠ 13)

/-! ## cipher.Block and CFB -/

/-- A `cipher.Block`: block size and forward direction (CFB never uses the inverse). -/
structure BlockCipher where
  BlockSize : Nat
  Encrypt : Bytes → Bytes
  Encrypt_length : ∀ b, (Encrypt b).length = BlockSize

/-- `XORKeyStream` of a fresh CFB encrypter with block size 16. `fuel` bounds the number of blocks. -/
def cfbEncrypt (E : Bytes → Bytes) : Nat → Bytes → Bytes → Bytes
  | 0, _, _ => []
  | fuel + 1, next, src =>
    if src = [] then []
    else
      let dst := List.zipWith (· ^^^ ·) (src.take 16) (E next)
      dst ++ cfbEncrypt E fuel dst (src.drop 16)

/-- `XORKeyStream` of a fresh CFB decrypter with block size 16. -/
def cfbDecrypt (E : Bytes → Bytes) : Nat → Bytes → Bytes → Bytes
  | 0, _, _ => []
  | fuel + 1, next, src =>
    if src = [] then []
    else
      let dst := List.zipWith (· ^^^ ·) (src.take 16) (E next)
      dst ++ cfbDecrypt E fuel (src.take 16) (src.drop 16)

/-- crypto/Encryption.go:13-23 `Encrypt`. `random` is what `io.ReadFull(rand.Reader, iv)` delivers: 16 bytes, or `none` for a read error.
`cipher.NewCFBEncrypter` panics when the IV length is not the block size. -/
def Encrypt (ciph : BlockCipher) (random : Option Bytes) (text : Bytes) : Res Bytes :=
  let b := base64Encode text
  match random with
  | none => .err "rand"
  | some iv =>
    if ciph.BlockSize ≠ 16 then .panic
    else .ok (iv ++ cfbEncrypt ciph.Encrypt b.length iv b)

/-- crypto/Encryption.go:26-39 `Decrypt`: the result, and the contents of the caller's `ciphertext` slice after the call
(`XORKeyStream(text, text)` overwrites it). -/
def Decrypt (ciph : BlockCipher) (ciphertext : Bytes) : Res Bytes × Bytes :=
  if ciphertext.length < 16 then (.err "ciphertext too short", ciphertext)
  else
    let iv := ciphertext.take 16
    if ciph.BlockSize ≠ 16 then (.panic, ciphertext)
    else
      let text := ciphertext.drop 16
      let text := cfbDecrypt ciph.Encrypt text.length iv text
      (base64Decode text, iv ++ text)

end Verif
