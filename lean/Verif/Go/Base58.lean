import Verif.Go.Basic
/-!
# `math/big` byte conversions and `github.com/bitcoinsv/bsvutil/base58`

The base58 package is not in /repo (external dependency, modelled from its published source: big-integer division for
`Encode`, Horner evaluation for `Decode`, leading zero bytes as leading '1's, `Decode` returns the empty slice on an invalid character).
-/
namespace Verif

/-- Little-endian digits of `n` in base `base`, without leading (high) zeros; `fuel` bounds their number. -/
def digitsLE (base : Nat) : Nat → Nat → List Nat
  | 0, _ => []
  | fuel + 1, n => if n = 0 then [] else n % base :: digitsLE base fuel (n / base)

/-- `big.Int.Bytes()` of the absolute value: minimal big-endian bytes, empty for zero. -/
def bigBytes (n : Nat) : Bytes := (digitsLE 256 (n.log2 + 1) n).reverse.map UInt8.ofNat

/-- The base58 alphabet. -/
def alphabet58 : Bytes := b!"123456789ABCDEFGHJKLMNPQRSTUVWXYZabcdefghijkmnopqrstuvwxyz"

/-- `alphabet[d]`. -/
def char58 (d : Nat) : UInt8 := alphabet58.getD d 0

/-- `bytes.IndexByte(alphabet, c)`, `none` for -1. -/
def index58 (c : UInt8) : Option Nat := alphabet58.findIdx? (· == c)

/-- `base58.Encode`. -/
def base58Encode (b : Bytes) : Bytes :=
  let x := beNat b
  (b.takeWhile (· == 0)).map (fun _ => (49 : UInt8)) ++ (digitsLE 58 (x.log2 + 1) x).reverse.map char58

/-- Horner evaluation of base58 digits; `none` on a character outside the alphabet. -/
def value58 : Nat → Bytes → Option Nat
  | acc, [] => some acc
  | acc, c :: cs => match index58 c with
    | some d => value58 (acc * 58 + d) cs
    | none => none

/-- `base58.Decode`: the empty slice on an invalid character. -/
def base58Decode (s : Bytes) : Bytes :=
  match value58 0 s with
  | none => []
  | some v => (s.takeWhile (· == 49)).map (fun _ => (0 : UInt8)) ++ bigBytes v

end Verif
