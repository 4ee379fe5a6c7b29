import Verif.Go.Basic
/-!
# Specification: base58 numerals and Bitcoin addresses
-/
namespace Verif.Spec
open Verif

/-- The 58 characters in order of their digit value. -/
def alphabet : Bytes := b!"123456789ABCDEFGHJKLMNPQRSTUVWXYZabcdefghijkmnopqrstuvwxyz"

/-- `s` is a base58 numeral (most significant digit first) of value `v`. -/
def IsNumeral58 (s : Bytes) (v : Nat) : Prop :=
  ∃ ds : List Nat, (∀ d ∈ ds, d < 58) ∧ s = ds.map (fun d => alphabet.getD d 0) ∧ v = ds.foldl (fun acc d => acc * 58 + d) 0

/-- The 25 bytes of an address: version, 20-byte hash, 4-byte checksum (first bytes of the double hash of version and hash). -/
def AddressBytes (sha256 : Bytes → Bytes) (version : UInt8) (hash a : Bytes) : Prop :=
  (version = 0x00 ∨ version = 0x6f) ∧ hash.length = 20 ∧ a = version :: hash ++ (sha256 (sha256 (version :: hash))).take 4

/-- The canonical text of a byte string: one '1' per leading zero byte, then the numeral of the value without leading '1's. -/
def IsBase58Text (s b : Bytes) : Prop :=
  ∃ (k : Nat) (t c : Bytes), b = List.replicate k 0 ++ c ∧ c.head? ≠ some 0 ∧ s = List.replicate k 49 ++ t ∧ t.head? ≠ some 49 ∧
    IsNumeral58 t (beNat c)

end Verif.Spec
