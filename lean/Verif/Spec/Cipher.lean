import Verif.Go.Basic
/-!
# Specification: base64 (RFC 4648, section 4) and CFB mode (NIST SP 800-38A, 6.3, 128-bit segments)
-/
namespace Verif.Spec
open Verif

/-- The base64 alphabet: `A`-`Z`, `a`-`z`, `0`-`9`, `+`, `/`. -/
def letter64 (v : Nat) : UInt8 :=
  UInt8.ofNat (if v < 26 then 65 + v else if v < 52 then 97 + (v - 26) else if v < 62 then 48 + (v - 52) else if v = 62 then 43 else 47)

/-- A 24-bit number as four letters of six bits. -/
def quad64 (v : Nat) : Bytes := [letter64 (v / 2 ^ 18), letter64 (v / 2 ^ 12 % 64), letter64 (v / 2 ^ 6 % 64), letter64 (v % 64)]

/-- `text` is the base64 encoding of the data: three bytes are four letters; one or two bytes at the end are padded with zero bits, and `=` stands for the letters not needed. -/
inductive IsBase64 : Bytes → Bytes → Prop
  | nil : IsBase64 [] []
  | one (a : UInt8) : IsBase64 [a] ((quad64 (a.toNat * 65536)).take 2 ++ [61, 61])
  | two (a b : UInt8) : IsBase64 [a, b] ((quad64 (a.toNat * 65536 + b.toNat * 256)).take 3 ++ [61])
  | three (a b c : UInt8) {data text : Bytes} : IsBase64 data text →
      IsBase64 (a :: b :: c :: data) (quad64 (a.toNat * 65536 + b.toNat * 256 + c.toNat) ++ text)

/-- A text that is read as base64 although its writer need not have used zero bits for padding: letters denote numbers below 64, four of them 24 bits; with one or two `=` at the
end the bits that do not fill a byte are dropped. -/
inductive ReadsBase64 : Bytes → Bytes → Prop
  | nil : ReadsBase64 [] []
  | one (x y : Nat) : x < 64 → y < 64 → ReadsBase64 [letter64 x, letter64 y, 61, 61] [UInt8.ofNat ((x * 64 + y) / 16)]
  | two (x y z : Nat) : x < 64 → y < 64 → z < 64 →
      ReadsBase64 [letter64 x, letter64 y, letter64 z, 61] [UInt8.ofNat ((x * 4096 + y * 64 + z) / 1024), UInt8.ofNat ((x * 4096 + y * 64 + z) / 4)]
  | three (x y z w : Nat) {text data : Bytes} : x < 64 → y < 64 → z < 64 → w < 64 → ReadsBase64 text data →
      ReadsBase64 (letter64 x :: letter64 y :: letter64 z :: letter64 w :: text)
        (UInt8.ofNat ((x * 262144 + y * 4096 + z * 64 + w) / 65536) :: UInt8.ofNat ((x * 262144 + y * 4096 + z * 64 + w) / 256) ::
          UInt8.ofNat (x * 262144 + y * 4096 + z * 64 + w) :: data)

/-- A text without carriage returns and line feeds. -/
def withoutNewlines (s : Bytes) : Bytes := s.filter fun c => c ≠ 10 ∧ c ≠ 13

/-- `c` is the CFB encryption of `p` under the 16-byte-block cipher `E` with this initialisation vector: every byte is the plaintext byte xor a byte of the encryption of the previous
block of ciphertext, the initialisation vector standing before the first. -/
def IsCFB (E : Bytes → Bytes) (iv p c : Bytes) : Prop :=
  c.length = p.length ∧ ∀ j : Nat, j < p.length → c.getD j 0 = p.getD j 0 ^^^ (E (((iv ++ c).drop (16 * (j / 16))).take 16)).getD (j % 16) 0

end Verif.Spec
