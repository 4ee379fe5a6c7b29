import Verif.Model.Crypto
/-!
# Specification: payment requests in text form
-/
namespace Verif.Spec
open Verif

/-- What the checksum of a request covers: prefix, colon, network, version, data in hex. -/
def requestBody (pfx : Bytes) (network version : UInt8) (data : Bytes) : Bytes := pfx ++ b!":" ++ hexEncode [network, version] ++ hexEncode data

/-- The eight characters of the checksum of a body. -/
def requestSum (H : HashFns) (body : Bytes) : Bytes := hexEncode ((H.sha256 (H.sha256 body)).take 4)

/-- The text that asks for a payment to the script `s` on the main network, version 1. -/
def requestText (H : HashFns) (s : Bytes) : Bytes := b!"bitcoin-script:0101" ++ hexEncode s ++ requestSum H (b!"bitcoin-script:0101" ++ hexEncode s)

/-- The first four bytes of the double hashes of the two different texts agree. -/
def SumCollision (H : HashFns) (x y : Bytes) : Prop := x ≠ y ∧ (H.sha256 (H.sha256 x)).take 4 = (H.sha256 (H.sha256 y)).take 4

/-- The characters of a hex numeral, of either case. -/
def IsHexChar (c : UInt8) : Prop := (48 ≤ c ∧ c ≤ 57) ∨ (65 ≤ c ∧ c ≤ 70) ∨ (97 ≤ c ∧ c ≤ 102)

end Verif.Spec
