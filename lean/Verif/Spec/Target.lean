import Verif.Go.Basic
/-!
# Compact difficulty targets ("nBits")

A compact target is four bytes `e, x, y, z`: exponent `e`, sign = top bit of `x`, mantissa = the remaining 23 bits. It denotes the integer
`(-1)^sign * floor(mantissa * 256^(e-3))`.
-/
namespace Verif.Spec

/-- The mantissa: 23 bits. -/
def compactMantissa (x y z : UInt8) : Nat := (x.toNat % 128) * 65536 + y.toNat * 256 + z.toNat

/-- The magnitude `floor(mantissa * 256^(e-3))`, written without a negative exponent. -/
def compactMagnitude (e x y z : UInt8) : Nat := compactMantissa x y z * 256 ^ e.toNat / 256 ^ 3

/-- The denoted integer. -/
def compactTarget (e x y z : UInt8) : Int :=
  if 128 ≤ x.toNat then -(compactMagnitude e x y z : Int) else compactMagnitude e x y z

end Verif.Spec
