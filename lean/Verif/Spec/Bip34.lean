import Verif.Go.Basic
/-!
# Specification: how a block's height must start its coinbase script (BIP34)

The rule nodes enforce: the script begins with the script that pushes the height as an integer. Zero and one to sixteen have their own opcodes; any other number is
pushed in the shortest form of script numbers: little-endian bytes, the top bit of the last byte being the sign.
-/
namespace Verif.Spec
open Verif

/-- The value of a script number: little-endian magnitude, the top bit of the last byte is the sign. -/
def scriptNumber (b : Bytes) : Int :=
  if b = [] then 0
  else if leNat b < 128 * 256 ^ (b.length - 1) then leNat b
  else -((leNat b : Int) - 128 * 256 ^ (b.length - 1))

/-- `b` is a shortest script number of value `n`. -/
def ShortestNumber (n : Int) (b : Bytes) : Prop := scriptNumber b = n ∧ ∀ b', scriptNumber b' = n → b.length ≤ b'.length

/-- `p` is the script that pushes the number `n`. -/
def PushesNumber (n : Nat) (p : Bytes) : Prop :=
  (n = 0 ∧ p = [0x00]) ∨ (1 ≤ n ∧ n ≤ 16 ∧ p = [UInt8.ofNat (0x50 + n)]) ∨
  (16 < n ∧ ∃ b, ShortestNumber n b ∧ b.length ≤ 75 ∧ p = UInt8.ofNat b.length :: b)

/-- A node accepts the script as the coinbase script of a block of height `n` (as far as the height is concerned). -/
def HeightOK (n : Nat) (script : Bytes) : Prop := ∃ p, PushesNumber n p ∧ p <+: script

/-- The number a reader finds in a script that begins with a push of three bytes. -/
def heightRead (script : Bytes) : Int := scriptNumber ((script.drop 1).take 3)

end Verif.Spec
