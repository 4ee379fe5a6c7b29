import Verif.Model.Block
import Mathlib.Data.Int.Log
import Mathlib.Data.Rat.Floor
/-!
# Floating-point functions of block/Difficulty.go

In this file float64 values are non-negative rationals with an extra `+Inf`: every value `DifficultyFromBits` and `init` handle is non-negative and
every rounding happens in the normal range of binary64, so rounding is "53 significant bits, ties to even". The functions that take a float64 from
the caller (`HumanHash`, `DifficultyToHashrate`) are in Model/Double.lean, over all of float64.
-/
namespace Verif

/-- Round a rational to the nearest integer, ties to even. -/
def roundEven (q : Rat) : Int :=
  let f := ⌊q⌋
  let d := q - f
  if d < 1 / 2 then f
  else if 1 / 2 < d then f + 1
  else if f % 2 = 0 then f else f + 1

/-- IEEE-754 binary64 rounding of a non-negative rational in the normal range: 53 significant bits, ties to even. -/
def rnd (q : Rat) : Rat :=
  if q ≤ 0 then 0
  else
    let e : Int := Int.log 2 q - 52
    (roundEven (q / 2 ^ e) : Rat) * 2 ^ e

/-- A non-negative float64 without NaN. -/
inductive F64 where
  | fin (q : Rat)
  | inf
deriving DecidableEq

/-- Numbers at or above this bound round to infinity: `2^1024 - 2^970`. -/
def overflowBound : Nat := 2 ^ 1024 - 2 ^ 970

/-- `strconv.ParseFloat(n.String(), 64)` for a natural number: correctly rounded, range error on overflow. -/
def parseFloat (n : Nat) : Res Rat := if n ≥ overflowBound then .err "value out of range" else .ok (rnd n)

/-- IEEE division of a positive by a non-negative finite value: `+Inf` for a zero divisor or on overflow. -/
def fdiv (a b : Rat) : F64 := if b = 0 then .inf else if a / b ≥ overflowBound then .inf else .fin (rnd (a / b))

/-- The constant of block/Difficulty.go:113. -/
def genesisConst : Nat := 0xFFFF0000000000000000000000000000000000000000000000000000

/-- block/Difficulty.go:112-119 `targetToDifficulty` for a non-negative target. -/
def targetToDifficulty (target : Nat) : Res F64 := do
  let a : Rat := rnd genesisConst
  let b ← parseFloat target
  pure (fdiv a b)

/-- block/Difficulty.go:99-103 `DifficultyFromBits`: a hex error is ignored, fewer than four bytes panic. -/
def DifficultyFromBits (bits : Bytes) : Res F64 := do
  let b := hexDecodeIgnore bits
  let ib ← getUint32BE b
  targetToDifficulty (toCompactSize ib)

/-- block/Difficulty.go:17-36 `init`: 2^256 over the expanded target, for a bits string (both divisions are in the normal range). -/
def diffConst (bits : Bytes) : Rat :=
  match ExpandTargetFromAsInt bits with
  | .ok bn => rnd (2 ^ 256 / rnd bn)
  | _ => 0

/-- block/Difficulty.go:26 `genesisDiff` -/
def genesisDiff : Rat := diffConst b!"1d00ffff"
/-- block/Difficulty.go:35 `regDiff` -/
def regDiff : Rat := diffConst b!"207fffff"

/-- Decimal digits of a natural number (`strconv.FormatInt(n, 10)`). -/
def decimal (n : Nat) : Bytes := if n = 0 then [48] else (digitsLE 10 (n.log2 + 1) n).reverse.map fun d => UInt8.ofNat (48 + d)

/-- `fmt.Sprintf("%.2f", q)` for a non-negative finite float64: the exact value rounded to hundredths, ties to even. -/
def fmt2 (q : Rat) : Bytes :=
  let n := (roundEven (q * 100)).toNat
  decimal (n / 100) ++ [46] ++ [UInt8.ofNat (48 + n % 100 / 10), UInt8.ofNat (48 + n % 10)]

end Verif
