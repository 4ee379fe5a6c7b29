import Verif.Model.Float
/-!
# float64 in full: block/Difficulty.go `DifficultyToHashrate`, utils/HumanHash.go

Signed zeros, subnormal numbers, infinities and NaN (all NaNs are one value: no code here can tell them apart).
-/
namespace Verif

/-- A float64. A finite number is a sign and a magnitude; `fin true 0` is negative zero. -/
inductive Double where
  | nan
  | inf (neg : Bool)
  | fin (neg : Bool) (mag : Rat)
deriving DecidableEq

/-- Rounding of a non-negative rational to 53 significant bits, but never finer than `2^-1074` (subnormal numbers), ties to even. -/
def rnd64 (q : Rat) : Rat :=
  if q ≤ 0 then 0
  else
    let e : Int := max (Int.log 2 q - 52) (-1074)
    (roundEven (q / 2 ^ e) : Rat) * 2 ^ e

/-- The float64 nearest to a number given by sign and magnitude: infinite from `2^1024 - 2^970` on. -/
def Double.round (neg : Bool) (q : Rat) : Double := if q ≥ overflowBound then .inf neg else .fin neg (rnd64 q)

/-- float64 multiplication (IEEE 754, as required by the Go specification). -/
def Double.mul : Double → Double → Double
  | .nan, _ => .nan
  | _, .nan => .nan
  | .inf s, .inf t => .inf (s != t)
  | .inf s, .fin t b => if b = 0 then .nan else .inf (s != t)
  | .fin s a, .inf t => if a = 0 then .nan else .inf (s != t)
  | .fin s a, .fin t b => .round (s != t) (a * b)

/-- float64 division (IEEE 754, as required by the Go specification; a zero divisor does not panic). -/
def Double.div : Double → Double → Double
  | .nan, _ => .nan
  | _, .nan => .nan
  | .inf _, .inf _ => .nan
  | .inf s, .fin t _ => .inf (s != t)
  | .fin s _, .inf t => .fin (s != t) 0
  | .fin s a, .fin t b => if b = 0 then (if a = 0 then .nan else .inf (s != t)) else .round (s != t) (a / b)

/-- `v >= c` for a positive constant `c`: false for NaN. -/
def Double.ge (v : Double) (c : Rat) : Bool :=
  match v with
  | .nan => false
  | .inf neg => !neg
  | .fin neg q => !neg && decide (c ≤ q)

/-- `float64(n)` for a uint64. -/
def Double.ofUInt64 (n : UInt64) : Double := .round false n.toNat

/-- block/Difficulty.go:89-96 `DifficultyToHashrate`: `coin[0]` panics on the empty string; the product is rounded, then the quotient. -/
def DifficultyToHashrate (coin : Bytes) (diff : UInt64) (targetSeconds : Double) : Res Double := do
  let c ← index coin 0
  let genesis : Double := if c = 82 then .fin false regDiff else .fin false genesisDiff
  pure (((Double.ofUInt64 diff).mul genesis).div targetSeconds)

/-- `fmt.Sprintf("%.2f", v)`: infinities are always printed with a sign, NaN without, negative zero as `-0.00`. -/
def fmtDouble2 : Double → Bytes
  | .nan => b!"NaN"
  | .inf false => b!"+Inf"
  | .inf true => b!"-Inf"
  | .fin neg q => (if neg then [45] else []) ++ fmt2 q

/-- utils/HumanHash.go:7-31: the scaled value and the unit. The constants 1e+3 .. 1e+21 are float64 numbers. -/
def humanScale (val : Double) : Double × Bytes :=
  if val.ge (10 ^ 21) then (val.div (.fin false (10 ^ 21)), b!"ZH/s")
  else if val.ge (10 ^ 18) then (val.div (.fin false (10 ^ 18)), b!"EH/s")
  else if val.ge (10 ^ 15) then (val.div (.fin false (10 ^ 15)), b!"PH/s")
  else if val.ge (10 ^ 12) then (val.div (.fin false (10 ^ 12)), b!"TH/s")
  else if val.ge (10 ^ 9) then (val.div (.fin false (10 ^ 9)), b!"GH/s")
  else if val.ge (10 ^ 6) then (val.div (.fin false (10 ^ 6)), b!"MH/s")
  else if val.ge (10 ^ 3) then (val.div (.fin false (10 ^ 3)), b!"kH/s")
  else (val, b!"H/s")

/-- utils/HumanHash.go:6-33 `HumanHash` -/
def HumanHash (val : Double) : Bytes := fmtDouble2 (humanScale val).1 ++ [32] ++ (humanScale val).2

end Verif
