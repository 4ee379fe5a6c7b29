import Mathlib.Data.Rat.Floor
import Mathlib.Tactic.Positivity
import Mathlib.Tactic.Linarith
/-!
# binary64 numbers, as a specification

A positive binary64 number in the normal range is `m * 2^e` with a 53-bit significand `2^52 ≤ m < 2^53` (the exponent range is not bounded here).
-/
namespace Verif.Spec

/-- Zero, or `m * 2^e` with a 53-bit significand. -/
def IsDouble (r : Rat) : Prop := r = 0 ∨ ∃ (m : Nat) (e : Int), 2 ^ 52 ≤ m ∧ m < 2 ^ 53 ∧ r = m * 2 ^ e

/-- The significand is even. -/
def EvenDouble (r : Rat) : Prop := r = 0 ∨ ∃ (m : Nat) (e : Int), 2 ^ 52 ≤ m ∧ m < 2 ^ 53 ∧ m % 2 = 0 ∧ r = m * 2 ^ e

/-- IEEE-754 rounding to nearest, ties to even: `r` is a double, no double is nearer to `q`, and if another double is as near, `r` is the one with
the even significand. -/
def RoundsTo (q r : Rat) : Prop :=
  IsDouble r ∧ (∀ r', IsDouble r' → |q - r| ≤ |q - r'|) ∧ (∀ r', IsDouble r' → r' ≠ r → |q - r'| = |q - r| → EvenDouble r)

/-! ## The whole range of binary64 -/

/-- The magnitude of a finite float64: `m * 2^e` with `m < 2^53` and `-1074 ≤ e ≤ 971` (zero, subnormal and normal numbers). -/
def IsFloat (r : Rat) : Prop := ∃ (m : Nat) (e : Int), m < 2 ^ 53 ∧ -1074 ≤ e ∧ e ≤ 971 ∧ r = m * 2 ^ e

/-- The last bit of the significand is zero: `m` is even in the representation with the largest possible `m`. -/
def EvenFloat (r : Rat) : Prop := ∃ (m : Nat) (e : Int), m < 2 ^ 53 ∧ -1074 ≤ e ∧ e ≤ 971 ∧ (2 ^ 52 ≤ m ∨ e = -1074) ∧ m % 2 = 0 ∧ r = m * 2 ^ e

/-- IEEE-754 rounding of a magnitude to a finite float64, to nearest, ties to even. -/
def RoundsToFloat (q r : Rat) : Prop :=
  IsFloat r ∧ (∀ r', IsFloat r' → |q - r| ≤ |q - r'|) ∧ (∀ r', IsFloat r' → r' ≠ r → |q - r'| = |q - r| → EvenFloat r)

end Verif.Spec
