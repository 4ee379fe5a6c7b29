import Verif.Go.Basic
/-!
# Decimal numbers and hash-rate strings

A displayed hash rate is `<whole>.<two digits> <unit>`.
-/
namespace Verif.Spec

/-- Value of a string of decimal digits. -/
def decValue (s : Bytes) : Nat := s.foldl (fun acc c => acc * 10 + (c.toNat - 48)) 0

/-- A decimal digit. -/
def IsDigit (c : UInt8) : Prop := 48 ≤ c.toNat ∧ c.toNat ≤ 57

/-- A decimal numeral without superfluous zeros. -/
def IsNumeral (s : Bytes) : Prop := s ≠ [] ∧ (∀ c ∈ s, IsDigit c) ∧ (s.head? = some 48 → s = [48])

/-- The text before the first dot. -/
def beforeDot (s : Bytes) : Bytes := s.takeWhile (· ≠ 46)
/-- The text after the first dot. -/
def afterDot (s : Bytes) : Bytes := (s.dropWhile (· ≠ 46)).drop 1

/-- A well-formed hash rate string with the given unit. -/
def IsHashRate (unit s : Bytes) : Prop :=
  ∃ whole a b, IsNumeral whole ∧ IsDigit a ∧ IsDigit b ∧ s = whole ++ [46, a, b, 32] ++ unit

/-- The displayed number, in hundredths of the unit. -/
def shownHundredths (s : Bytes) : Nat := decValue (beforeDot s) * 100 + decValue ((afterDot s).take 2)

/-- The displayed unit. -/
def shownUnit (s : Bytes) : Bytes := (afterDot s).drop 3

/-- The units: power of ten and name. -/
def hashUnits : List (Nat × Bytes) :=
  [(0, b!"H/s"), (3, b!"kH/s"), (6, b!"MH/s"), (9, b!"GH/s"), (12, b!"TH/s"), (15, b!"PH/s"), (18, b!"EH/s"), (21, b!"ZH/s")]

end Verif.Spec
