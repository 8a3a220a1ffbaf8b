import Mathlib.Data.Int.Log
import Mathlib.Algebra.Order.Round
import Mathlib.Data.Rat.Floor
import Mathlib.Tactic.Linarith
import Mathlib.Tactic.Ring
import Mathlib.Tactic.NormNum
import Mathlib.Tactic.FieldSimp

/-!
# `double`

IEEE 754 binary64 numbers with the default rounding: to the nearest number, ties to the one whose last bit is zero, with gradual
underflow. Infinities and NaN are left out, so is overflow; where they would matter, models treat them as separate outcomes.
-/

namespace LGD.Ieee

/-- the nearest integer, the even one for ties -/
def nearestEven (x : ℚ) : ℤ :=
  if x - ⌊x⌋ < 1 / 2 then ⌊x⌋ else if 1 / 2 < x - ⌊x⌋ then ⌊x⌋ + 1 else if ⌊x⌋ % 2 = 0 then ⌊x⌋ else ⌊x⌋ + 1

/-- exponent of the last bit of a number of this magnitude -/
def lastBit (x : ℚ) : ℤ := max (Int.log 2 |x| - 52) (-1074)

/-- the result of an operation whose exact result is `x` -/
def rnd (x : ℚ) : ℚ := nearestEven (x / (2 : ℚ) ^ lastBit x) * (2 : ℚ) ^ lastBit x

/-- numbers of type `double` (without a limit for the exponent) -/
def Double (x : ℚ) : Prop := ∃ m e : ℤ, |m| ≤ 2 ^ 53 ∧ -1074 ≤ e ∧ x = m * (2 : ℚ) ^ e

end LGD.Ieee
