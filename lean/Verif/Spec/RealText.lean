import Mathlib.Algebra.Order.Field.Rat
import Mathlib.Algebra.Order.Field.Power
import Mathlib.Data.Rat.Cast.Order

/-!
# The values of double-precision numbers

IEEE 754 binary64, of bit patterns without a sign.
-/

namespace Asteria.RealText

/-- The significand of a finite number: there is a hidden bit unless the number is subnormal. -/
def sig (b : Nat) : Nat := if b < 2 ^ 52 then b else 2 ^ 52 + b % 2 ^ 52

/-- The exponent of the unit in the last place. -/
def ulpExp (b : Nat) : Int := max ((b / 2 ^ 52 : Nat) : Int) 1 - 1075

/-- The value of a finite number. -/
def value (b : Nat) : ℚ := sig b * (2 : ℚ) ^ ulpExp b

/-- The number `v` is nearer to `b` than to its neighbours, or almost so: it is not farther away than 0.51 times the distance to the
neighbour on that side. -/
structure Nearly (v : ℚ) (b : Nat) : Prop where
  lower : value b - 51 / 100 * (value b - value (b - 1)) ≤ v
  upper : v ≤ value b + 51 / 100 * (value (b + 1) - value b)

/-- No number is nearer to `v`, and if there are two as near as that, `b` is the even one. -/
structure Nearest (v : ℚ) (b : Nat) : Prop where
  lower : value b - (value b - value (b - 1)) / 2 ≤ v
  upper : v ≤ value b + (value (b + 1) - value b) / 2
  tie : b % 2 = 1 → v ≠ value b - (value b - value (b - 1)) / 2 ∧ v ≠ value b + (value (b + 1) - value b) / 2

/-- The largest finite number, `DBL_MAX`. -/
def maximum : ℚ := (2 ^ 53 - 1) * (2 : ℚ) ^ (971 : ℤ)

/-- The least positive number, `DBL_TRUE_MIN`. -/
def minimum : ℚ := (2 : ℚ) ^ (-1074 : ℤ)

end Asteria.RealText
