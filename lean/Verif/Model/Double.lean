import Verif.Model.Basic
import Mathlib.Algebra.Order.Field.Rat
import Mathlib.Algebra.Order.Field.Power
import Mathlib.Data.Rat.Cast.Order

/-!
# Double-precision numbers (`V_real`)

The host's `double` is IEEE 754 binary64.
-/

namespace Asteria

/-- The finite values of an IEEE 754 binary64 number (`V_real`, /repo/asteria/fwd.hpp): integral
multiples `m` of a power of two, where `m` has 53 bits and the exponent is in the format's range. -/
def IsDouble (q : ℚ) : Prop :=
  ∃ m e : ℤ, |m| < 2 ^ 53 ∧ -1074 ≤ e ∧ e ≤ 971 ∧ q = m * 2 ^ e

/-- A `V_real` (/repo/asteria/fwd.hpp).  Simplified: the two zeroes are identified (they compare equal),
and so are all NaNs. -/
inductive Dbl where
  | nan
  | inf (neg : Bool)
  | fin (q : ℚ)
deriving DecidableEq

/-- Finite values are representable. -/
def Dbl.Valid : Dbl → Prop
  | fin q => IsDouble q
  | _ => True

/-- `std::isless(x, y)` (C++ `<cmath>`), as used in /repo/asteria/src/value.cpp:270, 302, 320. -/
def Dbl.isless : Dbl → Dbl → Bool
  | nan, _ | _, nan => false
  | inf a, inf b => a && !b
  | inf a, fin _ => a
  | fin _, inf b => !b
  | fin p, fin q => p < q

/-- `std::isgreater(x, y)`. -/
def Dbl.isgreater (x y : Dbl) : Bool := y.isless x

/-- `std::isunordered(x, y)`. -/
def Dbl.isunordered : Dbl → Dbl → Bool
  | nan, _ | _, nan => true
  | _, _ => false

/-- `static_cast<V_real>(x)` for an integer `x` while the rounding mode is `FE_DOWNWARD`,
/repo/asteria/src/value.cpp:264-265 and 297-298: the number is cut to 53 bits, towards minus infinity.
(`roundDown_spec` shows that this is IEEE 754's roundTowardNegative.) -/
def roundDown (x : ℤ) : ℤ :=
  let k := Nat.log2 x.natAbs - 52
  x / 2 ^ k * 2 ^ k

end Asteria
