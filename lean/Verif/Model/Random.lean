import Verif.Model.Basic
import Mathlib.Data.Rat.Cast.Order
import Mathlib.Algebra.Order.Field.Power

/-!
# Random real numbers

/repo/asteria/src/library/numeric.cpp.
-/

namespace Asteria.Random

/-- A real number of the language, `V_real`, value.hpp: as its class (`std::fpclassify`) tells.  The signs of zeros and the payload
of NaNs are left out; whether a rational number is representable is stated in the specification. -/
inductive Num where
  | nan
  | inf (negative : Bool)
  | fin (q : ℚ)

/-- The 53 random bits, numeric.cpp:254-256, where `hi` and `lo` are two outputs of the random engine.  The value
is not negative as an `int64_t`, as the leftmost bits are zeroes. -/
def ireg (hi lo : BitVec 32) : Nat := ((hi.setWidth 64 <<< 21) ^^^ lo.setWidth 64).toNat

/-- The ratio, numeric.cpp:257.  Both the conversion and the product are exact, as `ireg` has 53 bits. -/
def ratio (hi lo : BitVec 32) : ℚ := ireg hi lo * (2 : ℚ) ^ (-53 : ℤ)

/-- `std_numeric_random`, numeric.cpp:249-276.  `rnd` is the rounding of a product to a `double`; the outputs of the random engine
are arguments. -/
def random (rnd : ℚ → ℚ) (hi lo : BitVec 32) : Option Num → Res ℚ
  | none => .ok (ratio hi lo)
  | some (.fin q) => if q = 0 then .throw else .ok (rnd (ratio hi lo * q))
  | some _ => .throw

end Asteria.Random
