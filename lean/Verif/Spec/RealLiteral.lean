import Verif.Spec.LexExact
import Verif.Spec.RealText

/-!
# The numbers that literals denote
-/

namespace Asteria.Lexer.Spec

open RealText (value Nearly Nearest)

/-- The number that a numeral denotes, without its sign. -/
def Parts.exact (p : Parts) : ℚ :=
  (number p.base p.digits : ℚ) * (p.radix : ℚ) ^ (p.written - p.step * ((p.frac.getD []).length : ℤ))

/-- `bits` is the number `v`, negated perhaps, or very near to it. -/
def Reads (neg : Bool) (v : ℚ) (bits : Nat) : Prop :=
  v = 0 ∧ bits = (if neg then 2 ^ 63 else 0) ∨
    ∃ b, 0 < b ∧ b < 2047 * 2 ^ 52 ∧ bits = (if neg then 2 ^ 63 else 0) + b ∧ Nearly v b

/-- The same, for the nearest number. -/
def ReadsNearest (neg : Bool) (v : ℚ) (bits : Nat) : Prop :=
  v = 0 ∧ bits = (if neg then 2 ^ 63 else 0) ∨
    ∃ b, 0 < b ∧ b < 2047 * 2 ^ 52 ∧ bits = (if neg then 2 ^ 63 else 0) + b ∧ Nearest v b

end Asteria.Lexer.Spec
