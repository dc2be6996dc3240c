import Verif.Model.Basic

/-! # What is to be found in a text -/

namespace Asteria.Spec.StrFind

/-- The pattern occurs in the text at position `i`. -/
def Occurs (t p : Bytes) (i : Nat) : Prop := ∃ a b, t = a ++ (p ++ b) ∧ a.length = i

/-- The character at position `i` of the text exists and is such that `P`. -/
def CharAt (t : Bytes) (P : UInt8 → Prop) (i : Nat) : Prop := ∃ a c b, t = a ++ c :: b ∧ a.length = i ∧ P c

/-- `r` is the least position from `start` on such that `P`, or the greatest `size_t` if there is none. -/
def First (P : Nat → Prop) (start r : Nat) : Prop :=
  (start ≤ r ∧ P r ∧ ∀ j, start ≤ j → P j → r ≤ j) ∨ (r = 2 ^ 64 - 1 ∧ ∀ j, start ≤ j → ¬ P j)

/-- `r` is the greatest position up to `stop` such that `P`, or the greatest `size_t` if there is none. -/
def Last (P : Nat → Prop) (stop r : Nat) : Prop :=
  (r ≤ stop ∧ P r ∧ ∀ j, j ≤ stop → P j → j ≤ r) ∨ (r = 2 ^ 64 - 1 ∧ ∀ j, j ≤ stop → ¬ P j)

end Asteria.Spec.StrFind
