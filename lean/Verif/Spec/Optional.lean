import Verif.Model.Optional

/-!
# What `optional` should do: a value or none
-/

namespace Asteria.Optional

open StaticVector

/-- The storage of an `optional` that has the value `x`, or none: there is one cell, and it has an object exactly if there is
a value. -/
def Is (o : Opt α) : Option α → Prop
  | none => o = ⟨0, [none]⟩
  | some x => o = ⟨1, [some x]⟩

/-- Comparison of optional values. -/
def same (e : α → α → Bool) : Option α → Option α → Bool
  | none, none => true
  | some x, some y => e x y
  | _, _ => false

end Asteria.Optional
