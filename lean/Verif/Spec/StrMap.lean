import Verif.Model.Basic

/-! # What characters become -/

namespace Asteria.Spec.StrMap

/-- A letter from `a` to `z` becomes the one from `A` to `Z`. -/
def upper (c : UInt8) : UInt8 := if 97 ≤ c ∧ c ≤ 122 then c - 32 else c

/-- A letter from `A` to `Z` becomes the one from `a` to `z`. -/
def lower (c : UInt8) : UInt8 := if 65 ≤ c ∧ c ≤ 90 then c + 32 else c

/-- A character that is in `inputs` becomes the one at the same place in `outputs`, or nothing if there is none; others stay. -/
def image (inputs : Bytes) (outputs : Option Bytes) (a : UInt8) : Bytes :=
  if a ∈ inputs then ((outputs.getD [])[inputs.idxOf a]?).toList else [a]

end Asteria.Spec.StrMap
