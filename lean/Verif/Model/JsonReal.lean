import Verif.Model.Json
import Verif.Model.Source

/-!
# The numbers of JSON texts
-/

namespace Asteria.Json

/-- `cast_D` and the check for overflow, /repo/asteria/src/library/json.cpp:634-636: unlike that of a literal, a number that
is too small is not an error.  `cast_D` always has a result (C111). -/
def castReal (g : NumText.NumGet) : Option Dbl :=
  match RealText.castD g with
  | .ok r => if r.ovfl then none else some (Source.dblOf r.bits)
  | _ => none

end Asteria.Json
