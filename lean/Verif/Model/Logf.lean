import Verif.Model.Log
import Verif.Model.Format

/-!
# `std.debug.logf`

/repo/asteria/src/library/debug.cpp:11-33.
-/

namespace Asteria.Logf
open Asteria.Print (Texts)

/-- An inserter, debug.cpp:19-25: strings are written as they are, other values are printed. -/
def inserted (T : Texts) : Value → Res Bytes
  | .str s => .ok s
  | v => Print.print T v

/-- The loop over the values, debug.cpp:17-26.  Simplified: values are printed before the template is read; in the code they are when a
placeholder names them. -/
def inserters (T : Texts) : List Value → Res (List Bytes)
  | [] => .ok []
  | v :: vs => (inserted T v).bind fun s => (inserters T vs).bind fun r => .ok (s :: r)

/-- `std_debug_logf`, debug.cpp:11-33: the bytes that are passed to `::write()` by `write_log_to_stderr` (utils.cpp:151), and the result, which
depends on what `::write()` returns for them.  `safe_c_str()` throws an exception for null bytes, as in `std.string.format`. -/
def logf (env : Format.Env) (T : Texts) (write : Bytes → Int) (t : Log.Time) (file func : Bytes) (line : Nat) (templ : Bytes) (values : List Value) :
    Res (Bytes × Option Int) :=
  (inserters T values).bind fun insts => (Format.format env templ insts).bind fun msg =>
    let data := Log.message t file func line msg
    let nbytes := write data
    .ok (data, if nbytes < 0 then none else some nbytes)

end Asteria.Logf
