import Verif.Model.Value
import Verif.Model.NumText
import Verif.Model.Lexer

/-!
# Model of `Value::print_to` and `Value::dump`

/repo/asteria/src/value.cpp:13-31, 420-535 and 546-677, and `std.debug.dump`, /repo/asteria/src/library/debug.cpp:36-47.

Both functions have the same form: `switch` on a value, with jumps back to it, and a loop over a stack of arrays and objects that have not
been finished.  The control flow is modelled once (`run`); what is written in each place is a parameter (`Style`).
-/

namespace Asteria.Print

open NumText (putDI writeDigits)

/-- The bytes of a literal. -/
def lit (s : String) : Bytes := s.toUTF8.toList

/-- What is written for reals, opaque values and functions. -/
structure Texts where
  real : Dbl → Bytes
  opq : Nat → Bytes
  func : Nat → Bytes

/-- `Rbr_array` and `Rbr_object`, value.cpp:33-46: `curp` is an index. -/
inductive Elem where
  | arr (l : List Value) (i : Nat)
  | obj (l : List (Bytes × Value)) (i : Nat)

/-- What is written: for values without elements; for arrays before the first element, given the size and `stack.size()`; before the
element `k`, given `stack.size()`; after the last element; and the same for objects. -/
structure Style where
  leaf : Value → Bytes
  arrOpen : Nat → Nat → Bytes
  arrNext : Nat → Nat → Bytes
  arrClose : Nat → Bytes
  objOpen : Nat → Bytes → Nat → Bytes
  objNext : Bytes → Nat → Bytes
  objClose : Nat → Bytes

/-- The control flow, value.cpp:427-532 and 553-674: `some v` is at the label `r`, with `qval`; `none` is in the loop over the stack.
The first argument bounds the number of steps. -/
def run (Y : Style) : Nat → Option Value → List Elem → Bytes → Res Bytes
  | 0, _, _, _ => .ub
  | n + 1, some (.arr l), st, out =>
    match l[0]? with
    | some x => run Y n (some x) (.arr l 0 :: st) (out ++ Y.arrOpen l.length st.length)
    | none => run Y n none st (out ++ Y.leaf (.arr l))
  | n + 1, some (.obj l), st, out =>
    match l[0]? with
    | some x => run Y n (some x.2) (.obj l 0 :: st) (out ++ Y.objOpen l.length x.1 st.length)
    | none => run Y n none st (out ++ Y.leaf (.obj l))
  | n + 1, some v, st, out => run Y n none st (out ++ Y.leaf v)
  | _ + 1, none, [], out => .ok out
  | n + 1, none, .arr l i :: st, out =>
    match l[i + 1]? with
    | some x => run Y n (some x) (.arr l (i + 1) :: st) (out ++ Y.arrNext (i + 1) (st.length + 1))
    | none => run Y n none st (out ++ Y.arrClose (st.length + 1))
  | n + 1, none, .obj l i :: st, out =>
    match l[i + 1]? with
    | some x => run Y n (some x.2) (.obj l (i + 1) :: st) (out ++ Y.objNext x.1 (st.length + 1))
    | none => run Y n none st (out ++ Y.objClose (st.length + 1))

mutual

/-- The number of steps for a value; an artifact of the model. -/
def cost : Value → Nat
  | .arr (x :: xs) => 1 + cost x + costList xs
  | .obj (x :: xs) => 1 + cost x.2 + costFields xs
  | _ => 1

/-- The same for the other elements of an array, and its end. -/
def costList : List Value → Nat
  | [] => 1
  | x :: xs => 1 + cost x + costList xs

/-- The same for the other members of an object, and its end. -/
def costFields : List (Bytes × Value) → Nat
  | [] => 1
  | x :: xs => 1 + cost x.2 + costFields xs

end

/-- What `print_to` writes: value.cpp:429-487 for values, 490-532 in the loop. -/
def printStyle (T : Texts) : Style where
  leaf
    | .null => lit "null"
    | .bool b => if b then lit "true" else lit "false"
    | .int i => putDI i 1
    | .real d => T.real d
    | .str s => lit "\"" ++ Lexer.cQuote s ++ lit "\""
    | .opaque k => lit "(opaque) [[" ++ T.opq k ++ lit "]]"
    | .func k => lit "(function) [[" ++ T.func k ++ lit "]]"
    | .arr _ => lit "[ ]"
    | .obj _ => lit "{ }"
  arrOpen _ _ := lit "[ "
  arrNext _ _ := lit ", "
  arrClose _ := lit " ]"
  objOpen _ k _ := lit "{ \"" ++ Lexer.cQuote k ++ lit "\": "
  objNext k _ := lit ", \"" ++ Lexer.cQuote k ++ lit "\": "
  objClose _ := lit " }"

/-- `Value::print_to`, value.cpp:420-535. -/
def print (T : Texts) (v : Value) : Res Bytes := run (printStyle T) (cost v + 1) (some v) [] []

/-- The loop of `do_break_line`, value.cpp:24-29: `s_spaces` has 32 characters. -/
def spaces (rem : Nat) : Bytes :=
  if h : rem = 0 then [] else List.replicate (min rem 32) 0x20 ++ spaces (rem - min rem 32)
termination_by rem
decreasing_by omega

/-- `do_break_line`, value.cpp:13-30. -/
def breakLine (step next : Nat) : Bytes := if step = 0 then lit " " else lit "\n" ++ spaces next

/-- What `dump` writes: value.cpp:555-630 for values, 633-674 in the loop.  Simplification: widths do not overflow. -/
def dumpStyle (T : Texts) (indent hanging : Nat) : Style where
  leaf
    | .null => lit "null;"
    | .bool b => lit "boolean " ++ (if b then lit "true" else lit "false") ++ lit ";"
    | .int i => lit "integer " ++ putDI i 1 ++ lit ";"
    | .real d => lit "real " ++ T.real d ++ lit ";"
    | .str s => lit "string(" ++ writeDigits 10 s.length 1 ++ lit ") \"" ++ Lexer.cQuote s ++ lit "\";"
    | .opaque k => lit "opaque [[" ++ T.opq k ++ lit "]];"
    | .func k => lit "function [[" ++ T.func k ++ lit "]];"
    | .arr _ => lit "array(0) [ ];"
    | .obj _ => lit "object(0) { };"
  arrOpen n size := lit "array(" ++ writeDigits 10 n 1 ++ lit ") [" ++ breakLine indent (hanging + indent * (size + 1))
    ++ putDI 0 1 ++ lit " = "
  arrNext k size := breakLine indent (hanging + indent * size) ++ putDI k 1 ++ lit " = "
  arrClose size := breakLine indent (hanging + indent * (size - 1)) ++ lit "];"
  objOpen n k size := lit "object(" ++ writeDigits 10 n 1 ++ lit ") {" ++ breakLine indent (hanging + indent * (size + 1))
    ++ lit "\"" ++ Lexer.cQuote k ++ lit "\" = "
  objNext k size := breakLine indent (hanging + indent * size) ++ lit "\"" ++ Lexer.cQuote k ++ lit "\" = "
  objClose size := breakLine indent (hanging + indent * (size - 1)) ++ lit "};"

/-- `Value::dump`, value.cpp:546-677. -/
def dump (T : Texts) (indent hanging : Nat) (v : Value) : Res Bytes := run (dumpStyle T indent hanging) (cost v + 1) (some v) [] []

/-- The text of `std.debug.dump`, debug.cpp:36-44; `hanging` is zero by default (/repo/asteria/value.hpp). -/
def debugDump (T : Texts) (v : Value) (indent : Option Int) : Res Bytes :=
  dump T (max 0 (min (indent.getD 2) 40)).toNat 0 v

end Asteria.Print
