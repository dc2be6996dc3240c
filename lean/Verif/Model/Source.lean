import Verif.Model.Lexer
import Verif.Model.RealText
import Verif.Model.Syntax
import Verif.Spec.RealText

/-!
# From the text of a script to its statements

/repo/asteria/src/simple_script.cpp: the lexer and the parser together.
-/

namespace Asteria.Source

open NumText (NumGet)
open Syntax (Kw Cfg S P)

/-- The conversion of a real literal, /repo/asteria/src/compiler/token_stream.cpp:360-373: its bit pattern, or nothing if
the literal is too large or too small.  `cast_D` always has a result (C111). -/
def realOf (g : NumGet) : Option Nat :=
  match RealText.castD g with
  | .ok r => if r.ovfl || r.udfl then none else some r.bits
  | _ => none

/-- The number with a bit pattern.  There is no such thing in the code: the bits are copied to a `double`,
/repo/asteria/src/rocket/ascii_numget.cpp:1863-1866. -/
def dblOf (bits : Nat) : Dbl :=
  let p := bits % 2 ^ 63
  if p < 2047 * 2 ^ 52 then .fin (if bits / 2 ^ 63 % 2 = 1 then -RealText.value p else RealText.value p)
  else if p = 2047 * 2 ^ 52 then .inf (decide (bits / 2 ^ 63 % 2 = 1)) else .nan

/-- The tokens of the lexer as the parser gets them, /repo/asteria/compiler/token.hpp; the models of the two files have types
of their own. -/
def token : Lexer.Tok Nat → Syntax.Tok
  | .punct p => .p p
  | .kw w =>
    match Kw.all.find? fun k => k.text = w with
    | some k => .k k
    | none => .ident w
  | .ident w => .ident w
  | .str s => .str s
  | .int v => .int v
  | .real r => .real (dblOf r)
  | .nan _ => .real .nan
  | .inf neg => .real (.inf neg)

/-- `Simple_Script::reload` up to the statements, /repo/asteria/src/simple_script.cpp:54-61 (the code generator is in
Verif/Model/Compile.lean).  `n` bounds the recursion of the parser. -/
def reload (c : Cfg) (n : Nat) (src : Bytes) : Res (P (List S)) :=
  (Lexer.reload realOf src).map fun ts => Syntax.reload c n (ts.map token)

/-- `Simple_Script::reload_oneline` up to the statements, simple_script.cpp:75-80. -/
def reloadOneline (c : Cfg) (n : Nat) (src : Bytes) : Res (P (List S)) :=
  (Lexer.reload realOf src).map fun ts => Syntax.reloadOneline c n (ts.map token)

end Asteria.Source
