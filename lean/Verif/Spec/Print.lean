import Verif.Spec.Backtrace
import Verif.Model.Print

/-!
# Values as text

Decimal numerals are those of Verif.Spec.Backtrace; `cQuote` escapes characters such that the result, in quotes, is a literal of the string
(C63).
-/

namespace Asteria.Print

open Backtrace (numeral integer)
open Lexer (cQuote)

/-- The bytes of a literal. -/
abbrev str (s : String) : Bytes := s.toUTF8.toList

/-- Booleans. -/
def truth (b : Bool) : Bytes := if b then str "true" else str "false"

mutual

/-- A value in one line. -/
def text (T : Texts) : Value → Bytes
  | .null => str "null"
  | .bool b => truth b
  | .int i => integer i
  | .real d => T.real d
  | .str s => str "\"" ++ (cQuote s ++ str "\"")
  | .opaque k => str "(opaque) [[" ++ (T.opq k ++ str "]]")
  | .func k => str "(function) [[" ++ (T.func k ++ str "]]")
  | .arr [] => str "[ ]"
  | .arr (x :: xs) => str "[ " ++ ((str ", ").intercalate (text T x :: texts T xs) ++ str " ]")
  | .obj [] => str "{ }"
  | .obj (x :: xs) =>
    str "{ " ++ ((str ", ").intercalate ((str "\"" ++ (cQuote x.1 ++ (str "\": " ++ text T x.2))) :: members T xs) ++ str " }")

/-- The elements of an array. -/
def texts (T : Texts) : List Value → List Bytes
  | [] => []
  | x :: xs => text T x :: texts T xs

/-- The members of an object. -/
def members (T : Texts) : List (Bytes × Value) → List Bytes
  | [] => []
  | x :: xs => (str "\"" ++ (cQuote x.1 ++ (str "\": " ++ text T x.2))) :: members T xs

end

/-- A new line at the level `d`, or a space if there are no lines. -/
def newLine (indent hanging d : Nat) : Bytes :=
  if indent = 0 then [0x20] else 0x0A :: List.replicate (hanging + indent * d) 0x20

mutual

/-- A value with types and sizes, at the level `d`; each element has its line. -/
def details (T : Texts) (indent hanging : Nat) (d : Nat) : Value → Bytes
  | .null => str "null;"
  | .bool b => str "boolean " ++ (truth b ++ str ";")
  | .int i => str "integer " ++ (integer i ++ str ";")
  | .real x => str "real " ++ (T.real x ++ str ";")
  | .str s => str "string(" ++ (numeral s.length ++ (str ") \"" ++ (cQuote s ++ str "\";")))
  | .opaque k => str "opaque [[" ++ (T.opq k ++ str "]];")
  | .func k => str "function [[" ++ (T.func k ++ str "]];")
  | .arr [] => str "array(0) [ ];"
  | .arr (x :: xs) =>
    str "array(" ++ (numeral (xs.length + 1) ++ (str ") [" ++ (elements T indent hanging (d + 1) 0 (x :: xs)
      ++ (newLine indent hanging d ++ str "];"))))
  | .obj [] => str "object(0) { };"
  | .obj (x :: xs) =>
    str "object(" ++ (numeral (xs.length + 1) ++ (str ") {" ++ (fields T indent hanging (d + 1) (x :: xs)
      ++ (newLine indent hanging d ++ str "};"))))

/-- The elements of an array, from the number `k` on. -/
def elements (T : Texts) (indent hanging : Nat) (d k : Nat) : List Value → Bytes
  | [] => []
  | x :: xs => newLine indent hanging d ++ (numeral k ++ (str " = " ++ (details T indent hanging d x
      ++ elements T indent hanging d (k + 1) xs)))

/-- The members of an object. -/
def fields (T : Texts) (indent hanging : Nat) (d : Nat) : List (Bytes × Value) → Bytes
  | [] => []
  | x :: xs => newLine indent hanging d ++ (str "\"" ++ (cQuote x.1 ++ (str "\" = " ++ (details T indent hanging d x.2
      ++ fields T indent hanging d xs))))

end

mutual

/-- Integers have 64 bits, and so have sizes. -/
def Fits : Value → Prop
  | .int i => -2 ^ 63 ≤ i ∧ i < 2 ^ 63
  | .str s => s.length < 2 ^ 63
  | .arr l => l.length < 2 ^ 63 ∧ FitsList l
  | .obj l => l.length < 2 ^ 63 ∧ FitsFields l
  | _ => True

/-- The same for the elements of an array. -/
def FitsList : List Value → Prop
  | [] => True
  | x :: xs => Fits x ∧ FitsList xs

/-- The same for the members of an object. -/
def FitsFields : List (Bytes × Value) → Prop
  | [] => True
  | x :: xs => Fits x.2 ∧ FitsFields xs

end

/-- Printable characters of ASCII. -/
def Printable (s : Bytes) : Prop := ∀ c ∈ s, 0x20 ≤ c.toNat ∧ c.toNat ≤ 0x7E

end Asteria.Print
