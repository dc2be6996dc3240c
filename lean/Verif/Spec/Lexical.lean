import Verif.Model.Lexer

/-!
# The lexical grammar, apart from the lexer

The punctuators and keywords of the language and what names, string literals and digits look like.
-/

namespace Asteria.Lexer.Spec

open Parser (Punct)

/-- The bytes of a text. -/
def bytes (s : String) : Bytes := s.toUTF8.toList

/-- The punctuators. -/
def text : Punct → String
  | .notl => "!"
  | .cmpNe => "!="
  | .hash => "#"
  | .mod => "%"
  | .modEq => "%="
  | .andb => "&"
  | .andl => "&&"
  | .andlEq => "&&="
  | .andbEq => "&="
  | .parOp => "("
  | .parCl => ")"
  | .mul => "*"
  | .mulEq => "*="
  | .add => "+"
  | .inc => "++"
  | .addEq => "+="
  | .comma => ","
  | .sub => "-"
  | .dec => "--"
  | .subEq => "-="
  | .arrow => "->"
  | .dot => "."
  | .ellipsis => "..."
  | .div => "/"
  | .divEq => "/="
  | .colon => ":"
  | .scope => "::"
  | .semicol => ";"
  | .cmpLt => "<"
  | .cmpUn => "</>"
  | .sla => "<<"
  | .sll => "<<<"
  | .sllEq => "<<<="
  | .slaEq => "<<="
  | .cmpLte => "<="
  | .cmp3way => "<=>"
  | .assign => "="
  | .cmpEq => "=="
  | .cmpGt => ">"
  | .cmpGte => ">="
  | .sra => ">>"
  | .sraEq => ">>="
  | .srl => ">>>"
  | .srlEq => ">>>="
  | .quest => "?"
  | .questEq => "?="
  | .coales => "??"
  | .coalesEq => "??="
  | .brackOp => "["
  | .tail => "[$]"
  | .random => "[?]"
  | .head => "[^]"
  | .brackCl => "]"
  | .xorb => "^"
  | .xorbEq => "^="
  | .braceOp => "{"
  | .orb => "|"
  | .orbEq => "|="
  | .orl => "||"
  | .orlEq => "||="
  | .braceCl => "}"
  | .notb => "~"

/-- The keywords. -/
def keywords : List String :=
  ["__abs", "__addm", "__adds", "__ceil", "__floor", "__fma", "__iceil", "__ifcomplete", "__ifloor",
   "__iround", "__isinf", "__isnan", "__isvoid", "__itrunc", "__lzcnt", "__mulm", "__muls", "__popcnt",
   "__round", "__sign", "__sqrt", "__subm", "__subs", "__trunc", "__tzcnt", "__vcall", "and", "assert",
   "break", "case", "catch", "const", "continue", "countof", "default", "defer", "do", "each", "else",
   "extern", "false", "for", "func", "if", "import", "not", "null", "or", "ref", "return", "switch", "this",
   "throw", "true", "try", "typeof", "unset", "var", "while"]

/-- `c` is between `lo` and `hi`. -/
def within (lo hi : Nat) (c : UInt8) : Bool := lo ≤ c.toNat && c.toNat ≤ hi

/-- `0` to `9`. -/
def digit (c : UInt8) : Bool := within 0x30 0x39 c

/-- A letter or `_`. -/
def letter (c : UInt8) : Bool := within 0x41 0x5A c || within 0x61 0x7A c || c = 0x5F

/-- Spaces other than the line feed. -/
def blank (c : UInt8) : Bool := c = 0x20 || c = 0x09 || within 0x0B 0x0D c

/-- Names: a letter, then letters and digits. -/
structure Name (w : Bytes) : Prop where
  shape : ∃ c t, w = c :: t ∧ letter c = true ∧ ∀ x ∈ t, letter x = true ∨ digit x = true

/-- Names, as a test. -/
def isName : Bytes → Bool
  | [] => false
  | c :: t => letter c && t.all fun x => letter x || digit x

/-- The longest text of letters and digits at the start. -/
def word (s : Bytes) : Bytes := s.takeWhile fun c => letter c || digit c

/-- A numeric literal without a sign starts here: a digit, or the word `nan`, `NaN`, `infinity` or `Infinity`. -/
def NumStart (s : Bytes) : Prop :=
  (∃ c t, s = c :: t ∧ digit c = true) ∨ word s ∈ [bytes "nan", bytes "NaN", bytes "infinity", bytes "Infinity"]

/-- The value of a hexadecimal digit. -/
def hexDigit (c : UInt8) : Option Nat :=
  if within 0x30 0x39 c then some (c.toNat - 0x30)
  else if within 0x41 0x46 c then some (c.toNat - 0x41 + 10)
  else if within 0x61 0x66 c then some (c.toNat - 0x61 + 10)
  else none

/-- The number that some hexadecimal digits denote, given the number before them. -/
def hexNumber : Nat → Bytes → Option Nat
  | n, [] => some n
  | n, c :: s => (hexDigit c).bind fun d => hexNumber (16 * n + d) s

/-- The escape sequences of one character after the backslash, and what they stand for. -/
def simpleEscapes : List (UInt8 × UInt8) :=
  [(0x27, 0x27), (0x22, 0x22), (0x5C, 0x5C), (0x3F, 0x3F), (0x2F, 0x2F), (0x61, 0x07), (0x62, 0x08), (0x66, 0x0C),
   (0x6E, 0x0A), (0x72, 0x0D), (0x74, 0x09), (0x76, 0x0B), (0x30, 0x00), (0x5A, 0x1A), (0x65, 0x1B)]

/-- The insides of a literal in double quotation marks, and the string it stands for. -/
inductive Quoted : Bytes → Bytes → Prop
  | nil : Quoted [] []
  | plain {c s v} : c ≠ 0 → c ≠ 0x22 → c ≠ 0x5C → Quoted s v → Quoted (c :: s) (c :: v)
  | simple {e c s v} : (e, c) ∈ simpleEscapes → Quoted s v → Quoted (0x5C :: e :: s) (c :: v)
  | byte {h n s v} : h.length = 2 → hexNumber 0 h = some n → Quoted s v →
      Quoted (0x5C :: 0x78 :: (h ++ s)) (UInt8.ofNat n :: v)
  | unicode {x h n b s v} : (x = 0x75 ∧ h.length = 4 ∨ x = 0x55 ∧ h.length = 6) → hexNumber 0 h = some n →
      Utf.utf8Encode n = some b → Quoted s v → Quoted (0x5C :: x :: (h ++ s)) (b ++ v)

/-- The prefix of an integer literal in some base. -/
structure IsPrefix (base : Nat) (pre : Bytes) : Prop where
  prop : base = 10 ∧ pre = [] ∨ base = 2 ∧ (pre = [48, 98] ∨ pre = [48, 66]) ∨ base = 16 ∧ (pre = [48, 120] ∨ pre = [48, 88])

/-- The sign of an integer literal. -/
structure IsSign (sgn : Bytes) (neg : Bool) : Prop where
  prop : sgn = [] ∧ neg = false ∨ sgn = [43] ∧ neg = false ∨ sgn = [45] ∧ neg = true

/-- The digits of a literal with separators between them. -/
structure IsDigits (base : Nat) (u : Bytes) (ds : List Nat) : Prop where
  eq : (u.filter (· ≠ 96)).map hexDigit = ds.map some
  lt : ∀ d ∈ ds, d < base
  ne : ds ≠ []
  /-- A decimal literal starts with a digit. -/
  first : base = 10 → u.headD 0 ≠ 96

/-- The literal is over where the rest starts. -/
structure NumEnd (rest : Bytes) : Prop where
  prop : ∀ c t, rest = c :: t → letter c = false ∧ digit c = false ∧ c ≠ 46 ∧ c ≠ 96

/-- The number that some digits denote. -/
def number (base : Nat) (ds : List Nat) : Nat := ds.foldl (fun m d => m * base + d) 0

/-- The integers of the language. -/
def InRange (v : Int) : Prop := -0x8000000000000000 ≤ v ∧ v ≤ 0x7FFFFFFFFFFFFFFF

instance (v : Int) : Decidable (InRange v) := inferInstanceAs (Decidable (_ ∧ _))

/-- Tokens that may end an expression, so that a sign after one is an operator. -/
def endsExpr {R : Type} : Tok R → Bool
  | .punct p => p ∈ [.parCl, .brackCl, .braceCl, .inc, .dec, .head, .tail, .random]
  | .kw w => w ∈ [bytes "null", bytes "true", bytes "false", bytes "this"]
  | _ => true

/-- A sign at this place starts a numeric literal. -/
def MaySign {R : Type} (prev : List (Tok R)) : Prop := ∀ t, prev.head? = some t → endsExpr t = false

/-- A literal may have its sign here. -/
def SignOk {R : Type} (prev : List (Tok R)) (sgn : Bytes) : Prop := sgn = [] ∨ MaySign prev

/-- No punctuator with more bytes is at the start of the text. -/
def Longest (p : Punct) (s : Bytes) : Prop := ∀ q, bytes (text q) <+: s → (bytes (text q)).length ≤ (bytes (text p)).length

/-- The rest of the text starts neither with a letter nor with a digit. -/
def WordEnd (rest : Bytes) : Prop := ∀ c t, rest = c :: t → letter c = false ∧ digit c = false

/-- `Lexeme prev t w rest`: after the tokens `prev`, the last one first, the text `w` is the token `t` if `rest` comes
after it. -/
inductive Lexeme {R : Type} (prev : List (Tok R)) : Tok R → Bytes → Bytes → Prop
  | punct {p rest} : Longest p (bytes (text p) ++ rest) → (p = .div → ¬ [0x2F] <+: rest ∧ ¬ [0x2A] <+: rest) →
      (p = .add ∨ p = .sub → NumStart rest → ∃ t, prev.head? = some t ∧ endsExpr t = true ∧ t ≠ .punct .random) →
      Lexeme prev (.punct p) (bytes (text p)) rest
  | kw {w rest} : w ∈ keywords.map bytes → WordEnd rest → Lexeme prev (.kw w) w rest
  | ident {w rest} : Name w → w ∉ keywords.map bytes →
      w ∉ [bytes "nan", bytes "NaN", bytes "infinity", bytes "Infinity"] → WordEnd rest → Lexeme prev (.ident w) w rest
  | quoted {q v rest} : Quoted q v → Lexeme prev (.str v) (0x22 :: (q ++ [0x22])) rest
  | raw {q rest} : (∀ c ∈ q, c ≠ 0 ∧ c ≠ 0x27) → Lexeme prev (.str q) (0x27 :: (q ++ [0x27])) rest
  | nan {sgn neg w rest} : IsSign sgn neg → SignOk prev sgn → w = bytes "nan" ∨ w = bytes "NaN" → WordEnd rest →
      Lexeme prev (.nan neg) (sgn ++ w) rest
  | inf {sgn neg w rest} : IsSign sgn neg → SignOk prev sgn → w = bytes "infinity" ∨ w = bytes "Infinity" → WordEnd rest →
      Lexeme prev (.inf neg) (sgn ++ w) rest
  | int {sgn neg base pre u ds v rest} : IsSign sgn neg → SignOk prev sgn → IsPrefix base pre → IsDigits base u ds →
      v = (if neg then -(number base ds : Int) else number base ds) → InRange v → NumEnd rest →
      Lexeme prev (.int v) (sgn ++ (pre ++ u)) rest

/-- `Spells c toks s c' toks'`: if the tokens before are `toks`, the last one first, the line or the rest of a line `s`
adds tokens to give `toks'`; `c` and `c'` say whether a block comment is open before and after it.  Block comments
have no asterisk other than the one at the end. -/
inductive Spells {R : Type} : Bool → List (Tok R) → Bytes → Bool → List (Tok R) → Prop
  | nil {c toks} : Spells c toks [] c toks
  | blank {c toks s c' toks'} : blank c = true → Spells false toks s c' toks' → Spells false toks (c :: s) c' toks'
  | token {toks t w s c' toks'} : Lexeme toks t w s → Spells false (t :: toks) s c' toks' →
      Spells false toks (w ++ s) c' toks'
  | lineComment {toks s} : Spells false toks (bytes "//" ++ s) false toks
  | openComment {toks s c' toks'} : Spells true toks s c' toks' → Spells false toks (bytes "/*" ++ s) c' toks'
  | inside {toks s} : (∀ c ∈ s, c ≠ 0x2A) → Spells true toks s true toks
  | close {toks x s c' toks'} : (∀ c ∈ x, c ≠ 0x2A) → Spells false toks s c' toks' →
      Spells true toks (x ++ (bytes "*/" ++ s)) c' toks'

/-- The same for lines, without their line feeds. -/
inductive SpellsAll {R : Type} : Bool → List (Tok R) → List Bytes → Bool → List (Tok R) → Prop
  | nil {c toks} : SpellsAll c toks [] c toks
  | cons {c toks l ls c' toks' c'' toks''} : Spells c toks l c' toks' → SpellsAll c' toks' ls c'' toks'' →
      SpellsAll c toks (l :: ls) c'' toks''

end Asteria.Lexer.Spec
