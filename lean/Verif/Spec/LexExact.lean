import Verif.Spec.Lexical

/-!
# The whole lexical grammar

As in Verif/Spec/Lexical.lean, but complete: with all numeric literals and comments, so that it says of every text whether
it can be divided into tokens, and into which.
-/

namespace Asteria.Lexer.Spec

open Parser (Punct)
open NumText (NumGet)

/-! ### Numerals -/

/-- The parts of a numeral: base, digits, digits after the radix point if there is one, and the exponent if there is one,
with whether it is negative. -/
structure Parts where
  base : Nat
  whole : List Nat
  frac : Option (List Nat)
  expo : Option (Bool × List Nat)

/-- A text of digits. -/
structure DigitText (base : Nat) (t : Bytes) (ds : List Nat) : Prop where
  eq : t.map hexDigit = ds.map some
  lt : ∀ d ∈ ds, d < base

/-- The fraction. -/
inductive FracText (base : Nat) : Bytes → Option (List Nat) → Prop
  | none : FracText base [] none
  | some {t ds} : DigitText base t ds → FracText base (46 :: t) (some ds)

/-- The letter that begins the exponent: `e` or `p`. -/
def isExpo (base : Nat) (c : UInt8) : Prop := if base = 10 then c = 101 ∨ c = 69 else c = 112 ∨ c = 80

/-- The exponent: decimal digits, after a sign perhaps. -/
inductive ExpoText (base : Nat) : Bytes → Option (Bool × List Nat) → Prop
  | none : ExpoText base [] none
  | some {c sgn neg t ds} : isExpo base c → IsSign sgn neg → DigitText 10 t ds → ds ≠ [] →
      ExpoText base (c :: (sgn ++ t)) (some (neg, ds))

/-- A numeral without a sign and without separators. -/
inductive Numeral : Bytes → Parts → Prop
  | mk {base pre w f e whole frac expo} : IsPrefix base pre → DigitText base w whole → FracText base f frac →
      ExpoText base e expo → whole ++ frac.getD [] ≠ [] → Numeral (pre ++ (w ++ (f ++ e))) ⟨base, whole, frac, expo⟩

/-- All digits of the numeral. -/
def Parts.digits (p : Parts) : List Nat := p.whole ++ p.frac.getD []

/-- The base of the exponent. -/
def Parts.radix (p : Parts) : Nat := if p.base = 10 then 10 else 2

/-- How much one digit counts in the exponent. -/
def Parts.step (p : Parts) : Int := if p.base = 16 then 4 else 1

/-- The exponent that is written. -/
def Parts.written (p : Parts) : Int :=
  match p.expo with
  | none => 0
  | some (neg, ds) => if neg then -(number 10 ds : Int) else number 10 ds

/-- `Kept base ds m rest`: the number of the longest sequence of first digits of `ds` that is less than 2^64 is `m`, and the
others are `rest`. -/
structure Kept (base : Nat) (ds : List Nat) (m : Nat) (rest : List Nat) : Prop where
  split : ∃ lead, ds = lead ++ rest ∧ m = number base lead
  lt : m < 2 ^ 64
  longest : ∀ d t, rest = d :: t → 2 ^ 64 ≤ m * base + d

/-- The number that is given to `cast_D`: digits that do not fit into 64 bits do not take part in the conversion, but
whether there is one other than zero is known. -/
structure Meaning (neg : Bool) (p : Parts) (g : NumGet) : Prop where
  kept : ∃ m rest, Kept p.base p.digits m rest ∧ g = ⟨false, neg, p.radix,
    p.step * ((rest.length : Int) - ((p.frac.getD []).length : Int)) + p.written, m, rest.any (· ≠ 0)⟩

/-- The integer `v` is exactly what a numeral without a radix point says: digits that do not fit into 64 bits must be
zeros. -/
structure Denotes (neg : Bool) (p : Parts) (v : Int) : Prop where
  fits : ∃ lead k, p.whole = lead ++ List.replicate k 0 ∧ number p.base lead < 2 ^ 64
  eq : v * (p.radix : Int) ^ (-p.written).toNat =
    (if neg then -(number p.base p.whole : Int) else number p.base p.whole) * (p.radix : Int) ^ p.written.toNat
  range : InRange v

/-! ### Numeric literals in the source -/

/-- `w` is the longest text of such bytes. -/
structure Run (p : UInt8 → Bool) (w rest : Bytes) : Prop where
  all : ∀ c ∈ w, p c = true
  stop : ∀ c t, rest = c :: t → p c = false

/-- A separator between digits. -/
def tick (c : UInt8) : Bool := c = 96

/-- A letter, which `_` is not. -/
def alpha (c : UInt8) : Bool := within 0x41 0x5A c || within 0x61 0x7A c

/-- Digits and separators; after `0x` and also after `0b` these are hexadecimal digits. -/
def digitOr (hex : Bool) (c : UInt8) : Bool := tick c || if hex then (hexDigit c).isSome else digit c

/-- `0b` or `0x`. -/
structure IsBased (pre : Bytes) : Prop where
  prop : pre = [48, 98] ∨ pre = [48, 66] ∨ pre = [48, 120] ∨ pre = [48, 88]

/-- The prefix of a literal. -/
inductive Radix : Bool → Bytes → Bytes → Prop
  | based {pre rest} : IsBased pre → Radix true pre rest
  | plain {rest} : (∀ pre, IsBased pre → ¬ pre <+: rest) → (∃ c t, rest = c :: t ∧ digit c = true) → Radix false [] rest

/-- The radix point and what follows it. -/
inductive Point (hex : Bool) : Bytes → Bytes → Prop
  | none {rest} : ¬ [46] <+: rest → Point hex [] rest
  | some {w rest} : Run (digitOr hex) w rest → Point hex (46 :: w) rest

/-- What looks like an exponent. -/
inductive Tail (hex : Bool) : Bytes → Bytes → Prop
  | none {rest} : (∀ c, isExpo (if hex then 16 else 10) c → ¬ [c] <+: rest) → Tail hex [] rest
  | some {c w rest sgn neg} : isExpo (if hex then 16 else 10) c → IsSign sgn neg →
      (sgn = [] → ¬ [43] <+: w ++ rest ∧ ¬ [45] <+: w ++ rest) → Run (digitOr false) w rest → Tail hex (c :: (sgn ++ w)) rest

/-- A numeric literal extends as far as possible, over letters that do not belong there. -/
inductive Extent : Bytes → Bytes → Prop
  | mk {hex pre w f e x rest} : Radix hex pre (w ++ (f ++ (e ++ (x ++ rest)))) → Run (digitOr hex) w (f ++ (e ++ (x ++ rest))) →
      Point hex f (e ++ (x ++ rest)) → Tail hex e (x ++ rest) → Run (fun c => tick c || digit c || alpha c) x rest →
      Extent (pre ++ (w ++ (f ++ (e ++ x)))) rest

/-- A sign at this place belongs to a literal.  (After `[?]` it does, though it should not.) -/
def Unary {R : Type} (prev : List (Tok R)) (sgn : Bytes) : Prop :=
  sgn = [] ∨ ∀ t, prev.head? = some t → endsExpr t = false ∨ t = .punct .random

/-! ### Tokens -/

/-- `Token castD prev t w rest`: after the tokens `prev`, the last one first, the text `w` is the token `t` if `rest` comes
after it. -/
inductive Token {R : Type} (castD : NumGet → Option R) (prev : List (Tok R)) : Tok R → Bytes → Bytes → Prop
  | punct {p rest} : Longest p (bytes (text p) ++ rest) → (p = .div → ¬ [0x2F] <+: rest ∧ ¬ [0x2A] <+: rest) →
      (p = .add ∨ p = .sub → NumStart rest → ∃ t, prev.head? = some t ∧ endsExpr t = true ∧ t ≠ .punct .random) →
      Token castD prev (.punct p) (bytes (text p)) rest
  | kw {w rest} : w ∈ keywords.map bytes → WordEnd rest → Token castD prev (.kw w) w rest
  | ident {w rest} : Name w → w ∉ keywords.map bytes →
      w ∉ [bytes "nan", bytes "NaN", bytes "infinity", bytes "Infinity"] → WordEnd rest → Token castD prev (.ident w) w rest
  | quoted {q v rest} : Quoted q v → Token castD prev (.str v) (0x22 :: (q ++ [0x22])) rest
  | raw {q rest} : (∀ c ∈ q, c ≠ 0 ∧ c ≠ 0x27) → Token castD prev (.str q) (0x27 :: (q ++ [0x27])) rest
  | nan {sgn neg w rest} : IsSign sgn neg → Unary prev sgn → w = bytes "nan" ∨ w = bytes "NaN" → WordEnd rest →
      Token castD prev (.nan neg) (sgn ++ w) rest
  | inf {sgn neg w rest} : IsSign sgn neg → Unary prev sgn → w = bytes "infinity" ∨ w = bytes "Infinity" → WordEnd rest →
      Token castD prev (.inf neg) (sgn ++ w) rest
  | int {sgn neg u p v rest} : IsSign sgn neg → Unary prev sgn → Extent u rest → Numeral (u.filter fun c => !tick c) p →
      p.frac = none → Denotes neg p v → Token castD prev (.int v) (sgn ++ u) rest
  | real {sgn neg u p g r rest} : IsSign sgn neg → Unary prev sgn → Extent u rest → Numeral (u.filter fun c => !tick c) p →
      p.frac ≠ none → Meaning neg p g → castD g = some r → Token castD prev (.real r) (sgn ++ u) rest

/-- `Splits castD c toks s c' toks'`: if the tokens before are `toks`, the last one first, the line or the rest of a line
`s` adds tokens to give `toks'`; `c` and `c'` say whether a block comment is open before and after it.  Only the first
asterisk of a line in a comment may end the comment. -/
inductive Splits {R : Type} (castD : NumGet → Option R) : Bool → List (Tok R) → Bytes → Bool → List (Tok R) → Prop
  | nil {c toks} : Splits castD c toks [] c toks
  | blank {c toks s c' toks'} : blank c = true → Splits castD false toks s c' toks' → Splits castD false toks (c :: s) c' toks'
  | token {toks t w s c' toks'} : Token castD toks t w s → Splits castD false (t :: toks) s c' toks' →
      Splits castD false toks (w ++ s) c' toks'
  | lineComment {toks s} : Splits castD false toks (bytes "//" ++ s) false toks
  | openComment {toks s c' toks'} : Splits castD true toks s c' toks' → Splits castD false toks (bytes "/*" ++ s) c' toks'
  | inside {toks s} : (∀ x y, s = x ++ 0x2A :: y → (∀ c ∈ x, c ≠ 0x2A) → ¬ [0x2F] <+: y) → Splits castD true toks s true toks
  | close {toks x s c' toks'} : (∀ c ∈ x, c ≠ 0x2A) → Splits castD false toks s c' toks' →
      Splits castD true toks (x ++ (bytes "*/" ++ s)) c' toks'

/-! ### Files -/

/-- A line with no null character, which is not the mark of a conflict. -/
structure Fine (l : Bytes) : Prop where
  nul : 0 ∉ l
  mark : ∀ m ∈ ["<<<<<<<", ">>>>>>>", "=======", "|||||||"], ¬ bytes m <+: l

/-- The same for lines, without their line feeds. -/
inductive SplitsAll {R : Type} (castD : NumGet → Option R) : Bool → List (Tok R) → List Bytes → Bool → List (Tok R) → Prop
  | nil {c toks} : SplitsAll castD c toks [] c toks
  | cons {c toks l ls c' toks' c'' toks''} : Fine l → Splits castD c toks l c' toks' →
      SplitsAll castD c' toks' ls c'' toks'' → SplitsAll castD c toks (l :: ls) c'' toks''

/-- The lines of a text; the last one need not have a line feed. -/
structure Lines (src : Bytes) (ls : List Bytes) : Prop where
  feed : ∀ l ∈ ls, 10 ∉ l
  eq : src = ls.flatMap (· ++ [10]) ∨ ∃ ini last, ls = ini ++ [last] ∧ last ≠ [] ∧ src = ini.flatMap (· ++ [10]) ++ last

/-- The first line without the byte order mark. -/
inductive Head : Bytes → Bytes → Prop
  | bom {l} : Head ([0xEF, 0xBB, 0xBF] ++ l) l
  | none {l} : ¬ [0xEF, 0xBB, 0xBF] <+: l → Head l l

/-- `Source castD src toks`: the text is divided into these tokens. -/
inductive Source {R : Type} (castD : NumGet → Option R) (src : Bytes) : List (Tok R) → Prop
  | empty : Lines src [] → Source castD src []
  | shebang {l b ls toks} : Lines src (l :: ls) → Head l b → bytes "#!" <+: b → SplitsAll castD false [] ls false toks →
      Source castD src toks.reverse
  | plain {l b ls toks} : Lines src (l :: ls) → Head l b → ¬ bytes "#!" <+: b → SplitsAll castD false [] (b :: ls) false toks →
      Source castD src toks.reverse

/-- The conversion of real numbers does not depend on the size of very large exponents. -/
def Saturates {R : Type} (castD : NumGet → Option R) : Prop := ∀ (g : NumGet) (e : Int),
  2 ^ 61 ≤ g.exp ∧ 2 ^ 61 ≤ e ∨ g.exp ≤ -2 ^ 61 ∧ e ≤ -2 ^ 61 → castD { g with exp := e } = castD g

end Asteria.Lexer.Spec
