import Verif.Spec.Json
import Verif.Spec.RealLiteral

/-!
# What a configuration file is

/repo/doc/standard-library.md:448-457 and /repo/doc/sample.conf: JSON5-like, where commas, semicolons, colons and equals signs
are optional, without top-level braces and without escapes in single quotation marks.  This does not refer to the model of
system.cpp.

The code does something else in some cases, so there are three levels: what a configuration file is meant to be, the files
among these that the code reads as meant, and what the code does.
-/

namespace Asteria.ConfSpec

open Utf (Scalar)
open JsonSpec (utf8 Item)
open Lexer.Spec (IsSign Numeral Parts Denotes Kept InRange)

/-- What is described: the format as it is meant to be, the part of it where there are no known errors, or what the code makes
of files. -/
inductive Level where
  | meant
  | sure
  | code
deriving DecidableEq

/-! ### Characters and tokens -/

/-- The kinds of tokens: a punctuator, a word, a number without backticks, and a string with its value. -/
inductive Tok where
  | punct (c : Nat)
  | word (w : Bytes)
  | num (t : Bytes)
  | str (s : Bytes)
deriving DecidableEq

def Blank (c : Nat) : Prop := c = 0x20 ∨ (0x09 ≤ c ∧ c ≤ 0x0D)

/-- `[ ] { } : = , ;` -/
def Punct (c : Nat) : Prop := c ∈ [0x5B, 0x5D, 0x7B, 0x7D, 0x3A, 0x3D, 0x2C, 0x3B]

def Letter (c : Nat) : Prop := c = 0x5F ∨ c = 0x24 ∨ (0x41 ≤ c ∧ c ≤ 0x5A) ∨ (0x61 ≤ c ∧ c ≤ 0x7A)

def Digit (c : Nat) : Prop := 0x30 ≤ c ∧ c ≤ 0x39

/-- The text of a block comment, if a star is taken together with the character after it. -/
inductive Paired : List Nat → Prop
  | nil : Paired []
  | cons {c t} : c ≠ 0x2A → Paired t → Paired (c :: t)
  | star {d t} : d ≠ 0x2F → Paired t → Paired (0x2A :: d :: t)

/-- Blanks and comments. -/
inductive Gap (lv : Level) : List Nat → Prop
  | nil : Gap lv []
  | blank {c s} : Blank c → Gap lv s → Gap lv (c :: s)
  | line {t s} : 0x0A ∉ t → Gap lv s → Gap lv (0x2F :: 0x2F :: (t ++ 0x0A :: s))
  | block {t s} : lv ≠ .code → ¬ [0x2A, 0x2F] <:+: t → (lv = .sure → ¬ [0x2A, 0x2A] <:+: t ++ [0x2A]) → Gap lv s →
      Gap lv (0x2F :: 0x2A :: (t ++ 0x2A :: 0x2F :: s))
  | paired {t s} : lv = .code → Paired t → Gap lv s → Gap lv (0x2F :: 0x2A :: (t ++ 0x2A :: 0x2F :: s))

/-- What is at the end of the file: the last line may be a comment without a line break. -/
inductive Last (lv : Level) : List Nat → Prop
  | gap {g} : Gap lv g → Last lv g
  | line {g t} : Gap lv g → 0x0A ∉ t → Last lv (g ++ 0x2F :: 0x2F :: t)

/-! ### Numbers -/

/-- The digits of a base. -/
def DigitOf (base c : Nat) : Prop :=
  if base = 2 then 0x30 ≤ c ∧ c ≤ 0x31
  else if base = 16 then Digit c ∨ (0x41 ≤ c ∧ c ≤ 0x46) ∨ (0x61 ≤ c ∧ c ≤ 0x66)
  else Digit c

/-- Digits, each of which may be followed by a backtick, and the digits without backticks. -/
inductive Ticked (base : Nat) : List Nat → Bytes → Prop
  | nil : Ticked base [] []
  | cons {c s t} : DigitOf base c → Ticked base s t → Ticked base (c :: s) (UInt8.ofNat c :: t)
  | tick {c s t} : DigitOf base c → Ticked base s t → Ticked base (c :: 0x60 :: s) (UInt8.ofNat c :: t)

/-- The prefix of a number, which may have a backtick after the zero. -/
inductive Prefix : Nat → List Nat → Bytes → Prop
  | dec : Prefix 10 [] []
  | bin {c} : c = 0x62 ∨ c = 0x42 → Prefix 2 [0x30, c] [0x30, 0x62]
  | binTick {c} : c = 0x62 ∨ c = 0x42 → Prefix 2 [0x30, 0x60, c] [0x30, 0x62]
  | hex {c} : c = 0x78 ∨ c = 0x58 → Prefix 16 [0x30, c] [0x30, 0x78]
  | hexTick {c} : c = 0x78 ∨ c = 0x58 → Prefix 16 [0x30, 0x60, c] [0x30, 0x78]

/-- The fraction. -/
inductive Frac (base : Nat) : List Nat → Bytes → Prop
  | none : Frac base [] []
  | some {s t} : Ticked base s t → t ≠ [] → Frac base (0x2E :: s) (0x2E :: t)

/-- A sign. -/
inductive Sign : List Nat → Bytes → Prop
  | none : Sign [] []
  | plus : Sign [0x2B] [0x2B]
  | minus : Sign [0x2D] [0x2D]

/-- The letter that begins the exponent: `e` or `p`. -/
def ExpoLetter (base c : Nat) : Prop := if base = 10 then c = 0x65 ∨ c = 0x45 else c = 0x70 ∨ c = 0x50

/-- The exponent. -/
inductive Expo (base : Nat) : List Nat → Bytes → Prop
  | none : Expo base [] []
  | some {c g g' s t} : ExpoLetter base c → Sign g g' → Ticked 10 s t → t ≠ [] →
      Expo base (c :: (g ++ s)) (UInt8.ofNat c :: (g' ++ t))

/-- A number, and its text without backticks and with the prefix in lower case.  A decimal number begins with a digit. -/
inductive Num : List Nat → Bytes → Prop
  | mk {base g g' p p' s s' f f' x x'} : Sign g g' → Prefix base p p' → Ticked base s s' → Frac base f f' → Expo base x x' →
      s' ++ f' ≠ [] → (base = 10 → s' ≠ []) → Num (g ++ (p ++ (s ++ (f ++ x)))) (g' ++ (p' ++ (s' ++ (f' ++ x'))))

/-- What may follow a number: a blank, a comment, a punctuator or a string. -/
def Delim (c : Nat) : Prop := Blank c ∨ c = 0x2F ∨ Punct c ∨ c = 0x22 ∨ c = 0x27

/-- `x` is what a numeral with a radix point says, to within 0.51 units; what is less than the least positive number may be
zero. -/
def Near (neg : Bool) (p : Parts) (x : Dbl) : Prop :=
  p.exact < RealText.minimum ∧ x = .fin 0 ∨
    ∃ b, b < 2047 * 2 ^ 52 ∧ RealText.Nearly p.exact b ∧ x = .fin (if neg then -RealText.value b else RealText.value b)

/-- The value of a number: if it has no radix point, the integer that it says (of which there must be one), and otherwise a
real number. -/
inductive NumVal : Bytes → Value → Prop
  | int {sgn neg c u p v} : IsSign sgn neg → Numeral (c :: u) p → Lexer.Spec.digit c = true → p.frac = none → Denotes neg p v →
      NumVal (sgn ++ c :: u) (.int v)
  | real {sgn neg c u p x} : IsSign sgn neg → Numeral (c :: u) p → Lexer.Spec.digit c = true → p.frac ≠ none →
      p.exact ≤ RealText.maximum → Near neg p x → NumVal (sgn ++ c :: u) (.real x)

/-! ### Strings -/

/-- A hexadecimal digit and its value. -/
inductive HexDigit : Nat → Nat → Prop
  | dec {n} : n < 10 → HexDigit (0x30 + n) n
  | upper {n} : n < 6 → HexDigit (0x41 + n) (10 + n)
  | lower {n} : n < 6 → HexDigit (0x61 + n) (10 + n)

/-- Hexadecimal digits and their number. -/
inductive Hexes : List Nat → Nat → Prop
  | nil : Hexes [] 0
  | snoc {s v c d} : Hexes s v → HexDigit c d → Hexes (s ++ [c]) (16 * v + d)

/-- A character between double quotation marks, and its code point. -/
inductive Elem (lv : Level) : List Nat → Nat → Prop
  | plain {c} : 0x20 ≤ c → c ≠ 0x7F → c ≠ 0x22 → c ≠ 0x5C → Elem lv [c] c
  | quote : Elem lv [0x5C, 0x22] 0x22
  | backslash : Elem lv [0x5C, 0x5C] 0x5C
  | slash : Elem lv [0x5C, 0x2F] 0x2F
  | b : Elem lv [0x5C, 0x62] 8
  | f : Elem lv [0x5C, 0x66] 12
  | n : Elem lv [0x5C, 0x6E] 10
  | r : Elem lv [0x5C, 0x72] 13
  | t : Elem lv [0x5C, 0x74] 9
  | u {h c} : Hexes h c → h.length = 4 → Scalar c → Elem lv (0x5C :: 0x75 :: h) c
  | pair {h k c d} : Hexes h c → h.length = 4 → Hexes k d → k.length = 4 → 0xD800 ≤ c → c ≤ 0xDBFF → 0xDC00 ≤ d → d ≤ 0xDFFF →
      Elem lv (0x5C :: 0x75 :: (h ++ 0x5C :: 0x75 :: k)) (0x10000 + (c - 0xD800) * 1024 + (d - 0xDC00))
  | long {h c} : Hexes h c → h.length = 6 → Scalar c → (lv ≠ .meant → c ≠ 0x10FFFF) → Elem lv (0x5C :: 0x55 :: h) c

/-- The characters of a string. -/
inductive Elems (lv : Level) : List Nat → List Nat → Prop
  | nil : Elems lv [] []
  | cons {u c s cs} : Elem lv u c → Elems lv s cs → Elems lv (u ++ s) (c :: cs)

/-! ### Files -/

/-- `Lexeme lv t u r`: `u` is the text of the token `t`, if what follows is `r`. -/
inductive Lexeme (lv : Level) : Tok → List Nat → List Nat → Prop
  | punct {c r} : Punct c → Lexeme lv (.punct c) [c] r
  | word {c s r} : Letter c → (∀ d ∈ s, Letter d ∨ Digit d) → (∀ d t, r = d :: t → ¬ Letter d ∧ ¬ Digit d) →
      Lexeme lv (.word ((c :: s).map UInt8.ofNat)) (c :: s) r
  | num {s t r} : Num s t → (lv = .sure → r ≠ []) → (lv ≠ .code → ∀ d u, r = d :: u → Delim d) → Lexeme lv (.num t) s r
  | single {s r} : lv ≠ .code → (∀ c ∈ s, 0x20 ≤ c ∧ c ≠ 0x7F ∧ c ≠ 0x27) → (lv = .sure → ∀ c ∈ s, c < 0x80) →
      Lexeme lv (.str (utf8 s)) (0x27 :: (s ++ [0x27])) r
  | narrow {s r} : lv = .code → (∀ c ∈ s, 0x20 ≤ c ∧ c ≠ 0x7F ∧ c ≠ 0x27) →
      Lexeme lv (.str (s.map UInt8.ofNat)) (0x27 :: (s ++ [0x27])) r
  | double {u cs r} : Elems lv u cs → Lexeme lv (.str (utf8 cs)) (0x22 :: (u ++ [0x22])) r

/-- The text of a sequence of tokens. -/
inductive Spells (lv : Level) : List Nat → List Tok → Prop
  | nil {g} : Last lv g → Spells lv g []
  | cons {g t u r ts} : Gap lv g → Lexeme lv t u r → Spells lv r ts → Spells lv (g ++ (u ++ r)) (t :: ts)

/-- What may separate elements: nothing, a comma or a semicolon. -/
def Sep (ts : List Tok) : Prop := ts = [] ∨ ts = [.punct 0x2C] ∨ ts = [.punct 0x3B]

/-- What may separate a key from its value: nothing, a colon or an equals sign. -/
def Colon (ts : List Tok) : Prop := ts = [] ∨ ts = [.punct 0x3A] ∨ ts = [.punct 0x3D]

/-- A key: a word or a string. -/
inductive Key : Tok → Bytes → Prop
  | word {w} : Key (.word w) w
  | str {s} : Key (.str s) s

/-- The tokens of values, elements and members, where there may be `d` more levels of containers that are not empty.  `num`
is the relation between the texts of numbers and their values. -/
inductive Derives (num : Bytes → Value → Prop) : Nat → Item → List Tok → Prop
  | null {d} : Derives num d (.val .null) [.word "null".toUTF8.toList]
  | true {d} : Derives num d (.val (.bool true)) [.word "true".toUTF8.toList]
  | false {d} : Derives num d (.val (.bool false)) [.word "false".toUTF8.toList]
  | number {d t v} : num t v → Derives num d (.val v) [.num t]
  | string {d s} : Derives num d (.val (.str s)) [.str s]
  | noElems {d} : Derives num d (.val (.arr [])) [.punct 0x5B, .punct 0x5D]
  | array {d x xs ts} : Derives num d (.elems (x :: xs)) ts →
      Derives num (d + 1) (.val (.arr (x :: xs))) (.punct 0x5B :: (ts ++ [.punct 0x5D]))
  | noMembers {d} : Derives num d (.val (.obj [])) [.punct 0x7B, .punct 0x7D]
  | object {d x xs ts} : Derives num d (.fields (x :: xs)) ts →
      Derives num (d + 1) (.val (.obj (x :: xs))) (.punct 0x7B :: (ts ++ [.punct 0x7D]))
  | elemsNil {d} : Derives num d (.elems []) []
  | elemsCons {d x xs ts sep us} : Derives num d (.val x) ts → Sep sep → Derives num d (.elems xs) us →
      Derives num d (.elems (x :: xs)) (ts ++ (sep ++ us))
  | fieldsNil {d} : Derives num d (.fields []) []
  | fieldsCons {d t k x xs col ts sep us} : Key t k → k ∉ xs.map (·.1) → Colon col → Derives num d (.val x) ts → Sep sep →
      Derives num d (.fields xs) us → Derives num d (.fields ((k, x) :: xs)) (t :: (col ++ (ts ++ (sep ++ us))))

/-- A file and the object it describes. -/
inductive File (lv : Level) (num : Bytes → Value → Prop) : Bytes → Value → Prop
  | mk {m cs ts l} : m = [] ∨ m = [0xFEFF] → (∀ c ∈ m ++ cs, Scalar c) → Spells lv cs ts → Derives num 32 (.fields l) ts →
      File lv num (utf8 (m ++ cs)) (.obj l)

/-! ### What the code makes of numbers, and where it is undefined -/

/-- `m` times the `e`-th power of `B`, rounded towards zero. -/
def trunc (B m : Nat) (e : Int) : Nat := if 0 ≤ e then m * B ^ e.toNat else m / B ^ (-e).toNat

/-- The integer `v` is what a numeral without a radix point says, rounded towards zero, where digits that do not fit into 64
bits count as zeros, and it is in range. -/
structure Truncates (neg : Bool) (p : Parts) (v : Int) : Prop where
  kept : ∃ m rest, Kept p.base p.whole m rest ∧
    v = if neg then -(trunc p.radix m (p.step * (rest.length : Int) + p.written) : Int) else trunc p.radix m (p.step * (rest.length : Int) + p.written)
  range : InRange v

/-- A number as the code reads it: if it has no radix point, what it says, rounded towards zero, and exactly what it says if
that is an integer in range; and if it has a radix point, a real number near what it says. -/
inductive NumRead : Bytes → Value → Prop
  | int {sgn neg c u p v} : IsSign sgn neg → Numeral (c :: u) p → Lexer.Spec.digit c = true → p.frac = none →
      Truncates neg p v → (∀ w, Denotes neg p w → v = w) → NumRead (sgn ++ c :: u) (.int v)
  | real {sgn neg c u p x} : IsSign sgn neg → Numeral (c :: u) p → Lexer.Spec.digit c = true → p.frac ≠ none →
      Near neg p x → NumRead (sgn ++ c :: u) (.real x)

/-- Numbers without a radix point only. -/
inductive IntVal : Bytes → Value → Prop
  | int {sgn neg c u p v} : IsSign sgn neg → Numeral (c :: u) p → Lexer.Spec.digit c = true → p.frac = none → Denotes neg p v →
      IntVal (sgn ++ c :: u) (.int v)

/-- The characters of a number before its exponent, after the first digit. -/
def InNum (c : Nat) : Prop :=
  Digit c ∨ (0x41 ≤ c ∧ c ≤ 0x46) ∨ (0x61 ≤ c ∧ c ≤ 0x66) ∨ c = 0x58 ∨ c = 0x78 ∨ c = 0x60 ∨ c = 0x2E

/-- There is nothing, or a character from U+0100 on. -/
def Wide (q : List Nat) : Prop := ∀ c q', q = c :: q' → 256 ≤ c

/-- Somewhere there is something like a number, which is followed by nothing or by a character from U+0100 on. -/
def Cut (w : List Nat) : Prop := ∃ z d n q, w = z ++ d :: (n ++ q) ∧ Digit d ∧ (∀ c ∈ n, InNum c) ∧ Wide q

/-- Somewhere there is a prefix after which there are no digits. -/
def Hollow (w : List Nat) : Prop := ∃ z base p p' q, w = z ++ (p ++ q) ∧ Prefix base p p' ∧ base ≠ 10 ∧
  ∀ d q', q = d :: q' → ¬ DigitOf base d ∧ d ≠ 0x2E

end Asteria.ConfSpec
