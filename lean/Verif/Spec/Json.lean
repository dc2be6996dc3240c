import Verif.Model.Value
import Verif.Props.Utf

/-!
# What a JSON text is

This does not refer to the model of json.cpp.  Numbers are given by two functions: the text of a real number, and the
real number that a text stands for.
-/

namespace Asteria.JsonSpec

open Utf (Scalar utf8Encode)

/-- A JSON number, RFC 8259 section 6, where a plus sign and leading zeroes are allowed. -/
def Digits (t : Bytes) : Prop := t ≠ [] ∧ ∀ b ∈ t, 0x30 ≤ b.toNat ∧ b.toNat ≤ 0x39

def Sign (t : Bytes) : Prop := t = [] ∨ t = [0x2B] ∨ t = [0x2D]

def Fraction (t : Bytes) : Prop := t = [] ∨ ∃ d, Digits d ∧ t = 0x2E :: d

def Exponent (t : Bytes) : Prop := t = [] ∨ ∃ e s d, (e = 0x65 ∨ e = 0x45) ∧ Sign s ∧ Digits d ∧ t = e :: (s ++ d)

def Number (t : Bytes) : Prop :=
  ∃ s i f e, Sign s ∧ Digits i ∧ Fraction f ∧ Exponent e ∧ t = s ++ (i ++ (f ++ e))

/-- Blanks, RFC 8259 section 2. -/
def Blank (t : Bytes) : Prop := ∀ b ∈ t, b = 0x20 ∨ b = 0x09 ∨ b = 0x0A ∨ b = 0x0D

/-- A hexadecimal digit. -/
def hex (n : Nat) : UInt8 := "0123456789ABCDEF".toUTF8.toList.getD (n % 16) 0

/-- `\uXXXX` -/
def unit (c : Nat) : Bytes := [0x5C, 0x75, hex (c / 4096), hex (c / 256), hex (c / 16), hex c]

/-- The text of a character in a string, RFC 8259 section 7: everything but printable ASCII is escaped, in
the form of a letter (`\b`, `\f`, `\n`, `\r`, `\t`) if there is one. -/
def escaped (c : Nat) : Bytes :=
  if c = 0x5C ∨ c = 0x22 ∨ c = 0x2F then [0x5C, UInt8.ofNat c]
  else if 0x20 ≤ c ∧ c ≤ 0x7E then [UInt8.ofNat c]
  else if c = 8 then [0x5C, 0x62]
  else if c = 12 then [0x5C, 0x66]
  else if c = 10 then [0x5C, 0x6E]
  else if c = 13 then [0x5C, 0x72]
  else if c = 9 then [0x5C, 0x74]
  else if c < 0x10000 then unit c
  else unit (0xD800 + (c - 0x10000) / 1024) ++ unit (0xDC00 + (c - 0x10000) % 1024)

/-- The UTF-8 text of a list of characters. -/
def utf8 (cs : List Nat) : Bytes := cs.flatMap fun c => (utf8Encode c).getD []

/-- `q` is the text of the string `s`. -/
def Quoted (s q : Bytes) : Prop :=
  ∃ cs : List Nat, (∀ c ∈ cs, Scalar c) ∧ s = utf8 cs ∧ q = 0x22 :: (cs.flatMap escaped ++ [0x22])

/-- What a JSON text stands for; the elements of an array and the members of an object are separate. -/
inductive Item where
  | val (v : Value)
  | elems (l : List Value)
  | fields (l : List (Bytes × Value))

/-- What goes between a key and its value. -/
def colon (ind : Bytes) : Bytes := if ind = [] then [0x3A] else [0x3A, 0x20]

/-- `t` is the text of a value, the lines of which begin with `ind`; each level adds `add` to that.  `num` gives the
text of numbers. -/
inductive Writes (num : Dbl → Bytes) (ofInt : Int → Dbl) (add : Bytes) : Bytes → Item → Bytes → Prop
  | null {ind} : Writes num ofInt add ind (.val .null) "null".toUTF8.toList
  | true {ind} : Writes num ofInt add ind (.val (.bool true)) "true".toUTF8.toList
  | false {ind} : Writes num ofInt add ind (.val (.bool false)) "false".toUTF8.toList
  | int {ind i} : Writes num ofInt add ind (.val (.int i)) (num (ofInt i))
  | fin {ind q} : Writes num ofInt add ind (.val (.real (.fin q))) (num (.fin q))
  | special {ind d} : (∀ q, d ≠ .fin q) → Writes num ofInt add ind (.val (.real d)) "null".toUTF8.toList
  | str {ind s q} : Quoted s q → Writes num ofInt add ind (.val (.str s)) q
  | other {ind i} : Writes num ofInt add ind (.val (.opaque i)) "null".toUTF8.toList
  | func {ind i} : Writes num ofInt add ind (.val (.func i)) "null".toUTF8.toList
  | noElems {ind} : Writes num ofInt add ind (.val (.arr [])) "[]".toUTF8.toList
  | noFields {ind} : Writes num ofInt add ind (.val (.obj [])) "{}".toUTF8.toList
  | arr {ind x xs t} : Writes num ofInt add (ind ++ add) (.elems (x :: xs)) t →
      Writes num ofInt add ind (.val (.arr (x :: xs))) (0x5B :: (t ++ (ind ++ [0x5D])))
  | obj {ind x xs t} : Writes num ofInt add (ind ++ add) (.fields (x :: xs)) t →
      Writes num ofInt add ind (.val (.obj (x :: xs))) (0x7B :: (t ++ (ind ++ [0x7D])))
  | elem {ind x t} : Writes num ofInt add ind (.val x) t → Writes num ofInt add ind (.elems [x]) (ind ++ t)
  | elemCons {ind x y ys t u} : Writes num ofInt add ind (.val x) t → Writes num ofInt add ind (.elems (y :: ys)) u →
      Writes num ofInt add ind (.elems (x :: y :: ys)) (ind ++ (t ++ 0x2C :: u))
  | field {ind k q x t} : Quoted k q → Writes num ofInt add ind (.val x) t →
      Writes num ofInt add ind (.fields [(k, x)]) (ind ++ (q ++ (colon ind ++ t)))
  | fieldCons {ind k q x y ys t u} : Quoted k q → Writes num ofInt add ind (.val x) t →
      Writes num ofInt add ind (.fields (y :: ys)) u →
      Writes num ofInt add ind (.fields ((k, x) :: y :: ys)) (ind ++ (q ++ (colon ind ++ (t ++ 0x2C :: u))))

mutual

/-- How deep the elements of a value are nested; empty arrays and objects have none. -/
def height : Value → Nat
  | .arr (x :: xs) => 1 + heightList (x :: xs)
  | .obj (x :: xs) => 1 + heightFields (x :: xs)
  | _ => 0

/-- The greatest height of the elements of an array. -/
def heightList : List Value → Nat
  | [] => 0
  | x :: xs => max (height x) (heightList xs)

/-- The same for an object. -/
def heightFields : List (Bytes × Value) → Nat
  | [] => 0
  | x :: xs => max (height x.2) (heightFields xs)

end

mutual

/-- What is left of a value in JSON: integers are numbers, and what has no JSON equivalent is null. -/
def norm (ofInt : Int → Dbl) : Value → Value
  | .int i => .real (ofInt i)
  | .real (.fin q) => .real (.fin q)
  | .real _ => .null
  | .opaque _ => .null
  | .func _ => .null
  | .arr l => .arr (normList ofInt l)
  | .obj l => .obj (normFields ofInt l)
  | .null => .null
  | .bool b => .bool b
  | .str s => .str s

/-- The same for the elements of an array. -/
def normList (ofInt : Int → Dbl) : List Value → List Value
  | [] => []
  | x :: xs => norm ofInt x :: normList ofInt xs

/-- The same for the members of an object. -/
def normFields (ofInt : Int → Dbl) : List (Bytes × Value) → List (Bytes × Value)
  | [] => []
  | x :: xs => (x.1, norm ofInt x.2) :: normFields ofInt xs

end

mutual

/-- Values with UTF-8 text and distinct keys, all numbers of which satisfy `P`. -/
def Good (ofInt : Int → Dbl) (P : Dbl → Prop) : Value → Prop
  | .int i => P (ofInt i)
  | .real (.fin q) => P (.fin q)
  | .str s => Utf.WellFormed s
  | .arr l => GoodList ofInt P l
  | .obj l => (l.map (·.1)).Nodup ∧ GoodFields ofInt P l
  | _ => True

/-- The same for the elements of an array. -/
def GoodList (ofInt : Int → Dbl) (P : Dbl → Prop) : List Value → Prop
  | [] => True
  | x :: xs => Good ofInt P x ∧ GoodList ofInt P xs

/-- The same for the members of an object. -/
def GoodFields (ofInt : Int → Dbl) (P : Dbl → Prop) : List (Bytes × Value) → Prop
  | [] => True
  | x :: xs => Utf.WellFormed x.1 ∧ Good ofInt P x.2 ∧ GoodFields ofInt P xs

end

end Asteria.JsonSpec
