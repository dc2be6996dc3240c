import Verif.Spec.Json

/-!
# Which texts `std.json.parse` accepts, and what they denote

This is the grammar of RFC 8259 with a byte order mark, a plus sign, leading zeroes and a comma after the last element or
member, and without control characters (U+007F included), equal keys, and more than 32 arrays and objects within one
another around a value.  It does not refer to the model of json.cpp.
-/

namespace Asteria.JsonSpec

open Utf (Scalar utf8Encode)

/-- A hexadecimal digit and its value. -/
inductive HexDigit : UInt8 → Nat → Prop
  | dec {n} : n < 10 → HexDigit (UInt8.ofNat (0x30 + n)) n
  | upper {n} : n < 6 → HexDigit (UInt8.ofNat (0x41 + n)) (10 + n)
  | lower {n} : n < 6 → HexDigit (UInt8.ofNat (0x61 + n)) (10 + n)

/-- Four hexadecimal digits. -/
inductive Hex4 : Bytes → Nat → Prop
  | mk {a b c d x y z w} : HexDigit a x → HexDigit b y → HexDigit c z → HexDigit d w →
      Hex4 [a, b, c, d] (4096 * x + 256 * y + 16 * z + w)

/-- A character of a string and its code point. -/
inductive Char : Bytes → Nat → Prop
  | plain {u c} : utf8Encode c = some u → 0x20 ≤ c → c ≠ 0x7F → c ≠ 0x22 → c ≠ 0x5C → Char u c
  | quote : Char [0x5C, 0x22] 0x22
  | backslash : Char [0x5C, 0x5C] 0x5C
  | slash : Char [0x5C, 0x2F] 0x2F
  | b : Char [0x5C, 0x62] 8
  | f : Char [0x5C, 0x66] 12
  | n : Char [0x5C, 0x6E] 10
  | r : Char [0x5C, 0x72] 13
  | t : Char [0x5C, 0x74] 9
  | u {h c} : Hex4 h c → Scalar c → Char (0x5C :: 0x75 :: h) c
  | pair {h k c d} : Hex4 h c → Hex4 k d → 0xD800 ≤ c → c ≤ 0xDBFF → 0xDC00 ≤ d → d ≤ 0xDFFF →
      Char (0x5C :: 0x75 :: (h ++ 0x5C :: 0x75 :: k)) (0x10000 + (c - 0xD800) * 1024 + (d - 0xDC00))

/-- The characters of a string. -/
inductive Chars : Bytes → List Nat → Prop
  | nil : Chars [] []
  | cons {u c s cs} : Char u c → Chars s cs → Chars (u ++ s) (c :: cs)

/-- A string, quotation marks included, and its value in UTF-8. -/
inductive Str : Bytes → Bytes → Prop
  | mk {u cs} : Chars u cs → Str (0x22 :: (u ++ [0x22])) (utf8 cs)

/-- The texts of values, of elements each of which is followed by a comma, and of members each of which is followed by a
comma, within `d` arrays and objects.  `num` is the relation between the texts of numbers and their values. -/
inductive Denotes (num : Bytes → Dbl → Prop) : Nat → Item → Bytes → Prop
  | null {d} : d ≤ 32 → Denotes num d (.val .null) "null".toUTF8.toList
  | true {d} : d ≤ 32 → Denotes num d (.val (.bool true)) "true".toUTF8.toList
  | false {d} : d ≤ 32 → Denotes num d (.val (.bool false)) "false".toUTF8.toList
  | number {d t x} : d ≤ 32 → Number t → num t x → Denotes num d (.val (.real x)) t
  | string {d t s} : d ≤ 32 → Str t s → Denotes num d (.val (.str s)) t
  | array {d l e} : d ≤ 32 → Denotes num (d + 1) (.elems l) e → Denotes num d (.val (.arr l)) (0x5B :: (e ++ [0x5D]))
  | arrayLast {d l e v t w} : d ≤ 32 → Denotes num (d + 1) (.elems l) e → Denotes num (d + 1) (.val v) t → Blank w →
      Denotes num d (.val (.arr (l ++ [v]))) (0x5B :: (e ++ (t ++ (w ++ [0x5D]))))
  | noElems {d w} : Blank w → Denotes num d (.elems []) w
  | elem {d l e v t w w'} : Denotes num d (.elems l) e → Denotes num d (.val v) t → Blank w → Blank w' →
      Denotes num d (.elems (l ++ [v])) (e ++ (t ++ (w ++ 0x2C :: w')))
  | object {d l e} : d ≤ 32 → Denotes num (d + 1) (.fields l) e → Denotes num d (.val (.obj l)) (0x7B :: (e ++ [0x7D]))
  | objectLast {d l e k q v t w w₁ w₂} : d ≤ 32 → Denotes num (d + 1) (.fields l) e → Str q k → k ∉ l.map (·.1) →
      Blank w₁ → Blank w₂ → Denotes num (d + 1) (.val v) t → Blank w →
      Denotes num d (.val (.obj (l ++ [(k, v)]))) (0x7B :: (e ++ (q ++ (w₁ ++ 0x3A :: (w₂ ++ (t ++ (w ++ [0x7D])))))))
  | noFields {d w} : Blank w → Denotes num d (.fields []) w
  | field {d l e k q v t w w' w₁ w₂} : Denotes num d (.fields l) e → Str q k → k ∉ l.map (·.1) → Blank w₁ → Blank w₂ →
      Denotes num d (.val v) t → Blank w → Blank w' →
      Denotes num d (.fields (l ++ [(k, v)])) (e ++ (q ++ (w₁ ++ 0x3A :: (w₂ ++ (t ++ (w ++ 0x2C :: w'))))))

/-- What comes before the value: a byte order mark perhaps, and blanks. -/
inductive Start : Bytes → Prop
  | plain {w} : Blank w → Start w
  | bom {w} : Blank w → Start (0xEF :: 0xBB :: 0xBF :: w)

/-- A whole text and its value. -/
inductive Text (num : Bytes → Dbl → Prop) : Bytes → Value → Prop
  | mk {p v t w} : Start p → Denotes num 0 (.val v) t → Blank w → Text num (p ++ (t ++ w)) v

end Asteria.JsonSpec
