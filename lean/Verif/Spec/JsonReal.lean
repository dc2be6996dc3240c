import Verif.Spec.JsonText
import Verif.Spec.RealLiteral
import Verif.Spec.RfcNumber

/-!
# The values of numbers in JSON texts, and the texts of RFC 8259
-/

namespace Asteria.JsonSpec

open Lexer.Spec (IsSign Numeral Parts)
open RealText (value Nearly minimum)
open Utf (Scalar utf8Encode)

/-- The number `x` is what the decimal numeral `t` says, to within 0.51 units; what is less than the least positive number
may be zero. -/
def Rounds (t : Bytes) (x : Dbl) : Prop :=
  ∃ sgn neg u p, t = sgn ++ u ∧ IsSign sgn neg ∧ Numeral u p ∧ p.base = 10 ∧
    (p.exact < minimum ∧ x = .fin 0 ∨ ∃ b, b < 2047 * 2 ^ 52 ∧ Nearly p.exact b ∧ x = .fin (if neg then -value b else value b))

/-- A character of a string, RFC 8259 section 7; an escaped surrogate must be one of a pair. -/
inductive RfcChar : Bytes → Nat → Prop
  | plain {u c} : utf8Encode c = some u → 0x20 ≤ c → c ≠ 0x22 → c ≠ 0x5C → RfcChar u c
  | quote : RfcChar [0x5C, 0x22] 0x22
  | backslash : RfcChar [0x5C, 0x5C] 0x5C
  | slash : RfcChar [0x5C, 0x2F] 0x2F
  | b : RfcChar [0x5C, 0x62] 8
  | f : RfcChar [0x5C, 0x66] 12
  | n : RfcChar [0x5C, 0x6E] 10
  | r : RfcChar [0x5C, 0x72] 13
  | t : RfcChar [0x5C, 0x74] 9
  | u {h c} : Hex4 h c → Scalar c → RfcChar (0x5C :: 0x75 :: h) c
  | pair {h k c d} : Hex4 h c → Hex4 k d → 0xD800 ≤ c → c ≤ 0xDBFF → 0xDC00 ≤ d → d ≤ 0xDFFF →
      RfcChar (0x5C :: 0x75 :: (h ++ 0x5C :: 0x75 :: k)) (0x10000 + (c - 0xD800) * 1024 + (d - 0xDC00))

/-- The characters of a string. -/
inductive RfcChars : Bytes → List Nat → Prop
  | nil : RfcChars [] []
  | cons {u c s cs} : RfcChar u c → RfcChars s cs → RfcChars (u ++ s) (c :: cs)

/-- A string. -/
inductive RfcStr : Bytes → Bytes → Prop
  | mk {u cs} : RfcChars u cs → RfcStr (0x22 :: (u ++ [0x22])) (utf8 cs)

/-- RFC 8259 sections 2 to 7, within limits that section 9 allows: a value is within at most 32 arrays and objects, and
names in an object are distinct. -/
inductive Rfc (num : Bytes → Dbl → Prop) : Nat → Item → Bytes → Prop
  | null {d} : d ≤ 32 → Rfc num d (.val .null) "null".toUTF8.toList
  | true {d} : d ≤ 32 → Rfc num d (.val (.bool true)) "true".toUTF8.toList
  | false {d} : d ≤ 32 → Rfc num d (.val (.bool false)) "false".toUTF8.toList
  | number {d t x} : d ≤ 32 → RfcNumber.Number t → num t x → Rfc num d (.val (.real x)) t
  | string {d t s} : d ≤ 32 → RfcStr t s → Rfc num d (.val (.str s)) t
  | array0 {d w} : d ≤ 32 → Blank w → Rfc num d (.val (.arr [])) (0x5B :: (w ++ [0x5D]))
  | array {d l t} : d ≤ 32 → Rfc num (d + 1) (.elems l) t → Rfc num d (.val (.arr l)) (0x5B :: (t ++ [0x5D]))
  | elem {d v w t w'} : Blank w → Rfc num d (.val v) t → Blank w' → Rfc num d (.elems [v]) (w ++ (t ++ w'))
  | elems {d v l w t w' t'} : Blank w → Rfc num d (.val v) t → Blank w' → Rfc num d (.elems l) t' →
      Rfc num d (.elems (v :: l)) (w ++ (t ++ (w' ++ 0x2C :: t')))
  | object0 {d w} : d ≤ 32 → Blank w → Rfc num d (.val (.obj [])) (0x7B :: (w ++ [0x7D]))
  | object {d l t} : d ≤ 32 → Rfc num (d + 1) (.fields l) t → (l.map (·.1)).Nodup →
      Rfc num d (.val (.obj l)) (0x7B :: (t ++ [0x7D]))
  | field {d k q v w₁ w₂ w₃ t w₄} : Blank w₁ → RfcStr q k → Blank w₂ → Blank w₃ → Rfc num d (.val v) t → Blank w₄ →
      Rfc num d (.fields [(k, v)]) (w₁ ++ (q ++ (w₂ ++ 0x3A :: (w₃ ++ (t ++ w₄)))))
  | fields {d k q v l w₁ w₂ w₃ t w₄ t'} : Blank w₁ → RfcStr q k → Blank w₂ → Blank w₃ → Rfc num d (.val v) t → Blank w₄ →
      Rfc num d (.fields l) t' →
      Rfc num d (.fields ((k, v) :: l)) (w₁ ++ (q ++ (w₂ ++ 0x3A :: (w₃ ++ (t ++ (w₄ ++ 0x2C :: t'))))))

/-- `JSON-text = ws value ws` -/
inductive RfcText (num : Bytes → Dbl → Prop) : Bytes → Value → Prop
  | mk {w v t w'} : Blank w → Rfc num 0 (.val v) t → Blank w' → RfcText num (w ++ (t ++ w')) v

end Asteria.JsonSpec
