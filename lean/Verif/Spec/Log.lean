import Verif.Model.Log
import Verif.Spec.Backtrace

/-!
# What a message on standard error looks like
-/

namespace Asteria.Log

/-- A number with `k` decimal digits. -/
def dec : Nat → Nat → Bytes
  | 0, _ => []
  | k + 1, n => dec k (n / 10) ++ [UInt8.ofNat (0x30 + n % 10)]

/-- A date and time as calendars have them. -/
structure Time.Valid (t : Time) : Prop where
  year : t.year + 1900 ≥ 1000 ∧ t.year + 1900 ≤ 9999
  mon : t.mon < 12
  mday : t.mday ≤ 31
  hour : t.hour < 24
  min : t.min < 60
  sec : t.sec ≤ 60
  nsec : t.nsec < 1000000000

/-- `YYYY-MM-DD hh:mm:ss.nnnnnnnnn`. -/
def dateText (t : Time) : Bytes :=
  dec 4 (t.year + 1900) ++ [0x2D] ++ dec 2 (t.mon + 1) ++ [0x2D] ++ dec 2 t.mday ++ [0x20] ++ dec 2 t.hour ++ [0x3A] ++ dec 2 t.min ++ [0x3A]
    ++ dec 2 t.sec ++ [0x2E] ++ dec 9 t.nsec

/-- The bytes of a text. -/
def text (s : String) : Bytes := s.toUTF8.toList

/-- A byte that is no control character. -/
def Plain (c : UInt8) : Prop := 0x20 ≤ c ∧ c ≠ 0x7F

instance (c : UInt8) : Decidable (Plain c) := inferInstanceAs (Decidable (_ ∧ _))

/-- What a terminal can be given: no control characters except tabs and `ESC E`, which starts a new line on the terminal. -/
inductive Tame : Bytes → Prop where
  | nil : Tame []
  | plain {c r} : Plain c → Tame r → Tame (c :: r)
  | tab {r} : Tame r → Tame (0x09 :: r)
  | next {r} : Tame r → Tame (0x1B :: 0x45 :: r)

/-- A space, a tab, a line feed, a vertical tab, a form feed or a carriage return. -/
def Blank (c : UInt8) : Prop := c = 0x20 ∨ (0x09 ≤ c ∧ c ≤ 0x0D)

instance (c : UInt8) : Decidable (Blank c) := inferInstanceAs (Decidable (_ ∨ _))

/-- Lines with something between them. -/
def joined (sep : Bytes) : List Bytes → Bytes
  | [] => []
  | [l] => l
  | l :: ls => l ++ sep ++ joined sep ls

end Asteria.Log
