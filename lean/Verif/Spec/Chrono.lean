import Verif.Model.Basic

/-!
# The Gregorian calendar

Days are counted from the first day of the year 0.
-/

namespace Asteria.Calendar

/-- Leap years: every fourth year, but of the last years of centuries only every fourth. -/
def Leap (y : Nat) : Prop := y % 4 = 0 ∧ (y % 100 = 0 → y % 400 = 0)

instance (y : Nat) : Decidable (Leap y) := by unfold Leap; infer_instance

/-- Days in a month from 1 to 12. -/
def monthLen (y m : Nat) : Nat :=
  if m = 2 then (if Leap y then 29 else 28) else if m = 4 ∨ m = 6 ∨ m = 9 ∨ m = 11 then 30 else 31

/-- A date. -/
structure Date where
  y : Nat
  m : Nat
  d : Nat

/-- There is such a date. -/
def Date.Valid (t : Date) : Prop := 1 ≤ t.m ∧ t.m ≤ 12 ∧ 1 ≤ t.d ∧ t.d ≤ monthLen t.y t.m

/-- The next date. -/
def Date.next (t : Date) : Date :=
  if t.d < monthLen t.y t.m then ⟨t.y, t.m, t.d + 1⟩
  else if t.m < 12 then ⟨t.y, t.m + 1, 1⟩
  else ⟨t.y + 1, 1, 1⟩

/-- The date after a number of days from the first day of the year 0. -/
def date : Nat → Date
  | 0 => ⟨0, 1, 1⟩
  | n + 1 => (date n).next

end Asteria.Calendar

namespace Asteria.Calendar

/-- The lowest decimal digits of a number. -/
def digits : Nat → Nat → Bytes
  | 0, _ => []
  | w + 1, n => digits w (n / 10) ++ [48 + UInt8.ofNat (n % 10)]

/-- A number of minutes ahead of UTC, as text. -/
def zone (o : Int) : Bytes :=
  if o = 0 then "UTC".toUTF8.toList
  else (if o < 0 then "-" else "+").toUTF8.toList ++ (digits 2 (o.natAbs / 60) ++ digits 2 (o.natAbs % 60))

/-- A time point, in seconds from the first day of the year 0, and its milliseconds, if any, as text. -/
def stamp (n : Nat) (ms : Option Nat) (o : Int) : Bytes :=
  let D := date (n / 86400)
  let s := n % 86400
  digits 4 D.y ++ ("-".toUTF8.toList ++ (digits 2 D.m ++ ("-".toUTF8.toList ++ (digits 2 D.d ++ (" ".toUTF8.toList ++
    (digits 2 (s / 3600) ++ (":".toUTF8.toList ++ (digits 2 (s / 60 % 60) ++ (":".toUTF8.toList ++ (digits 2 (s % 60) ++
      ((match ms with | some m => ".".toUTF8.toList ++ digits 3 m | none => []) ++ (" ".toUTF8.toList ++ zone o))))))))))))

end Asteria.Calendar
