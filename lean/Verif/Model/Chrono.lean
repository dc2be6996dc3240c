import Verif.Model.Basic

/-!
# Model of the chrono library

/repo/asteria/src/library/chrono.cpp: `std.chrono.format`, `std.chrono.format_ms` and `std.chrono.parse`.

`gmtime_r` and `timegm` of the C library are modelled as calculations in the Gregorian calendar; that these agree with the
calendar is proved in Verif/Props/Chrono.lean.  `localtime_r` and `mktime` are parameters, as they depend on the time zone
of the system.
-/

namespace Asteria.Chrono

/-! ### The C library -/

/-- `struct tm`: `year` is `tm_year + 1900`, `mon` is `tm_mon + 1`. -/
structure Tm where
  year : Int
  mon : Int
  day : Int
  hour : Int
  min : Int
  sec : Int
deriving DecidableEq

/-- Days from the first day of the year 0 to the first day of a year.  Not in /repo; part of the model of the C library, as
used at chrono.cpp:65, 268. -/
def daysBefore (y : Int) : Int := 365 * y + (y + 3) / 4 - (y + 99) / 100 + (y + 399) / 400

/-- Leap years.  Not in /repo; part of the model of the C library, as used at chrono.cpp:65, 268. -/
def leap (y : Int) : Bool := y % 4 = 0 && (y % 100 ≠ 0 || y % 400 = 0)

/-- Days in each month.  Not in /repo; part of the model of the C library, as used at chrono.cpp:65, 268. -/
def monthLens (y : Int) : List Int := [31, if leap y then 29 else 28, 31, 30, 31, 30, 31, 31, 30, 31, 30, 31]

/-- The month of a day in a year, and the day in it, both from zero.  Not in /repo; part of the model of the C library, as
used at chrono.cpp:65. -/
def findMonth : List Int → Int → Int × Int
  | [], d => (0, d)
  | n :: ns, d => if d < n then (0, d) else let r := findMonth ns (d - n); (r.1 + 1, r.2)

/-- The year of a day since the first day of the year 0.  Not in /repo; part of the model of the C library, as used at
chrono.cpp:65. -/
def findYear (n : Int) : Int :=
  let d := n % 146097
  let q := d / 366
  400 * (n / 146097) + (if daysBefore (q + 1) ≤ d then q + 1 else q)

/-- `::gmtime_r`, called at chrono.cpp:65. -/
def gmtime (tp : Int) : Tm :=
  let n := tp / 86400 + 719528
  let s := tp % 86400
  let y := findYear n
  let m := findMonth (monthLens y) (n - daysBefore y)
  ⟨y, m.1 + 1, m.2 + 1, s / 3600, s / 60 % 60, s % 60⟩

/-- `::timegm`, called at chrono.cpp:268.  Fields that are out of range are carried over. -/
def timegm (t : Tm) : Int :=
  let y := t.year + (t.mon - 1) / 12
  let m := (t.mon - 1) % 12
  (daysBefore y + ((monthLens y).take m.toNat).sum + (t.day - 1) - 719528) * 86400 + t.hour * 3600 + t.min * 60 + t.sec

/-! ### The formatter -/

/-- An element of `s_2digit`, chrono.cpp:13-25; the table has 100 elements. -/
def two (n : Int) : Res Bytes :=
  if 0 ≤ n ∧ n < 100 then .ok [48 + UInt8.ofNat (n.toNat / 10), 48 + UInt8.ofNat (n.toNat % 10)] else .ub

/-- The milliseconds, chrono.cpp:96-102: four digits, the first of which is overwritten with a decimal point. -/
def msText (ms : Int) : Res Bytes :=
  (two (ms / 100)).bind fun a => (two (ms % 100)).map fun b => 0x2E :: (a.drop 1 ++ b)

/-- The offset, chrono.cpp:104-113; `neg` is whether `gmtoff_sign` is -1. -/
def offsetText (neg : Bool) (a : Int) : Res Bytes :=
  if a = 0 then .ok [0x20, 0x55, 0x54, 0x43]
  else (two (a / 60)).bind fun h => (two (a % 60)).map fun m => 0x20 :: (if neg then 0x2D else 0x2B) :: (h ++ m)

/-- The text, chrono.cpp:79-115. -/
def text (t : Tm) (ms : Int) (withMs : Bool) (neg : Bool) (a : Int) : Res Bytes :=
  (two (t.year / 100)).bind fun y1 => (two (t.year % 100)).bind fun y2 => (two t.mon).bind fun mo => (two t.day).bind fun d =>
    (two t.hour).bind fun h => (two t.min).bind fun mi => (two t.sec).bind fun s =>
      (if withMs then msText ms else .ok []).bind fun m =>
        (offsetText neg a).map fun o =>
          y1 ++ (y2 ++ (0x2D :: (mo ++ (0x2D :: (d ++ (0x20 :: (h ++ (0x3A :: (mi ++ (0x3A :: (s ++ (m ++ o))))))))))))

/-- `do_format_with_ms`, chrono.cpp:27-116.  `loc` is `::localtime_r`: the broken-down time and the offset in seconds.  The
year is converted to an unsigned integer, so a negative one would be out of the bounds of the table, as in the model. -/
def format (loc : Int → Tm × Int) (t : Int) (off : Option Int) (withMs : Bool) : Res Bytes :=
  if t < 0 then text ⟨0, 1, 1, 0, 0, 0⟩ 0 withMs false 0
  else if t ≥ 253370764800000 then text ⟨9999, 1, 1, 0, 0, 0⟩ 0 withMs false 0
  else
    match off with
    | none => let r := loc (t / 1000); text r.1 (t % 1000) withMs (r.2 < 0) (r.2.natAbs / 60)
    | some o =>
      if o ≤ -1440 ∨ o ≥ 1440 then .throw
      else text (gmtime (t / 1000 + o * 60)) (t % 1000) withMs (o < 0) o.natAbs

/-! ### The parser -/

/-- `do_match` of a character, chrono.cpp:118-135; `none` is the null pointer.  The string ends with a null character, which
is compared at the end. -/
def match1 (c : UInt8) : Option Bytes → Option Bytes
  | some (x :: s) => if x = c then some s else none
  | _ => none

/-- `do_match` of two digits, chrono.cpp:137-159: what is added to the value, and the pointer.  `memcmp` compares two
characters; at the end of the string there is only the null character, and what is after it must not be read.  The null
character after a single character is not a digit. -/
def match2 : Option Bytes → Res (Int × Option Bytes)
  | none => .ok (0, none)
  | some [] => .ub
  | some [_] => .ok (0, none)
  | some (x :: y :: s) =>
    match (List.range 100).find? fun (k : Nat) => two (k : Int) = .ok [x, y] with
    | some k => .ok (k, some s)
    | none => .ok (0, none)

/-- The digits after a decimal point, chrono.cpp:214-219. -/
def fraction : Int → Int → Bytes → Int × Bytes
  | ms, _, [] => (ms, [])
  | ms, w, x :: s => if 48 ≤ x ∧ x ≤ 57 then fraction (ms + (x.toNat - 48) * w) (w / 10) s else (ms, x :: s)

/-- chrono.cpp:211-220. -/
def readMs : Option Bytes → Int × Option Bytes
  | some (0x2E :: s) => let r := fraction 0 100 s; (r.1, some r.2)
  | r => (0, r)

/-- chrono.cpp:222-239: `gmtoff_sign`, `gmtoff_abs` and the pointer. -/
def readOffset : Option Bytes → Res (Int × Int × Option Bytes)
  | some (0x20 :: s) =>
    if s.take 3 = [0x47, 0x4D, 0x54] ∨ s.take 3 = [0x55, 0x54, 0x43] then .ok (1, 0, some (s.drop 3))
    else
      match s with
      | x :: s' =>
        if x = 0x2B ∨ x = 0x2D then
          (match2 (some s')).bind fun h => (match2 h.2).map fun m => (if x = 0x2B then 1 else -1, h.1 * 60 + m.1, m.2)
        else .ok (0, 0, some s)
      | [] => .ok (0, 0, some s)
  | r => .ok (0, 0, r)

/-- The last part of `std_chrono_parse`, chrono.cpp:249-277.  `mk` is `::mktime`. -/
def assemble (mk : Tm → Int) (t : Tm) (ms sign a : Int) : Int :=
  let tp := if sign = 0 then ms + mk t * 1000 else ms + timegm t * 1000 - sign * a * 60000
  if tp < 0 then -2 ^ 63 else if tp ≥ 253370764800000 then 2 ^ 63 - 1 else tp

/-- `std_chrono_parse`, chrono.cpp:183-278. -/
def parse (mk : Tm → Int) (str : Bytes) : Res Int :=
  let r := some (str.dropWhile (· = 0x20))
  (match2 r).bind fun y1 => (match2 y1.2).bind fun y2 => (match2 (match1 0x2D y2.2)).bind fun mo =>
    (match2 (match1 0x2D mo.2)).bind fun d => (match2 (match1 0x20 d.2)).bind fun h =>
      (match2 (match1 0x3A h.2)).bind fun mi => (match2 (match1 0x3A mi.2)).bind fun s =>
        let ms := readMs s.2
        (readOffset ms.2).bind fun o =>
          if o.2.2.map (·.dropWhile (· = 0x20)) = some [] then
            .ok (assemble mk ⟨y1.1 * 100 + y2.1, mo.1, d.1, h.1, mi.1, s.1⟩ ms.1 o.1 o.2.1)
          else .throw

end Asteria.Chrono
