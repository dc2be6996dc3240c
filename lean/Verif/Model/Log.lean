import Verif.Model.Print

/-!
# Messages on standard error and messages of exceptions

`write_log_to_stderr` and `throw_runtime_error`, /repo/asteria/src/utils.cpp:50-178.
-/

namespace Asteria.Log
open Asteria.NumText (writeDigits)
open Asteria.Print (lit)

/-- `struct tm` and the nanoseconds of `struct timespec`, utils.cpp:58-61. -/
structure Time where
  year : Nat
  mon : Nat
  mday : Nat
  hour : Nat
  min : Nat
  sec : Nat
  nsec : Nat

/-- The number `datetime`, utils.cpp:64-74, where `tm_year` and `tm_mon` are counted from 1900 and 0. -/
def datetime (t : Time) : Nat :=
  let d := t.year + 1900
  let d := d * 100
  let d := d + (t.mon + 1)
  let d := d * 100
  let d := d + t.mday
  let d := d * 100
  let d := d + t.hour
  let d := d * 100
  let d := d + t.min
  let d := d * 100
  d + t.sec

/-- `data.append(nump.data() + i, n)`, utils.cpp:77-91. -/
def part (s : Bytes) (i n : Nat) : Bytes := (s.drop i).take n

/-- The timestamp, utils.cpp:75-92. -/
def stampText (t : Time) : Bytes :=
  let s := writeDigits 10 (datetime t) 1
  let f := writeDigits 10 t.nsec 9
  part s 0 4 ++ lit "-" ++ part s 4 2 ++ lit "-" ++ part s 6 2 ++ lit " " ++ part s 8 2 ++ lit ":" ++ part s 10 2 ++ lit ":" ++ part s 12 2
    ++ lit "." ++ part f 0 9 ++ lit " "

/-- The texts for control characters, utils.cpp:106-142. -/
def names : List String :=
  ["[NUL]", "[SOH]", "[STX]", "[ETX]", "[EOT]", "[ENQ]", "[ACK]", "[BEL]", "[BS]", "\t", "\x1B\x45\t", "[VT]", "[FF]", "", "[SO]", "[SI]",
    "[DLE]", "[DC1]", "[DC2]", "[DC3]", "[DC4]", "[NAK]", "[SYN]", "[ETB]", "[CAN]", "[EM]", "[SUB]", "[ESC]", "[FS]", "[GS]", "[RS]", "[US]"]

/-- What is written for a character, utils.cpp:106-142. -/
def neutral (c : UInt8) : Bytes :=
  match names[c.toNat]? with
  | some s => lit s
  | none => if c = 0x7F then lit "[DEL]" else [c]

/-- `" \f\n\r\t\v"`, utils.cpp:145. -/
def isSpace (c : UInt8) : Bool := c = 0x20 ∨ c = 0x0C ∨ c = 0x0A ∨ c = 0x0D ∨ c = 0x09 ∨ c = 0x0B

/-- `data.erase(data.rfind_not_of(" \f\n\r\t\v") + 1)`, utils.cpp:145 and 165. -/
def trim (data : Bytes) : Bytes := (data.reverse.dropWhile isSpace).reverse

/-- The first part of the message, utils.cpp:75-102. -/
def header (t : Time) (file func : Bytes) (line : Nat) : Bytes :=
  stampText t ++ lit "(" ++ func ++ lit ") @ " ++ file ++ lit ":" ++ writeDigits 10 line 1 ++ lit "\x1B\x45\t"

/-- `write_log_to_stderr`, utils.cpp:50-152: what is passed to `::write()`.  Simplified: the name of the function and the file do not
contain null bytes. -/
def message (t : Time) (file func : Bytes) (line : Nat) (msg : Bytes) : Bytes :=
  trim (header t file func line ++ msg.flatMap neutral) ++ lit "\x1B\x45\n"

/-- `throw_runtime_error`, utils.cpp:154-178: the text of the exception, which `c_str()` ends at the first null byte. -/
def exceptionText (file func : Bytes) (line : Nat) (msg : Bytes) : Bytes :=
  (trim msg ++ lit "\n[thrown from `" ++ func ++ lit "(...)` at '" ++ file ++ lit ":" ++ writeDigits 10 line 1 ++ lit "']").takeWhile (· ≠ 0)

end Asteria.Log
