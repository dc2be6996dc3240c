import Verif.Model.CowString
import Verif.Model.StrFind

/-!
# `std.string.to_upper`, `to_lower` and `translate`

/repo/asteria/src/library/string.cpp:975-1045.  They write characters through a pointer that is got from `mut_data()` once, so
they are modelled on the strings of `Verif.Model.CowString`, which have addresses.  Parameters and the result are strings of
a state, given by number.
-/

namespace Asteria.StrMap

open CowString

/-- `ascii_to_upper`, /repo/asteria/rocket/xascii.hpp:34-40; `char` is promoted to `int`. -/
def toUpper (c : UInt8) : UInt8 :=
  let x : BitVec 32 := c.toBitVec.signExtend 32
  ⟨(x &&& (0xDF00#32 ||| (x - 97#32) ||| (122#32 - x)).sshiftRight 8).setWidth 8⟩

/-- `ascii_to_lower`, xascii.hpp:42-48. -/
def toLower (c : UInt8) : UInt8 :=
  let x : BitVec 32 := c.toBitVec.signExtend 32
  ⟨(x ||| (0x2000#32 &&& (65#32 - x - 1#32) &&& (x - 90#32 - 1#32)).sshiftRight 8).setWidth 8⟩

/-- `s[i]`, /repo/asteria/rocket/cow_string.hpp:581-589. -/
def char (H : Heap) (s : Str) (i : Nat) : Res UInt8 :=
  (H.read s.ptr i 1).bind fun
    | [a] => .ok a
    | _ => .ub

/-- `if(!wptr) wptr = res.mut_data()`, string.cpp:990-991, 1012-1013, 1035-1036. -/
def fork (c : Cfg) (S : State) (r : Nat) (s : Str) : Option Nat → Res (State × Nat)
  | some p => .ok (S, p)
  | none => (S.heap.mutData c s).map fun x => (⟨x.1, S.vec.set r x.2.1⟩, x.2.2)

/-- The loops in `std_string_to_upper` and `std_string_to_lower`, string.cpp:982-994, 1004-1016, from `i` on.  The first argument
bounds the number of iterations. -/
def caseLoop (c : Cfg) (f : UInt8 → UInt8) (r : Nat) : Nat → State → Option Nat → Nat → Res State
  | n, S, w, i => (S.str r).bind fun s =>
    if i < s.len then
      match n with
      | 0 => .ub
      | n + 1 => (char S.heap s i).bind fun a =>
        if a = f a then caseLoop c f r n S w (i + 1)
        else (fork c S r s w).bind fun (S, p) => (S.heap.write p i [f a]).bind fun H =>
          caseLoop c f r n ⟨H, S.vec⟩ (some p) (i + 1)
    else .ok S

/-- `std_string_to_upper`, string.cpp:975-996, with `toUpper`, and `std_string_to_lower`, string.cpp:998-1018, with `toLower`: `text` is
string `t` and the result is string `r`. -/
def mapCase (c : Cfg) (f : UInt8 → UInt8) (S : State) (r t : Nat) : Res State :=
  (S.step c (.copy r t)).bind fun S => (S.str r).bind fun s => caseLoop c f r s.len S none 0

/-- `if(outputs && (ipos < outputs->size())) ... outputs->at(ipos)`, string.cpp:1038-1039. -/
def outAt (S : State) (o : Option Nat) (i : Nat) : Res (Option UInt8) :=
  match o with
  | none => .ok none
  | some o => (S.str o).bind fun s => if i < s.len then (char S.heap s i).map some else .ok none

/-- The loop in `std_string_translate`, string.cpp:1027-1042, from `i` on; `u` is `inputs` and `o` is `outputs`.  After an erasure,
`i` stays as it is. -/
def trLoop (c : Cfg) (r u : Nat) (o : Option Nat) : Nat → State → Option Nat → Nat → Res State
  | n, S, w, i => (S.str r).bind fun s =>
    if i < s.len then
      match n with
      | 0 => .ub
      | n + 1 => (char S.heap s i).bind fun a => (S.str u).bind fun su => (S.heap.read su.ptr 0 su.len).bind fun inp =>
        (StrFind.findChar inp 0 a).bind fun ip =>
          if ip = StrFind.npos then trLoop c r u o n S w (i + 1)
          else (fork c S r s w).bind fun (S, p) => (outAt S o ip).bind fun
            | some b => (S.heap.write p i [b]).bind fun H => trLoop c r u o n ⟨H, S.vec⟩ (some p) (i + 1)
            | none => (S.step c (.replaceFill r i 1 0 0)).bind fun S => trLoop c r u o n S (some p) i
    else .ok S

/-- `std_string_translate`, string.cpp:1020-1045. -/
def translate (c : Cfg) (S : State) (r t u : Nat) (o : Option Nat) : Res State :=
  (S.step c (.copy r t)).bind fun S => (S.str r).bind fun s => trLoop c r u o s.len S none 0

end Asteria.StrMap
