import Verif.Model.Basic

/-!
# Model of the integer operators in /repo/asteria/src/runtime/air_node.cpp

`V_integer` is `int64_t`; it is modelled by its 64-bit two's complement pattern (`BitVec 64`).
-/

namespace Asteria.IntOps

/-- `V_integer`, /repo/asteria/fwd.hpp (`using V_integer = int64_t`). -/
abbrev I64 := BitVec 64

/-- `INT64_MAX` (used at air_node.cpp:3775, 3811, 3847). -/
def int64Max : I64 := 0x7FFFFFFFFFFFFFFF#64

/-- `INT64_MIN` (used at air_node.cpp:3443, 3492). -/
def int64Min : I64 := 0x8000000000000000#64

/-- The result part of `__builtin_{add,sub,mul}_overflow` as used by `addm`, `subm`, `mulm`
(/repo/asteria/rocket/fwd.hpp:459-499): the infinitely precise result wrapped to 64 bits, and
whether wrapping changed it (GCC manual, "Built-in Functions to Perform Arithmetic with Overflow
Checking"). -/
def wrapOvf (exact : Int) : I64 × Bool :=
  let r := BitVec.ofInt 64 exact
  (r, decide (r.toInt ≠ exact))

/-- `addm`, /repo/asteria/rocket/fwd.hpp:459-471. -/
def addm (x y : I64) : I64 × Bool := wrapOvf (x.toInt + y.toInt)
/-- `subm`, /repo/asteria/rocket/fwd.hpp:473-485. -/
def subm (x y : I64) : I64 × Bool := wrapOvf (x.toInt - y.toInt)
/-- `mulm`, /repo/asteria/rocket/fwd.hpp:487-499. -/
def mulm (x y : I64) : I64 × Bool := wrapOvf (x.toInt * y.toInt)

/-- Signed `>>` by `n`: undefined for a count outside `0..63`; arithmetic shift otherwise (as
implemented by GCC and required by C++20).  Used at air_node.cpp:2650, 3775, 3811, 3847, 4001, 4057. -/
def sar (x : I64) (n : Nat) : Res I64 := if n < 64 then .ok (x.sshiftRight n) else .ub

/-- Unsigned `<<` by `n`: undefined for a count outside `0..63` (air_node.cpp:3889-3890, 4004). -/
def shlU (x : I64) (n : Nat) : Res I64 := if n < 64 then .ok (x <<< n) else .ub

/-- Unsigned `>>` by `n`: undefined for a count outside `0..63` (air_node.cpp:3945-3946). -/
def shrU (x : I64) (n : Nat) : Res I64 := if n < 64 then .ok (x >>> n) else .ub

/-- Signed `/`: undefined for a zero divisor and for `INT64_MIN / -1` (air_node.cpp:3446). -/
def divC (x y : I64) : Res I64 :=
  if y.toInt = 0 then .ub
  else if x.toInt = -2 ^ 63 ∧ y.toInt = -1 then .ub
  else .ok (BitVec.ofInt 64 (x.toInt.tdiv y.toInt))

/-- Signed `%`: undefined in the same cases as `/` (air_node.cpp:3495). -/
def modC (x y : I64) : Res I64 :=
  if y.toInt = 0 then .ub
  else if x.toInt = -2 ^ 63 ∧ y.toInt = -1 then .ub
  else .ok (BitVec.ofInt 64 (x.toInt.tmod y.toInt))

/-- `xop_inc` on an integer, air_node.cpp:2112-2122: the value stored. -/
def inc (val : I64) : Res I64 :=
  let (result, ovr) := addm val 1
  if ovr then .throw else .ok result

/-- `xop_dec` on an integer, air_node.cpp:2156-2166. -/
def dec (val : I64) : Res I64 :=
  let (result, ovr) := subm val 1
  if ovr then .throw else .ok result

/-- `xop_neg` on an integer, air_node.cpp:2389-2397. -/
def neg (val : I64) : Res I64 :=
  let (result, ovr) := subm 0 val
  if ovr then .throw else .ok result

/-- `xop_abs` on an integer, air_node.cpp:2642-2650. -/
def abs (val : I64) : Res I64 := do
  let (negv, ovr) := subm 0 val
  if ovr then Res.throw
  else do
    let s ← sar val 63
    pure (((val ^^^ negv) &&& s) ^^^ val)

/-- `xop_add` on integers, air_node.cpp:3276-3284. -/
def add (val rhs : I64) : Res I64 :=
  let (result, ovr) := addm val rhs
  if ovr then .throw else .ok result

/-- `xop_sub` on integers, air_node.cpp:3328-3336. -/
def sub (val rhs : I64) : Res I64 :=
  let (result, ovr) := subm val rhs
  if ovr then .throw else .ok result

/-- `xop_mul` on integers, air_node.cpp:3370-3378. -/
def mul (val rhs : I64) : Res I64 :=
  let (result, ovr) := mulm val rhs
  if ovr then .throw else .ok result

/-- `xop_div` on integers, air_node.cpp:3437-3446. -/
def div (val rhs : I64) : Res I64 :=
  if rhs = 0 then .throw
  else if val = int64Min ∧ rhs = -1 then .throw
  else divC val rhs

/-- `xop_mod` on integers, air_node.cpp:3486-3495. -/
def mod (val rhs : I64) : Res I64 :=
  if rhs = 0 then .throw
  else if val = int64Min ∧ rhs = -1 then .throw
  else modC val rhs

/-- `xop_addm`, air_node.cpp:3670-3674. -/
def addmOp (val rhs : I64) : Res I64 := .ok (addm val rhs).1
/-- `xop_subm`, air_node.cpp:3703-3707. -/
def submOp (val rhs : I64) : Res I64 := .ok (subm val rhs).1
/-- `xop_mulm`, air_node.cpp:3736-3740. -/
def mulmOp (val rhs : I64) : Res I64 := .ok (mulm val rhs).1

/-- `xop_adds`, air_node.cpp:3769-3776. -/
def adds (val rhs : I64) : Res I64 :=
  let (result, ovr) := addm val rhs
  if ovr then (sar val 63).map (· ^^^ int64Max) else .ok result

/-- `xop_subs`, air_node.cpp:3805-3812. -/
def subs (val rhs : I64) : Res I64 :=
  let (result, ovr) := subm val rhs
  if ovr then (sar val 63).map (· ^^^ int64Max) else .ok result

/-- `xop_muls`, air_node.cpp:3841-3848. -/
def muls (val rhs : I64) : Res I64 :=
  let (result, ovr) := mulm val rhs
  if ovr then (sar val 63).bind fun a => (sar rhs 63).map fun b => a ^^^ b ^^^ int64Max
  else .ok result

/-- `min(rhs.as_integer(), 63)` for a non-negative count (air_node.cpp:3888, 3944, 4000, 4056). -/
def clampCount (rhs : I64) : Nat := min rhs.toInt 63 |>.toNat

/-- `n != rhs.as_integer()` (air_node.cpp:3890, 3946, 4001) as a number. -/
def countExceeds (rhs : I64) : Nat := if min rhs.toInt 63 ≠ rhs.toInt then 1 else 0

/-- `xop_sll` on an integer, air_node.cpp:3881-3891. -/
def sll (val rhs : I64) : Res I64 :=
  if rhs.toInt < 0 then .throw
  else do
    let v ← shlU val (clampCount rhs)
    shlU v (countExceeds rhs)

/-- `xop_srl` on an integer, air_node.cpp:3937-3947. -/
def srl (val rhs : I64) : Res I64 :=
  if rhs.toInt < 0 then .throw
  else do
    let v ← shrU val (clampCount rhs)
    shrU v (countExceeds rhs)

/-- `xop_sla` on an integer, air_node.cpp:3993-4004.  `63 - n` is computed in `int64_t`; it lies
in `0..63`. -/
def sla (val rhs : I64) : Res I64 :=
  if rhs.toInt < 0 then .throw
  else do
    let n := clampCount rhs
    let a ← sar val (63 - n)
    let b ← sar val 63
    if val ≠ 0 ∧ (countExceeds rhs ≠ 0 ∨ a ≠ b) then Res.throw
    else shlU val n

/-- `xop_sra` on an integer, air_node.cpp:4049-4057. -/
def sra (val rhs : I64) : Res I64 :=
  if rhs.toInt < 0 then .throw else sar val (clampCount rhs)

/-- `xop_notb` on an integer, air_node.cpp:2428-2431. -/
def notb (val : I64) : I64 := ~~~val
/-- `xop_andb` on integers, air_node.cpp:3529-3533. -/
def andb (val rhs : I64) : I64 := val &&& rhs
/-- `xop_orb` on integers, air_node.cpp:3576-3580. -/
def orb (val rhs : I64) : I64 := val ||| rhs
/-- `xop_xorb` on integers, air_node.cpp:3623-3627. -/
def xorb (val rhs : I64) : I64 := val ^^^ rhs
/-- `xop_sign` on an integer, air_node.cpp:2681-2684. -/
def sign (val : I64) : Bool := decide (val.toInt < 0)

/-- `__builtin_clzll` (fwd.hpp:715): leading zeros of a non-zero pattern, scanning from bit
`n - 1` downwards. -/
def clzScan (x : I64) : Nat → Nat
  | 0 => 0
  | n + 1 => if x.getLsbD n then 0 else clzScan x n + 1

/-- `__builtin_ctzll` (fwd.hpp:721): trailing zeros, scanning `n` bits from bit `i` upwards. -/
def ctzScan (x : I64) (i : Nat) : Nat → Nat
  | 0 => 0
  | n + 1 => if x.getLsbD i then 0 else ctzScan x (i + 1) n + 1

/-- `__builtin_popcountll` (fwd.hpp:727): ones among the lowest `n` bits. -/
def popScan (x : I64) : Nat → Nat
  | 0 => 0
  | n + 1 => (if x.getLsbD n then 1 else 0) + popScan x n

/-- `xop_lzcnt`, air_node.cpp:2969-2973 with `lzcnt64`, fwd.hpp:711-715. -/
def lzcnt (val : I64) : I64 :=
  if val ≠ 0 then BitVec.ofNat 64 (clzScan val 64 &&& 63) else 64

/-- `xop_tzcnt`, air_node.cpp:2998-3002 with `tzcnt64`, fwd.hpp:717-721. -/
def tzcnt (val : I64) : I64 :=
  if val ≠ 0 then BitVec.ofNat 64 (ctzScan val 0 64 &&& 63) else 64

/-- `xop_popcnt`, air_node.cpp:3027-3031 with `popcnt64`, fwd.hpp:723-727. -/
def popcnt (val : I64) : I64 := BitVec.ofNat 64 (popScan val 64)

end Asteria.IntOps
