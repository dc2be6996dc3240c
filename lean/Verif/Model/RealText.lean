import Verif.Model.NumText
import Verif.Model.NumTables

/-!
# Real numbers as decimal text

/repo/asteria/src/rocket/ascii_numput.cpp, /repo/asteria/src/rocket/ascii_numget.cpp.  A `double` is its bit pattern, a natural
number less than 2^64.
-/

namespace Asteria.RealText

open NumText

/-- `lzcnt64`, /repo/asteria/rocket/fwd.hpp:711-714, of a value that is not zero. -/
def lzcnt (x : Nat) : Nat := 63 - Nat.log2 x

/-! ### Formatting -/

/-- `fpclass`, ascii_numput.cpp:1017-1024. -/
inductive FpClass where
  | zero
  | subnormal
  | infinity
  | nan
  | normal
deriving DecidableEq

/-- `frexp`, ascii_numput.cpp:1026-1032: the number is `mant` times a power of ten, unless its class is special. -/
structure Frexp where
  cls : FpClass
  sign : Bool
  exp : Int
  mant : Nat

/-- The binary search in `do_frexp10_17`, ascii_numput.cpp:1223-1230.  `fuel` bounds the number of turns. -/
def search (bits : Nat) : Nat → Nat → Nat → Res Nat
  | 0, mlo, mhi => if mlo = mhi then .ok mlo else .ub
  | fuel + 1, mlo, mhi =>
    if mlo = mhi then .ok mlo
    else
      let mid := (mlo + mhi) % 2 ^ 32 / 2
      match putTable[mid]? with
      | none => .ub
      | some m => if bits < m.bound then search bits fuel mlo mid else search bits fuel (mid + 1) mhi

/-- The variables `bits`, `r_digits` and `r_mult` of `do_frexp10_17`. -/
structure Rounded where
  bits : Nat
  digits : Nat
  mult : Nat

/-- The body of the loop that removes trailing digits in `do_frexp10_17`, ascii_numput.cpp:1249-1259. -/
def removeDigits (mantMin mantDiff : Nat) (r : Rounded) (div : Nat) : Rounded :=
  let nextDigits := (r.digits + div / 2) % 2 ^ 64 / div
  let nextMult := r.mult * div % 2 ^ 64
  let nextBits := nextDigits * nextMult % 2 ^ 64
  if (nextBits + 2 ^ 64 - mantMin) % 2 ^ 64 ≤ mantDiff then ⟨nextBits, nextDigits, nextMult⟩ else r

/-- The part of `do_frexp10_17` after normalization, ascii_numput.cpp:1218-1273: the mantissa and the base-10 exponent.  The
arguments are the bit pattern without its sign, the biased exponent and the mantissa without the hidden bit.  Shift counts that are out
of range, and entries beyond the end of the table, are undefined behaviour. -/
def decimal (bits : Nat) (exp : Int) (mant : Nat) : Res (Nat × Int) :=
  let mlo := 1 + ((51 + exp) * 0x134413 % 2 ^ 32).toNat / 0x400000
  let mhi := (633 + 2 ^ 32 - ((2046 - exp) * 0x134413 % 2 ^ 32).toNat / 0x400000) % 2 ^ 32
  (search bits 633 mlo mhi).bind fun m =>
    let mlo := m - 1
    match putTable[mlo]? with
    | none => .ub
    | some mult =>
      let sh := exp + mult.exp2 - 1075
      if sh < 1 ∨ 64 ≤ sh then .ub
      else
        let bits := (2 ^ 52 + mant) * 2 ^ sh.toNat % 2 ^ 64
        let halfUlp := 2 ^ (sh.toNat - 1)
        let mantMin := ((bits + 2 ^ 64 - halfUlp) % 2 ^ 64 * mult.mant / 2 ^ 64 + 1) % 2 ^ 64
        let mantDiff := ((bits + halfUlp) % 2 ^ 64 * (mult.mant - 1) / 2 ^ 64 + 2 ^ 64 - mantMin) % 2 ^ 64
        let bits := (mantMin + mantDiff / 2) % 2 ^ 64
        let r := [100000000, 10000, 100, 100, 10].foldl (removeDigits mantMin mantDiff) ⟨bits, bits, 1⟩
        if r.bits ≥ 1000000000000000000 then .ok (r.bits / 10, ((mlo + 1 : Nat) : Int) - 341)
        else .ok (r.bits, (mlo : Int) - 341)

/-- The class of a number that is not normal, ascii_numput.cpp:1207: `(exp & 2) | ((mant + INT64_MAX) >> 63)`. -/
def classOf (exp mant : Nat) : FpClass :=
  match (exp &&& 2) ||| ((mant + (2 ^ 63 - 1)) % 2 ^ 64 / 2 ^ 63) with
  | 0 => .zero
  | 1 => .subnormal
  | 2 => .infinity
  | _ => .nan

/-- `do_frexp10_17`, ascii_numput.cpp:1190-1273. -/
def frexp10 (value : Nat) : Res Frexp :=
  let sign := decide (value / 2 ^ 63 % 2 = 1)
  let exp := value / 2 ^ 52 % 2 ^ 11
  let mant := value % 2 ^ 52
  if exp = 0 ∨ exp ≥ 0x7FF then
    let cls := classOf exp mant
    if cls ≠ .subnormal then .ok ⟨cls, sign, exp, mant⟩
    else
      let sh := lzcnt mant - 11
      (decimal (value % 2 ^ 63) ((exp : Int) - (sh - 1)) (mant * 2 ^ sh % 2 ^ 52)).map fun d => ⟨cls, sign, d.2, d.1⟩
  else (decimal (value % 2 ^ 63) exp mant).map fun d => ⟨.normal, sign, d.2, d.1⟩

/-- The loop of `do_write_mantissa`, ascii_numput.cpp:1308-1318.  `out` is what is before `wptr`, after the sign.  When `wptr` is
where the radix point shall be, it is skipped, and the caller puts the radix point there; here it is put at once.  `fuel` bounds the
number of turns. -/
def mantissaLoop (rdx divisor base : Nat) : Nat → Nat → Bytes → Res Bytes
  | 0, reg, out => if reg = 0 then .ok out else .ub
  | fuel + 1, reg, out =>
    if reg = 0 then .ok out
    else
      let digit := reg / divisor % 2 ^ 32
      let reg := reg % divisor * base % 2 ^ 64
      let out := if out.length = rdx then out ++ [46] else out
      if digit ≥ base then .ub else mantissaLoop rdx divisor base fuel reg (out ++ [digitChar digit])

/-- `do_write_mantissa`, ascii_numput.cpp:1304-1328.  Zeroes are written in groups of eight, and those from `rdxpp` on are not
part of the result. -/
def writeMantissa (mant divisor base rdx : Nat) (out : Bytes) : Res Bytes :=
  (mantissaLoop rdx divisor base 64 mant out).map fun out => out ++ List.replicate (rdx - out.length) 48

/-- `do_write_exponent`, ascii_numput.cpp:1330-1354.  `s_small_decimals` is modelled as the decimal text of the numbers up
to 2047. -/
def writeExponent (exp : Int) : Bytes := (if exp ≥ 0 then 43 else 45) :: writeDigits 10 exp.natAbs 2

/-- `do_is_special_class`, ascii_numput.cpp:1275-1302, and `s_small_decimals[0]`: the text without a sign. -/
def specialText : FpClass → Option Bytes
  | .zero => some [48]
  | .infinity => some [105, 110, 102, 105, 110, 105, 116, 121]
  | .nan => some [110, 97, 110]
  | _ => none

/-- `put_DD`, ascii_numput.cpp:1888-1934, with the dot as the radix point. -/
def putDD (value : Nat) : Res Bytes :=
  (frexp10 value).bind fun frx =>
    let minus : Bytes := if frx.sign then [45] else []
    match specialText frx.cls with
    | some t => .ok (minus ++ t)
    | none =>
      let exp := frx.exp + 17
      if 0 ≤ exp ∧ exp < 15 then
        (writeMantissa frx.mant 100000000000000000 10 (exp.toNat + 1) []).map fun t => minus ++ t
      else if -4 ≤ exp ∧ exp < 0 then
        ((writeMantissa 0 1 1 (1 + (-exp).toNat) [48, 46]).bind fun t =>
          writeMantissa frx.mant 100000000000000000 10 1 t).map fun t => minus ++ t
      else
        (writeMantissa frx.mant 100000000000000000 10 1 []).map fun t => minus ++ (t ++ 101 :: writeExponent exp)

/-! ### Parsing -/

/-- The result of `cast_D`: the bit pattern and the flags `m_ovfl`, `m_udfl`, `m_inxct`. -/
structure RealCast where
  bits : Nat
  ovfl : Bool
  udfl : Bool
  inxct : Bool
deriving DecidableEq

/-- The increment of the mantissa in `cast_D`, ascii_numget.cpp:1794, 1819:
`((ulp - 1 - bits_out) >> 63) & ((ulp - bits_out) >> 63 | bits) & 1`. -/
def carry (ulp out bits : Nat) : Nat :=
  ((ulp + 2 ^ 64 - 1 - out) % 2 ^ 64 / 2 ^ 63) &&& ((ulp + 2 ^ 64 - out) % 2 ^ 64 / 2 ^ 63 ||| bits) &&& 1

/-- The end of `cast_D`, ascii_numget.cpp:1855-1860; `sign` is the sign bit in place.  The parts have no bits in common. -/
def finish (sign : Nat) (exp : Int) (bits : Nat) (inxct : Bool) : Res RealCast :=
  let v := sign + (if exp > 0 then exp.toNat else 0) * 2 ^ 52 + bits
  if v % 2 ^ 63 = 0 then .ub else .ok ⟨v, false, false, inxct⟩

/-- The rounding of the mantissa in `cast_D`, ascii_numget.cpp:1780-1860.  The exponent is far within 16 bits, so that
`exp >> 15` is its sign. -/
def compose (sign : Nat) (exp : Int) (bits : Nat) (more : Bool) : Res RealCast :=
  let m : Nat := if more then 1 else 0
  if exp ≥ 1 then
    let out : Nat := bits % 2 ^ 11
    let inxct := more || decide (out > 0 ∧ out < 2 ^ 11 - 1)
    let b := bits / 2 ^ 11 + carry (2 ^ 11) (2 * out + m) (bits / 2 ^ 11)
    let sh : Nat := b / 2 ^ 53 % 2
    if exp + sh > 2046 then .ok ⟨sign + 0x7FF0000000000000, true, false, inxct⟩
    else finish sign (exp + sh) (b / 2 ^ sh % 2 ^ 52) inxct
  else if exp ≥ -51 then
    let s := (12 - exp).toNat
    let out := bits % 2 ^ s
    let inxct := more || decide (out > 0 ∧ out < 2 ^ s - 1)
    let b := bits / 2 ^ s + carry (2 ^ s) ((2 * out + m) % 2 ^ 64) (bits / 2 ^ s)
    let sh : Nat := b / 2 ^ 52 % 2
    finish sign (exp + sh) (b / 2 ^ (if exp + sh < 0 then sh else 0) % 2 ^ 52) inxct
  else if exp = -52 then
    if bits ≤ 0x8000000000000000 then .ok ⟨sign, false, true, true⟩ else finish sign (-51) 1 true
  else .ok ⟨sign, false, true, true⟩

/-- `cast_D` of a number that is neither an infinity nor a NaN, with the full range of `double`, ascii_numget.cpp:1724-1863. -/
def castD (g : NumGet) : Res RealCast :=
  let sign := if g.sign then 2 ^ 63 else 0
  if g.mant = 0 then .ok ⟨sign, false, false, g.more⟩
  else if g.exp < -10000 then .ok ⟨sign, false, true, true⟩
  else if g.exp > 10000 then .ok ⟨sign + 0x7FF0000000000000, true, false, g.more⟩
  else
    let sh := lzcnt g.mant
    let bits := g.mant * 2 ^ sh % 2 ^ 64
    if g.base = 10 then
      if g.exp < -343 then .ok ⟨sign, false, true, true⟩
      else if g.exp > 308 then .ok ⟨sign + 0x7FF0000000000000, true, false, g.more⟩
      else match getTable[(343 + g.exp).toNat]? with
        | none => .ub
        | some mult =>
          let bits := bits * mult.mant / 2 ^ 64
          if bits = 0 then .ub
          else compose sign (mult.exp2 - ((sh + lzcnt bits : Nat) : Int) + 1086) (bits * 2 ^ lzcnt bits % 2 ^ 64) g.more
    else compose sign (g.exp - sh + 1086) bits g.more

end Asteria.RealText
