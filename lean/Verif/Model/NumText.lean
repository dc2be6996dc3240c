import Verif.Model.Basic

/-!
# Integers as text

/repo/asteria/src/rocket/ascii_numput.cpp, /repo/asteria/src/rocket/ascii_numget.cpp,
/repo/asteria/src/library/numeric.cpp
-/

namespace Asteria.NumText

/-! ### Formatting -/

/-- `(char) ('0' + digit + ((9U - digit) >> 29))` in 32 bits, ascii_numput.cpp:281. -/
def digitChar (d : Nat) : UInt8 := UInt8.ofNat (48 + d + (9 + 2 ^ 32 - d) % 2 ^ 32 / 2 ^ 29)

/-- The first loop of `do_write_digits_backwards`, ascii_numput.cpp:274-282.  `fuel` is the number of turns
the loop may take; 64 are enough for a 64-bit value (`digits_spec`). -/
def digits (base : Nat) : Nat → Nat → Bytes → Bytes
  | 0, _, acc => acc
  | fuel + 1, reg, acc => if reg = 0 then acc else digits base fuel (reg / base) (digitChar (reg % base) :: acc)

/-- `do_write_digits_backwards`, ascii_numput.cpp:269-292: zeroes are prepended up to `prec` digits.  The
zeroes are written in groups of eight bytes; what is written before `start` is not part of the result. -/
def writeDigits (base value prec : Nat) : Bytes :=
  let ds := digits base 64 value []
  List.replicate (prec - ds.length) 48 ++ ds

/-- `min(-(uint64_t) value, (uint64_t) value)`, ascii_numput.cpp:1441, 1460, 1479. -/
def absValue (value : Int) : Nat := min ((-value) % 2 ^ 64).toNat (value % 2 ^ 64).toNat

/-- `put_BI`, ascii_numput.cpp:1434-1451. -/
def putBI (value : Int) (prec : Nat) : Bytes :=
  (if value < 0 then [45] else []) ++ [48, 98] ++ writeDigits 2 (absValue value) (min prec 64)

/-- `put_XI`, ascii_numput.cpp:1453-1470. -/
def putXI (value : Int) (prec : Nat) : Bytes :=
  (if value < 0 then [45] else []) ++ [48, 120] ++ writeDigits 16 (absValue value) (min prec 16)

/-- `put_DI`, ascii_numput.cpp:1472-1499.  The table `s_small_decimals` at ascii_numput.cpp:11-254 holds the
decimal text of each of 0 to 2047 with a minus sign; it is modelled as that text (so the short cut for
small values gives the same as the general case). -/
def putDI (value : Int) (prec : Nat) : Bytes :=
  (if value < 0 then [45] else []) ++ writeDigits 10 (absValue value) (min prec 20)

/-- `do_decompose_integer`, numeric.cpp:16-33.  `fuel` is the number of turns of the loop; 64 are enough
(`decompose_spec`). -/
def decompose (ebase : Int) : Nat → Int → Nat → Int × Nat
  | 0, ireg, iexp => (ireg, iexp)
  | fuel + 1, ireg, iexp =>
    if ireg = 0 then (ireg, iexp)
    else if ireg.tmod ebase ≠ 0 then (ireg, iexp)
    else decompose ebase fuel (ireg.tdiv ebase) (iexp + 1)

/-- `do_append_exponent`, numeric.cpp:35-53, for an exponent that is not negative. -/
def exponent (delim : UInt8) (exp : Nat) : Bytes := delim :: 43 :: putDI exp 2

/-- `std_numeric_format` for an integer, numeric.cpp:346-420. -/
def format (value base : Int) (ebase : Option Int) : Res Bytes :=
  if base = 2 then
    match ebase with
    | none => .ok (putBI value 1)
    | some e => if e = 2 then
        let p := decompose 2 64 value 0
        .ok (putBI p.1 1 ++ exponent 112 p.2)
      else .throw
  else if base = 16 then
    match ebase with
    | none => .ok (putXI value 1)
    | some e => if e = 2 then
        let p := decompose 2 64 value 0
        .ok (putXI p.1 1 ++ exponent 112 p.2)
      else .throw
  else if base = 10 then
    match ebase with
    | none => .ok (putDI value 1)
    | some e => if e = 10 then
        let p := decompose 10 64 value 0
        .ok (putDI p.1 1 ++ exponent 101 p.2)
      else .throw
  else .throw

/-! ### Parsing -/

/-- `(uint32_t) s_digit_values[c]`, ascii_numget.cpp:81-99. -/
def digitValue (c : UInt8) : Nat :=
  let n := c.toNat
  if 48 ≤ n ∧ n ≤ 57 then n - 48
  else if 65 ≤ n ∧ n ≤ 90 then n - 55
  else if 97 ≤ n ∧ n ≤ 122 then n - 87
  else 0xFFFFFFFF

/-- `xuint`, ascii_numget.cpp:72-79, and the local `mant_ovfl`. -/
structure XUInt where
  exp : Int
  mant : Nat
  hasPoint : Bool
  valid : Bool
  more : Bool
  ovfl : Bool
deriving DecidableEq

/-- The loop that collects significant figures, ascii_numget.cpp:115-144.  `rdxp` is the radix point.  `mulm` and
`addm` set the flag when the 64-bit result wraps around. -/
def collectLoop (base : Nat) (rdxp : Option UInt8) : Bytes → XUInt → XUInt × Bytes
  | [], xu => (xu, [])
  | c :: cs, xu =>
    if ¬ xu.hasPoint ∧ some c = rdxp then collectLoop base rdxp cs { xu with hasPoint := true }
    else
      let digit := digitValue c
      if digit ≥ base then (xu, c :: cs)
      else
        let m := xu.mant * base % 2 ^ 64
        let ovfl := xu.ovfl || decide (xu.mant * base ≥ 2 ^ 64) || decide (m + digit ≥ 2 ^ 64)
        let xu := { xu with valid := true, ovfl := ovfl }
        let xu := if ovfl then { xu with exp := xu.exp + 1, more := xu.more || decide (digit ≠ 0) }
          else { xu with mant := (m + digit) % 2 ^ 64 }
        collectLoop base rdxp cs (if xu.hasPoint then { xu with exp := xu.exp - 1 } else xu)

/-- The loop that collects the digits of the exponent, ascii_numget.cpp:170-183.  The results of `mulm` and `addm`
wrap around. -/
def exponentLoop (neg : Bool) (orig : Int) : Bytes → Int → Bool → Int × Bool × Bytes
  | [], exp, ovfl => (exp, ovfl, [])
  | c :: cs, exp, ovfl =>
    let digit := digitValue c
    if digit ≥ 10 then (exp, ovfl, c :: cs)
    else
      let x := (exp - orig) * 10
      let x' := Int.bmod x (2 ^ 64)
      let y := x' + ((if neg then -(digit : Int) else digit) + orig)
      let y' := Int.bmod y (2 ^ 64)
      exponentLoop neg orig cs y' (ovfl || decide (x ≠ x') || decide (y ≠ y'))

/-- Whether a byte is a decimal digit. -/
def isDec (c : UInt8) : Bool := 48 ≤ c && c ≤ 57

/-- `do_collect_digits`, ascii_numget.cpp:101-189. -/
def collectDigits (base : Nat) (rdxp : Option UInt8) (s : Bytes) : XUInt × Bytes :=
  let r := collectLoop base rdxp s ⟨0, 0, false, false, false, false⟩
  let xu := if base = 16 then { r.1 with exp := r.1.exp * 4 } else r.1
  let delim : UInt8 := if base = 10 then 101 else 112
  let go (neg : Bool) (rest : Bytes) : XUInt × Bytes :=
    let e := exponentLoop neg xu.exp rest xu.exp false
    ({ xu with exp := if e.2.1 then (if neg then -2 ^ 63 else 2 ^ 63 - 1) else e.1 }, e.2.2)
  match r.2 with
  | c₀ :: c₁ :: rest =>
    if (c₀ ||| 0x20) = delim ∧ isDec c₁ then go false (c₁ :: rest)
    else
      match rest with
      | c₂ :: _ =>
        if (c₀ ||| 0x20) = delim ∧ (c₁ = 43 ∨ c₁ = 45) ∧ isDec c₂ then go (c₁ = 45) rest
        else (xu, r.2)
      | [] => (xu, r.2)
  | _ => (xu, r.2)

/-- The members of `ascii_numget` that describe the number, /repo/asteria/rocket/ascii_numget.hpp:12-26.
`special` stands for an infinity or a NaN. -/
structure NumGet where
  special : Bool
  sign : Bool
  base : Nat
  exp : Int
  mant : Nat
  more : Bool
deriving DecidableEq

/-- `do_get_sign`, ascii_numget.cpp:25-36. -/
def getSign : Bytes → Bool × Bytes
  | 43 :: s => (false, s)
  | 45 :: s => (true, s)
  | s => (false, s)

/-- `do_subseq`, ascii_numget.cpp:9-23. -/
def subseq (p s : Bytes) : Option Bytes := if p.isPrefixOf s then some (s.drop p.length) else none

/-- `do_get_special_value`, ascii_numget.cpp:47-61: the rest of the text after `nan`, `NaN`, `infinity`, `Infinity`,
`inf` or `Inf`. -/
def getSpecial (s : Bytes) : Option Bytes :=
  (subseq [110, 97, 110] s).or <| (subseq [78, 97, 78] s).or <|
    (subseq [105, 110, 102, 105, 110, 105, 116, 121] s).or <| (subseq [73, 110, 102, 105, 110, 105, 116, 121] s).or <|
      (subseq [105, 110, 102] s).or (subseq [73, 110, 102] s)

/-- `do_skip_base_prefix`, ascii_numget.cpp:63-69. -/
def skipPrefix (baseChar : UInt8) : Bytes → Bytes
  | c₀ :: c₁ :: s => if c₀ = 48 ∧ (c₁ ||| 0x20) = baseChar then s else c₀ :: c₁ :: s
  | s => s

/-- `parse_BD`, `parse_XD` and `parse_DD`, ascii_numget.cpp:1122-1202.  `none` is a return value of zero; the
rest of the text is returned instead of the number of bytes consumed. -/
def parseBase (base : Nat) (s : Bytes) : Option (NumGet × Bytes) :=
  let g := getSign s
  match getSpecial g.2 with
  | some rest => some (⟨true, g.1, 0, 0, 0, false⟩, rest)
  | none =>
    let t := if base = 2 then skipPrefix 98 g.2 else if base = 16 then skipPrefix 120 g.2 else g.2
    let r := collectDigits base (some 46) t
    if r.1.valid then some (⟨false, g.1, if base = 10 then 10 else 2, r.1.exp, r.1.mant, r.1.more⟩, r.2)
    else none

/-- The base that the prefix of a text denotes, without a sign. -/
def prefixBase : Bytes → Option Nat
  | c₀ :: c₁ :: _ =>
    if c₀ = 48 then
      if (c₁ ||| 0x20) = 98 then some 2 else if (c₁ ||| 0x20) = 120 then some 16 else none
    else none
  | _ => none

/-- `parse_D`, ascii_numget.cpp:1261-1289. -/
def parseD (s : Bytes) : Option (NumGet × Bytes) :=
  match prefixBase s with
  | some b => parseBase b s
  | none =>
    match s with
    | c :: s' =>
      if c = 43 ∨ c = 45 then
        match prefixBase s' with
        | some b => parseBase b s
        | none => parseBase 10 s
      else parseBase 10 s
    | [] => parseBase 10 s

/-- The loop that raises the mantissa in `cast_I`, ascii_numget.cpp:1463-1471. -/
def raise (base : Nat) : Nat → Nat → Nat × Bool
  | 0, bits => (bits, false)
  | e + 1, bits =>
    if bits * base ≥ 2 ^ 64 then (bits * base % 2 ^ 64, true)
    else if e = 0 then (bits * base, false)
    else raise base e (bits * base)

/-- The loop that lowers the mantissa in `cast_I`, ascii_numget.cpp:1478-1484: the mantissa, and whether a
remainder was dropped. -/
def lower (base : Nat) : Nat → Nat → Bool → Nat × Bool
  | 0, bits, inxct => (bits, inxct)
  | e + 1, bits, inxct =>
    let inxct := inxct || decide (bits % base ≠ 0)
    if e = 0 ∨ bits / base = 0 then (bits / base, inxct) else lower base e (bits / base) inxct

/-- The result of `cast_I`: the value and the flags `m_ovfl`, `m_udfl`, `m_inxct`. -/
structure Cast where
  value : Int
  ovfl : Bool
  udfl : Bool
  inxct : Bool
deriving DecidableEq

/-- `cast_I` with the full range of `int64_t`, ascii_numget.cpp:1395-1507; the value of an infinity or a NaN is
not represented. -/
def castI (g : NumGet) : Res Cast :=
  if g.special then .ok ⟨0, true, false, false⟩
  else if g.mant = 0 then .ok ⟨0, false, false, g.more⟩
  else if g.exp < -10000 then .ok ⟨0, false, true, true⟩
  else if g.exp > 10000 then .ok ⟨2 ^ 63 - 1, true, false, g.more⟩
  else
    let umax : BitVec 64 := if g.sign then 0x8000000000000000#64 else 0x7FFFFFFFFFFFFFFF#64
    let r := if g.exp > 0 then raise g.base g.exp.toNat g.mant else (g.mant, false)
    if r.2 then .ok ⟨umax.toInt, true, false, g.more⟩
    else
      let l := if g.exp < 0 then lower g.base (-g.exp).toNat g.mant g.more else (r.1, g.more)
      if g.exp < 0 ∧ l.1 = 0 then .ok ⟨0, false, true, l.2⟩
      else if l.1 > umax.toNat then .ok ⟨umax.toInt, true, false, l.2⟩
      else
        let v := ((BitVec.ofNat 64 l.1 - umax + 0x7FFFFFFFFFFFFFFF#64) ^^^ 0x7FFFFFFFFFFFFFFF#64 ^^^ umax).toInt
        if v = 0 then .ub else .ok ⟨v, false, false, l.2⟩

/-- The bytes in `s_spaces`, numeric.cpp:501. -/
def isSpace (c : UInt8) : Bool := c = 32 || c = 12 || c = 10 || c = 13 || c = 9 || c = 11

/-- The part of a text between `find_not_of(s_spaces)` and `rfind_not_of(s_spaces)`, numeric.cpp:502-508. -/
def trim (s : Bytes) : Bytes := ((s.dropWhile isSpace).reverse.dropWhile isSpace).reverse

/-- The result of `std_numeric_parse`.  The value of a real number, by `cast_D`, is not represented. -/
inductive Number where
  | int (v : Int)
  | real
deriving DecidableEq

/-- `std_numeric_parse`, numeric.cpp:498-525. -/
def parse (text : Bytes) : Res Number :=
  let t := trim text
  if t = [] then .throw
  else match parseD t with
    | some (g, []) =>
      if 46 ∈ text then .ok .real
      else (castI g).map fun r => if !r.ovfl && !r.udfl && !r.inxct then .int r.value else .real
    | _ => .throw

end Asteria.NumText
