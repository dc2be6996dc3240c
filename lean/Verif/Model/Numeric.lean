import Verif.Model.Basic

/-!
# Model of the rotating and packing functions of `std.numeric` and of the random engine

/repo/asteria/src/library/numeric.cpp, /repo/asteria/runtime/random_engine.hpp,
/repo/asteria/rocket/fwd.hpp
-/

namespace Asteria.Numeric

/-- `a << n` on `uint64_t`; a count outside of `[0, 63]` is undefined (numeric.cpp:310, 315, 336). -/
def shl64 (a : BitVec 64) (n : Int) : Res (BitVec 64) :=
  if 0 ≤ n ∧ n < 64 then .ok (a <<< n.toNat) else .ub

/-- `a >> n` on `uint64_t`; a count outside of `[0, 63]` is undefined (numeric.cpp:315, 336). -/
def shr64 (a : BitVec 64) (n : Int) : Res (BitVec 64) :=
  if 0 ≤ n ∧ n < 64 then .ok (a >>> n.toNat) else .ub

/-- `(sh >> 63) & m` on `int64_t`, numeric.cpp:314 and 335; the shift is arithmetic. -/
def signMask (sh m : Int) : Int :=
  ((BitVec.ofInt 64 sh).sshiftRight 63 &&& BitVec.ofInt 64 m).toInt

/-- `std_numeric_rotl`, numeric.cpp:298-320. -/
def rotl (m x n : Int) : Res Int :=
  if m < 0 ∨ m > 64 then .throw
  else if m = 0 then .ok 0
  else (shl64 2 (m - 1)).bind fun top =>
    let ireg := BitVec.ofInt 64 x
    let mask := top - 1
    let sh := n.tmod m
    if sh ≠ 0 then
      let sh := sh + signMask sh m
      (shl64 ireg sh).bind fun hi => (shr64 (ireg &&& mask) (m - sh)).map fun lo =>
        ((hi ||| lo) &&& mask).toInt
    else .ok (ireg &&& mask).toInt

/-- `std_numeric_rotr`, numeric.cpp:322-344. -/
def rotr (m x n : Int) : Res Int :=
  if m < 0 ∨ m > 64 then .throw
  else if m = 0 then .ok 0
  else (shl64 2 (m - 1)).bind fun top =>
    let ireg := BitVec.ofInt 64 x
    let mask := top - 1
    let sh := n.tmod m
    if sh ≠ 0 then
      let sh := sh + signMask sh m
      (shr64 (ireg &&& mask) sh).bind fun lo => (shl64 ireg (m - sh)).map fun hi =>
        ((lo ||| hi) &&& mask).toInt
    else .ok (ireg &&& mask).toInt

/-- `store_le` for an unsigned integer of `w` bytes, rocket/fwd.hpp:618-631 (2 bytes), 648-661 (4 bytes)
and 678-691 (8 bytes), on a little-endian host: the bytes from the least significant one. -/
def storeLE : Nat → Nat → Bytes
  | 0, _ => []
  | w + 1, v => UInt8.ofNat v :: storeLE w (v / 256)

/-- `store_be`, rocket/fwd.hpp:603-616, 633-646, 663-676: the bytes are swapped first. -/
def storeBE (w v : Nat) : Bytes := (storeLE w v).reverse

/-- `load_le`, rocket/fwd.hpp:518-533, 552-567, 586-601. -/
def loadLE : Bytes → Nat
  | [] => 0
  | b :: bs => b.toNat + 256 * loadLE bs

/-- `load_be`, rocket/fwd.hpp:501-516, 535-550, 569-584. -/
def loadBE (s : Bytes) : Nat := loadLE s.reverse

/-- `static_cast<uintN_t>(value)` for a `w`-byte type, numeric.cpp:540, 561, 572, ... -/
def castU (w : Nat) (value : Int) : Nat := (value % 2 ^ (8 * w)).toNat

/-- `static_cast<intN_t>(value)` of an unsigned `w`-byte value, numeric.cpp:551, 588, ... -/
def castS (w : Nat) (value : Nat) : Int :=
  if value < 2 ^ (8 * w) / 2 then value else (value : Int) - 2 ^ (8 * w)

/-- `std_numeric_pack_iNN{be,le}` for arrays, numeric.cpp:533-544 (`w = 1`), 565-576 and 601-612
(`w = 2`), 637-648 and 673-684 (`w = 4`), 709-720 and 745-756 (`w = 8`); `store` is `storeBE` or
`storeLE`.  Simplified: the elements are integers already (`as_integer` throws for other values). -/
def pack (store : Nat → Nat → Bytes) (w : Nat) (values : List Int) : Bytes :=
  values.foldl (fun text value => text ++ store w (castU w value)) []

/-- The loop of the `unpack` functions, e.g. numeric.cpp:586-589; `text` is what follows `off`. -/
def unpackLoop (load : Bytes → Nat) (w : Nat) (values : List Int) (text : Bytes) : Res (List Int) :=
  if text = [] then .ok values
  else if 0 < w ∧ w ≤ text.length then
    unpackLoop load w (values ++ [castS w (load (text.take w))]) (text.drop w)
  else .ub
termination_by text.length
decreasing_by simp; omega

/-- `std_numeric_unpack_iNN{be,le}`, numeric.cpp:545-555, 578-592, 614-628, 650-664, 686-700, 722-736,
758-772. -/
def unpack (load : Bytes → Nat) (w : Nat) (text : Bytes) : Res (List Int) :=
  if text.length % w ≠ 0 then .throw else unpackLoop load w [] text

/-- `Random_Engine::randctx`, runtime/random_engine.hpp:24-32. -/
structure Engine where
  randcnt : Nat
  randrsl : List (BitVec 32)
  randmem : List (BitVec 32)
  randa : BitVec 32
  randb : BitVec 32
  randc : BitVec 32

/-- The argument `mix` of the four `rngstep`s of an iteration,
src/runtime/random_engine.cpp:55-58 and 62-65. -/
def mix (i : Nat) (a : BitVec 32) : BitVec 32 :=
  if i % 4 = 0 then a <<< 13
  else if i % 4 = 1 then a >>> 6
  else if i % 4 = 2 then a <<< 2
  else a >>> 16

/-- `ind(mm,x)`, src/runtime/random_engine.cpp:41: the word at the byte offset `x & (255 << 2)`. -/
def ind (mm : List (BitVec 32)) (x : BitVec 32) : Res (BitVec 32) :=
  match mm[(x &&& 0x3FC).toNat / 4]? with
  | some w => .ok w
  | none => .ub

/-- `rngstep`, src/runtime/random_engine.cpp:42-48, the `i`th one: `m` and `r` are at `i`, `m2` at
`i + 128` in the first loop (lines 53-59) and at `i - 128` in the second one (lines 60-66).  The engine
holds `a` and `b` in `randa` and `randb`. -/
def rngstep (i : Nat) (g : Engine) : Res Engine :=
  match g.randmem[i]?, g.randmem[if i < 128 then i + 128 else i - 128]? with
  | some x, some w =>
    let a := (g.randa ^^^ mix i g.randa) + w
    (ind g.randmem x).bind fun u =>
      let y := u + a + g.randb
      let mem := g.randmem.set i y
      (ind mem (y >>> 8)).bind fun v =>
        let b := v + x
        if i < g.randrsl.length then
          .ok { g with randmem := mem, randrsl := g.randrsl.set i b, randa := a, randb := b }
        else .ub
  | _, _ => .ub

/-- The two loops of `do_isaac`, src/runtime/random_engine.cpp:53-66, with `k` steps left. -/
def isaacLoop : Nat → Engine → Res Engine
  | 0, g => .ok g
  | k + 1, g => (rngstep (255 - k) g).bind fun g => isaacLoop k g

/-- `Random_Engine::do_isaac`, src/runtime/random_engine.cpp:28-69. -/
def isaac (g : Engine) : Res Engine :=
  isaacLoop 256 { g with randc := g.randc + 1, randb := g.randb + (g.randc + 1) }

/-- `Random_Engine::bump`, runtime/random_engine.hpp:56-69.  An index out of the array and the failed
assertion are undefined. -/
def bump (g : Engine) : Res (BitVec 32 × Engine) :=
  (if g.randcnt = 0 then (isaac g).map fun g => { g with randcnt := 256 } else .ok g).bind fun g =>
    let t := g.randcnt - 1
    if t < 256 then
      match g.randrsl[t]? with
      | some r => .ok (r, { g with randcnt := t })
      | none => .ub
    else .ub

/-- The integer register of `std_numeric_random`, numeric.cpp:253-256: two outputs of the engine are
combined to a 64-bit integer. -/
def randomBits (g : Engine) : Res (BitVec 64 × Engine) :=
  (bump g).bind fun (a, g) => (bump g).bind fun (b, g) =>
    .ok ((a.setWidth 64 <<< 21) ^^^ b.setWidth 64, g)

end Asteria.Numeric
