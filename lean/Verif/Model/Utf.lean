import Verif.Model.Basic

/-!
# Model of the Unicode conversions in /repo/asteria/src/utils.cpp and library/string.cpp

Code points (`char32_t`) and UTF-16 units (`char16_t`) are natural numbers below `2^32` and `2^16`;
bytes are `UInt8`.  Shifts on `char32_t` are truncated to 32 bits.
-/

namespace Asteria.Utf

/-- `((cp >= 0xD800U) && (cp < 0xE000U)) || (cp >= 0x110000U)`, utils.cpp:210, 278, 327. -/
def notScalar (cp : Nat) : Bool := (0xD800 ≤ cp && cp < 0xE000) || 0x110000 ≤ cp

/-- `do_utf8_encode_one_(sh, m)`, utils.cpp:213-214: `(char) ((~m << 1) | (cp >> sh & m))` computed in
32 bits and truncated to a byte. -/
def encOne (cp sh m : Nat) : UInt8 :=
  UInt8.ofNat ((((2 ^ 32 - 1 - m) <<< 1) % 2 ^ 32) ||| ((cp >>> sh) &&& m))

/-- `utf8_encode`, utils.cpp:201-247: the bytes appended, or `none` when `false` is returned. -/
def utf8Encode (cp : Nat) : Option Bytes :=
  if cp < 0x80 then some [UInt8.ofNat cp]
  else if notScalar cp then none
  else if cp < 0x800 then some [encOne cp 6 0x1F, encOne cp 0 0x3F]
  else if cp < 0x10000 then some [encOne cp 12 0x0F, encOne cp 6 0x3F, encOne cp 0 0x3F]
  else some [encOne cp 18 0x07, encOne cp 12 0x3F, encOne cp 6 0x3F, encOne cp 0 0x3F]

/-- The loop over trailing code units, utils.cpp:272-276 (the condition is transcribed literally:
`>= 0x80 || < 0xC0`).  `n` units remain to be read from `mem`; reading past `mem` is undefined. -/
def utf8Trail (cp : Nat) : Nat → Bytes → Res (Option Nat)
  | 0, _ => .ok (some cp)
  | _ + 1, [] => .ub
  | n + 1, b :: tl =>
    if b.toNat ≥ 0x80 ∨ b.toNat < 0xC0 then
      utf8Trail (((cp <<< 6) % 2 ^ 32) ||| (b.toNat &&& 0x3F)) n tl
    else .ok none

/-- `utf8_decode(cp, pos, avail)`, utils.cpp:250-285: `mem` is the memory at `pos`.  Returns the code
point and the number of bytes consumed, or `none` when `false` is returned (the position of the
cursor after a failure is not represented). -/
def utf8Decode (mem : Bytes) (avail : Nat) : Res (Option (Nat × Nat)) :=
  if avail = 0 then .ok none
  else
    match mem with
    | [] => .ub
    | b :: tl =>
      let cp := b.toNat
      if cp < 0x80 then .ok (some (cp, 1))
      else if cp < 0xC0 ∨ cp ≥ 0xF8 then .ok none
      else
        let u8len := 2 + (if cp ≥ 0xE0 then 1 else 0) + (if cp ≥ 0xF0 then 1 else 0)
        if u8len > avail then .ok none
        else
          (utf8Trail (cp &&& (0xFF >>> u8len)) (u8len - 1) tl).map fun
            | none => none
            | some cp =>
              if notScalar cp then none
              else if 1 + (if cp ≥ 0x80 then 1 else 0) + (if cp ≥ 0x800 then 1 else 0)
                  + (if cp ≥ 0x10000 then 1 else 0) ≠ u8len then none
              else some (cp, u8len)

/-- `utf8_validate`, utils.cpp:304-321.  A successful decode without progress would loop forever; it
is mapped to `ub`. -/
def utf8Validate (str : Bytes) : Res Bool :=
  if str.length = 0 then .ok true
  else
    match utf8Decode str str.length with
    | .ok (some (_, n)) =>
      if 0 < n then utf8Validate (str.drop n) else .ub
    | .ok none => .ok false
    | .throw => .throw
    | .ub => .ub
termination_by str.length
decreasing_by simp only [List.length_drop]; omega

/-- `clamp_cast<char32_t>(value, -1, INT32_MAX)`, string.cpp:1597, 1616 (fwd.hpp:449-457): `-1`
converts to `0xFFFFFFFF`. -/
def clampCodePoint (v : Int) : Nat :=
  if v < -1 then 0xFFFFFFFF
  else if 2 ^ 31 - 1 < v then 2 ^ 31 - 1
  else (v % 2 ^ 32).toNat

/-- One step of `std_string_utf8_encode`, string.cpp:1595-1604, 1614-1623: the bytes appended for one
code point.  `permissive = true` is the only value that enables substitution. -/
def utf8EncodeOne (permissive : Bool) (value : Int) : Res Bytes :=
  match utf8Encode (clampCodePoint value) with
  | some bs => .ok bs
  | none => if permissive then .ok ((utf8Encode 0xFFFD).getD []) else .throw

/-- `std_string_utf8_encode(V_array, permissive)`, string.cpp:1609-1626, on an array of integers
(`as_integer()` of other values throws; not represented). -/
def utf8EncodeAll (permissive : Bool) : List Int → Res Bytes
  | [] => .ok []
  | v :: vs => (utf8EncodeOne permissive v).bind fun bs => (utf8EncodeAll permissive vs).map (bs ++ ·)

/-- `std_string_utf8_decode(text, permissive)`, string.cpp:1629-1648; `text` is the part of the string
from `offset` on.  A failed decode leaves `offset` unchanged (utils.cpp:295-296), the permissive
branch takes one byte. -/
def utf8DecodeAll (permissive : Bool) (text : Bytes) : Res (List Int) :=
  match text with
  | [] => .ok []
  | b :: tl =>
    match utf8Decode (b :: tl) (tl.length + 1) with
    | .ok (some (cp, n)) =>
      if 0 < n then (utf8DecodeAll permissive ((b :: tl).drop n)).map ((cp : Int) :: ·) else .ub
    | .ok none =>
      if permissive then (utf8DecodeAll permissive tl).map (((b.toNat &&& 0xFF : Nat) : Int) :: ·) else .throw
    | .throw => .throw
    | .ub => .ub
termination_by text.length
decreasing_by
  · simp only [List.length_drop, List.length_cons]; omega
  · simp

/-- `utf16_encode`, utils.cpp:324-353. -/
def utf16Encode (cp : Nat) : Option (List Nat) :=
  if notScalar cp then none
  else if cp < 0x10000 then some [cp]
  else some [(0xD800 + ((cp - 0x10000) >>> 10)) % 2 ^ 16, (0xDC00 + (cp &&& 0x3FF)) % 2 ^ 16]

/-- `utf16_decode`, utils.cpp:356-380. -/
def utf16Decode (mem : List Nat) (avail : Nat) : Res (Option (Nat × Nat)) :=
  if avail = 0 then .ok none
  else
    match mem with
    | [] => .ub
    | cp :: tl =>
      if cp < 0xD800 ∨ cp ≥ 0xE000 then .ok (some (cp, 1))
      else if cp ≥ 0xDC00 then .ok none
      else if avail < 2 then .ok none
      else
        match tl with
        | [] => .ub
        | cu :: _ =>
          if cu < 0xDC00 ∨ cu ≥ 0xE000 then .ok none
          else .ok (some (0x10000 + ((cp &&& 0x3FF) <<< 10) + (cu &&& 0x3FF), 2))

/-- `utf16_validate`, utils.cpp:397-416 (same shape as `utf8_validate`). -/
def utf16Validate (str : List Nat) : Res Bool :=
  if str.length = 0 then .ok true
  else
    match utf16Decode str str.length with
    | .ok (some (_, n)) =>
      if 0 < n then utf16Validate (str.drop n) else .ub
    | .ok none => .ok false
    | .throw => .throw
    | .ub => .ub
termination_by str.length
decreasing_by simp only [List.length_drop]; omega

end Asteria.Utf
