import Verif.Model.Basic

/-!
# Model of the string and array operators in /repo/asteria/src/runtime/air_node.cpp

Strings are lists of bytes, arrays are lists of an arbitrary element type `α`; `fill` is the element
used for extension (`'\0'` for strings, a null value for arrays).  `maxLen` stands for `max_size()`
of the container: growing past it throws (`length_error`).  Memory exhaustion is not modelled.
-/

namespace Asteria.SeqOps

/-- `container.append(n, fill)`: throws past the maximum size (rocket/cow_string.hpp and
rocket/cow_vector.hpp `append(size_type n, …)`, cow_vector.hpp:480-502). -/
def appendN {α} (maxLen : Nat) (val : List α) (n : Nat) (fill : α) : Res (List α) :=
  if val.length + n ≤ maxLen then .ok (val ++ List.replicate n fill) else .throw

/-- The loop `for(it, mc; …; ++it, ++mc) *it = *it OP *mc` over two strings of which the *second*
ends the loop (air_node.cpp:3590-3591, 3637-3638), or the *first* (3545-3547) when it is not longer. -/
def zipInto (f : UInt8 → UInt8 → UInt8) : Bytes → Bytes → Bytes
  | v :: vs, m :: ms => f v m :: zipInto f vs ms
  | vs, _ => vs

/-- `xop_andb` on strings, air_node.cpp:3539-3548. -/
def andStr (val mask : Bytes) : Bytes :=
  let val := if val.length > mask.length then val.take mask.length else val
  zipInto (· &&& ·) val mask

/-- `xop_orb` on strings, air_node.cpp:3586-3595. -/
def orStr (maxLen : Nat) (val mask : Bytes) : Res Bytes :=
  (if val.length < mask.length then appendN maxLen val (mask.length - val.length) 0
   else .ok val).map fun val => zipInto (· ||| ·) val mask

/-- `xop_xorb` on strings, air_node.cpp:3633-3642. -/
def xorStr (maxLen : Nat) (val mask : Bytes) : Res Bytes :=
  (if val.length < mask.length then appendN maxLen val (mask.length - val.length) 0
   else .ok val).map fun val => zipInto (· ^^^ ·) val mask

/-- `xop_notb` on a string, air_node.cpp:2438-2443. -/
def notStr (val : Bytes) : Bytes := val.map (~~~ ·)

/-- `clamp_cast<size_t>(n, 0, hi)` (rocket/fwd.hpp:449-457) for an `int64_t` `n`. -/
def clampN (n : Int) (hi : Nat) : Nat := (max 0 (min n hi)).toNat

/-- `PTRDIFF_MAX` (64-bit target), used at air_node.cpp:4009, 4015. -/
def ptrdiffMax : Nat := 2 ^ 63 - 1

/-- `xop_sll` on a string or array, air_node.cpp:3881-3905. -/
def sllSeq {α} (maxLen : Nat) (fill : α) (val : List α) (rhs : Int) : Res (List α) :=
  if rhs < 0 then .throw
  else
    let n := clampN rhs val.length
    appendN maxLen (val.drop n) n fill

/-- `xop_srl` on a string or array, air_node.cpp:3937-3961. -/
def srlSeq {α} (maxLen : Nat) (fill : α) (val : List α) (rhs : Int) : Res (List α) :=
  if rhs < 0 then .throw
  else
    let n := clampN rhs val.length
    let rest := val.take (val.length - n)
    if rest.length + n ≤ maxLen then .ok (List.replicate n fill ++ rest) else .throw

/-- `xop_sla` on a string or array, air_node.cpp:3993-4017. -/
def slaSeq {α} (maxLen : Nat) (fill : α) (val : List α) (rhs : Int) : Res (List α) :=
  if rhs < 0 then .throw else appendN maxLen val (clampN rhs ptrdiffMax) fill

/-- `xop_sra` on a string or array, air_node.cpp:4049-4070. -/
def sraSeq {α} (val : List α) (rhs : Int) : Res (List α) :=
  if rhs < 0 then .throw else .ok (val.take (val.length - clampN rhs val.length))

/-- The doubling loop `while(dst.size() * 2 <= ntotal) dst.append(dst.begin(), dst.end());`,
air_node.cpp:191-192.  The C++ loop would not terminate for an empty `dst`; it is only reached with
a non-empty one (line 185), so the model stops there. -/
def dupLoop {α} (ntotal : Nat) (dst : List α) : List α :=
  if 0 < dst.length ∧ dst.length * 2 ≤ ntotal then dupLoop ntotal (dst ++ dst) else dst
termination_by ntotal + 1 - dst.length
decreasing_by simp only [List.length_append]; omega

/-- `do_duplicate_sequence`, air_node.cpp:170-195.  `ssize() * count` is exact (`mulm` with overflow
check).  `reserve(ntotal)` throws past `maxLen`. -/
def duplicate {α} (maxLen : Nat) (src : List α) (count : Int) : Res (List α) :=
  if count < 0 then .throw
  else
    let rlen := (src.length : Int) * count
    if rlen > 2 ^ 63 - 1 then .throw
    else if rlen = 0 then .ok []
    else
      let ntotal := rlen.toNat
      if ntotal > maxLen then .throw
      else
        let dst := dupLoop ntotal src
        .ok (dst ++ dst.take (ntotal - dst.length))

end Asteria.SeqOps
