import Verif.Model.Basic

/-!
# Model of `do_slice` and slicing in /repo/asteria/src/library/string.cpp and array.cpp

Only the length of the text matters to `do_slice`; iterators are offsets from `begin()`.  An iterator
outside `[begin(), end()]` and a signed 64-bit overflow are undefined behaviour.  `array.cpp:15-60`
has the same text with `V_array` for `V_string`.
-/

namespace Asteria.Slice

/-- `int64_t` addition: undefined on overflow (string.cpp:44, 59). -/
def addI64 (a b : Int) : Res Int :=
  if -2 ^ 63 ≤ a + b ∧ a + b ≤ 2 ^ 63 - 1 then .ok (a + b) else .ub

/-- Iterator `begin() + off` (string.cpp:25, 40, 46): undefined outside `[0, slen]`. -/
def iter (slen : Nat) (off : Int) : Res Nat :=
  if 0 ≤ off ∧ off ≤ slen then .ok off.toNat else .ub

/-- `do_slice(text, tbegin, length)`, string.cpp:15-26, array.cpp:15-26. -/
def doSliceFrom (slen : Nat) (tbegin : Nat) (length : Option Int) : Res (Nat × Nat) :=
  match length with
  | none => .ok (tbegin, slen)
  | some l =>
    if l ≥ (slen : Int) - tbegin then .ok (tbegin, slen)
    else if l ≤ 0 then .ok (tbegin, tbegin)
    else do
      let e ← iter slen (tbegin + l)
      pure (tbegin, e)

/-- `do_slice(text, from, length)`, string.cpp:28-60, array.cpp:28-60. -/
def doSlice (slen : Nat) (from? length : Option Int) : Res (Nat × Nat) :=
  let sfrom := from?.getD 0
  if sfrom ≥ slen then .ok (slen, slen)
  else if sfrom ≥ 0 then (iter slen sfrom).bind fun b => doSliceFrom slen b length
  else
    (addI64 sfrom slen).bind fun rfrom =>
      if rfrom ≥ 0 then (iter slen rfrom).bind fun b => doSliceFrom slen b length
      else
        match length with
        | none => .ok (0, slen)
        | some l =>
          if l ≤ 0 then .ok (0, 0)
          else (addI64 rfrom l).bind fun n => doSliceFrom slen 0 (some n)

/-- The elements between two iterators, `V_string(first, last)` (e.g. string.cpp:751). -/
def sub {α} (l : List α) (b e : Nat) : List α := (l.take e).drop b

/-- `std_string_slice`, string.cpp:744-753; `std_array_slice`, array.cpp:242-251. -/
def slice {α} (text : List α) (from? length : Option Int) : Res (List α) :=
  (doSlice text.length from? length).map fun (b, e) =>
    if e - b ≠ text.length then sub text b e else text

/-- `std_string_replace_slice`, string.cpp:755-766.  `replace` takes the iterator range out and
puts the other range in (rocket/cow_string.hpp `replace`). -/
def replaceSlice {α} (text : List α) (from? length : Option Int) (replacement : List α)
    (rfrom rlength : Option Int) : Res (List α) :=
  (doSlice text.length from? length).bind fun (b, e) =>
    (doSlice replacement.length (some (rfrom.getD 0)) rlength).map fun (rb, re) =>
      sub text 0 b ++ sub replacement rb re ++ sub text e text.length

/-- `std::move(first, last, dst)` of `xs` to the position `off` of `l` (array.cpp:269-271, 277-279):
element-wise assignment. -/
def overwrite {α} (l : List α) (off : Nat) : List α → List α
  | [] => l
  | x :: xs => overwrite (l.set off x) (off + 1) xs

/-- `std_array_replace_slice`, array.cpp:253-285. -/
def arrayReplaceSlice {α} (data : List α) (from? length : Option Int) (replacement : List α)
    (rfrom rlength : Option Int) : Res (List α) :=
  (doSlice data.length from? length).bind fun (b, e) =>
    (doSlice replacement.length (some (rfrom.getD 0)) rlength).map fun (rb, re) =>
      let dist := e - b
      let repDist := re - rb
      if dist ≥ repDist then
        let res := overwrite data b (sub replacement rb re)
        -- erase [b + repDist, b + dist)
        res.take (b + repDist) ++ res.drop (b + dist)
      else
        let res := overwrite data b (sub replacement rb (rb + dist))
        -- insert before b + dist
        res.take (b + dist) ++ sub replacement (rb + dist) (rb + repDist) ++ res.drop (b + dist)

end Asteria.Slice
