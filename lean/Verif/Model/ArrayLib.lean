import Verif.Model.Slice

/-!
# Model of /repo/asteria/src/library/array.cpp: searching, sorting, shuffling, rotating

Elements have an arbitrary type; `compare_partial` and user-defined comparators are a parameter
`cmp : α → α → Cmp`.  A user-defined comparator is assumed to be a pure function; one that throws is
represented by `unordered`, which makes `do_compare_total` throw as well.
-/

namespace Asteria.ArrayLib
open Asteria.Slice

/-- `enum Compare`, /repo/asteria/fwd.hpp:717-723. -/
inductive Cmp where
  | unordered | less | equal | greater
deriving DecidableEq, Repr

/-- `do_compare_total`, array.cpp:87-102, and `Value::compare_total`, /repo/asteria/value.hpp:415-423:
an unordered result is turned into an exception. -/
def compareTotal (cmp : α → α → Cmp) (a b : α) : Res Cmp :=
  match cmp a b with
  | .unordered => .throw
  | c => .ok c

/-- `do_find_opt`, array.cpp:62-85, on the range `[b, e)`; `test` is `target(x)` or `x == target`. -/
def findIn (data : List α) (test : α → Bool) (m : Bool) (b e : Nat) : Res (Option Nat) :=
  if b < e then
    match data[b]? with
    | none => .ub
    | some x => if test x = m then .ok (some b) else findIn data test m (b + 1) e
  else .ok none
termination_by e - b

/-- `std_array_find` (`m = true`) and `std_array_find_not` (`m = false`), array.cpp:287-305. -/
def find (m : Bool) (data : List α) (from? length : Option Int) (test : α → Bool) : Res (Option Int) :=
  (doSlice data.length from? length).bind fun (b, e) =>
    (findIn data test m b e).map fun q => q.map fun i => (i : Int)

/-- `do_find_opt` through reverse iterators: the range `[b, e)` from its end; the result `i` is such
that `*it` is `data[i]`, i.e. `data.rend() - it - 1 = i`. -/
def rfindIn (data : List α) (test : α → Bool) (m : Bool) (b e : Nat) : Res (Option Nat) :=
  if b < e then
    match data[e - 1]? with
    | none => .ub
    | some x => if test x = m then .ok (some (e - 1)) else rfindIn data test m b (e - 1)
  else .ok none
termination_by e - b

/-- `std_array_rfind`, `std_array_rfind_not`, array.cpp:307-327. -/
def rfind (m : Bool) (data : List α) (from? length : Option Int) (test : α → Bool) : Res (Option Int) :=
  (doSlice data.length from? length).bind fun (b, e) =>
    (rfindIn data test m b e).map fun q => q.map fun i => (i : Int)

/-- The loop of `std_array_count`, array.cpp:336-339, with the counter in `n`.  A match before the
beginning would not terminate; it is mapped to `ub`. -/
def countLoop (m : Bool) (data : List α) (test : α → Bool) (e b n : Nat) : Res Nat :=
  match findIn data test m b e with
  | .ok none => .ok n
  | .ok (some i) => if b ≤ i ∧ i < e then countLoop m data test e (i + 1) (n + 1) else .ub
  | .throw => .throw
  | .ub => .ub
termination_by e - b

/-- `std_array_count`, `std_array_count_not`, array.cpp:329-355. -/
def count (m : Bool) (data : List α) (from? length : Option Int) (test : α → Bool) : Res Nat :=
  (doSlice data.length from? length).bind fun (b, e) => countLoop m data test e b 0

/-- The loop of `std_array_exclude`, array.cpp:364-367; `dist` is the number of elements that follow
the range, so that `range.second` is `data.size() - dist`. -/
def excludeLoop (m : Bool) (test : α → Bool) (dist : Nat) (data : List α) (b : Nat) : Res (List α) :=
  match findIn data test m b (data.length - dist) with
  | .ok none => .ok data
  | .ok (some i) =>
    if i < data.length then excludeLoop m test dist (data.eraseIdx i) i else .ub
  | .throw => .throw
  | .ub => .ub
termination_by data.length
decreasing_by rw [List.length_eraseIdx]; split <;> omega

/-- `std_array_exclude`, `std_array_exclude_not`, array.cpp:357-383. -/
def exclude (m : Bool) (data : List α) (from? length : Option Int) (test : α → Bool) : Res (List α) :=
  (doSlice data.length from? length).bind fun (b, e) => excludeLoop m test (data.length - e) data b

/-- The loop of `std_array_is_sorted`, array.cpp:398-400; `prev` is `pos[-1]`. -/
def isSortedLoop (cmp : α → α → Cmp) (prev : α) : List α → Res Bool
  | [] => .ok true
  | x :: xs => (compareTotal cmp prev x).bind fun c =>
      if c = .greater then .ok false else isSortedLoop cmp x xs

/-- `std_array_is_sorted`, array.cpp:385-403. -/
def isSorted (cmp : α → α → Cmp) : List α → Res Bool
  | [] => .ok true
  | x :: xs => (compareTotal cmp x x).bind fun c =>
      if c ≠ .equal then .ok false else isSortedLoop cmp x xs

/-- `do_bsearch`, array.cpp:104-129, on `[b, e)`. -/
def bsearch (cmp : α → α → Cmp) (data : List α) (target : α) (b e : Nat) : Res (Nat × Bool) :=
  if b < e then
    let m := b + (e - b) / 2
    match data[m]? with
    | none => .ub
    | some x => (compareTotal cmp target x).bind fun c =>
        if c = .equal then .ok (m, true)
        else if c = .less then bsearch cmp data target b m
        else bsearch cmp data target (m + 1) e
  else .ok (b, false)
termination_by e - b

/-- `do_bound`, array.cpp:131-154, on `[b, e)`. -/
def bound (cmp : α → α → Cmp) (data : List α) (target : α) (pred : Cmp → Bool) (b e : Nat) : Res Nat :=
  if b < e then
    let m := b + (e - b) / 2
    match data[m]? with
    | none => .ub
    | some x => (compareTotal cmp target x).bind fun c =>
        if pred c then bound cmp data target pred b m
        else bound cmp data target pred (m + 1) e
  else .ok b
termination_by e - b

/-- `std_array_binary_search`, array.cpp:405-412. -/
def binarySearch (cmp : α → α → Cmp) (data : List α) (target : α) : Res (Option Nat) :=
  (bsearch cmp data target 0 data.length).map fun (i, f) => if f then some i else none

/-- `std_array_lower_bound`, array.cpp:414-422. -/
def lowerBound (cmp : α → α → Cmp) (data : List α) (target : α) : Res Nat :=
  bound cmp data target (· ≠ .greater) 0 data.length

/-- `std_array_upper_bound`, array.cpp:424-432. -/
def upperBound (cmp : α → α → Cmp) (data : List α) (target : α) : Res Nat :=
  bound cmp data target (· = .less) 0 data.length

/-- `std_array_equal_range`, array.cpp:434-445. -/
def equalRange (cmp : α → α → Cmp) (data : List α) (target : α) : Res (Nat × Int) :=
  (bsearch cmp data target 0 data.length).bind fun (p, _) =>
    (bound cmp data target (· ≠ .greater) 0 p).bind fun l =>
      (bound cmp data target (· = .less) p data.length).map fun u => (l, (u : Int) - l)

/-- The lambda `output_element` in `do_merge_blocks`, array.cpp:170-186.  `out` is what precedes `bout`
in the output array, reversed (so `bout[-1]` is its head). -/
def outputElement (cmp : α → α → Cmp) (unique : Bool) (out : List α) (x : α) : Res (List α) :=
  match unique, out with
  | true, y :: _ => (compareTotal cmp y x).bind fun c => if c = .equal then .ok out else .ok (x :: out)
  | _, _ => .ok (x :: out)

/-- The loops at array.cpp:223-226 and 230-233: the remaining elements are output. -/
def outputAll (cmp : α → α → Cmp) (unique : Bool) (out : List α) : List α → Res (List α)
  | [] => .ok out
  | x :: xs => (outputElement cmp unique out x).bind fun out => outputAll cmp unique out xs

/-- The loop at array.cpp:203-224: two non-empty blocks are merged.  The first block that is exhausted
ends the comparisons, and the other one (never empty then) is output.  An empty block at the beginning
would be read out of bounds. -/
def mergeTwo (cmp : α → α → Cmp) (unique : Bool) (out : List α) : List α → List α → Res (List α)
  | a :: as, b :: bs => (compareTotal cmp a b).bind fun c =>
      if c = .greater then
        (outputElement cmp unique out b).bind fun out =>
          if bs.isEmpty then outputAll cmp unique out (a :: as)
          else mergeTwo cmp unique out (a :: as) bs
      else
        (outputElement cmp unique out a).bind fun out =>
          if as.isEmpty then outputAll cmp unique out (b :: bs)
          else mergeTwo cmp unique out as (b :: bs)
  | _, _ => .ub
termination_by as bs => as.length + bs.length

/-- The main loop of `do_merge_blocks`, array.cpp:190-233; `input` is `[bin, ein)`. -/
def mergeLoop (cmp : α → α → Cmp) (unique : Bool) (bsize : Nat) (out input : List α) : Res (List α) :=
  if 0 < bsize ∧ bsize < input.length then
    (mergeTwo cmp unique out (input.take bsize) ((input.drop bsize).take bsize)).bind fun out =>
      mergeLoop cmp unique bsize out ((input.drop bsize).drop bsize)
  else outputAll cmp unique out input
termination_by input.length
decreasing_by simp only [List.length_drop]; omega

/-- `do_merge_blocks`, array.cpp:156-238: what is in the output array afterwards.  A failed assertion
is undefined behaviour.  Simplified: the output array is built as a list; the assertion that it is
large enough holds because both arrays have `data.size()` elements. -/
def mergeBlocks (cmp : α → α → Cmp) (unique : Bool) (input : List α) (bsize : Nat) : Res (List α) :=
  if 0 < bsize ∧ bsize ≤ input.length then
    (mergeLoop cmp unique bsize [] input).map List.reverse
  else .ub

/-- The loop of `std_array_sort`, array.cpp:461-466.  `bsize` doubles, so a size of 0 would not
terminate; the model stops there. -/
def sortLoop (cmp : α → α → Cmp) (bsize : Nat) (data : List α) (n : Nat) : Res (List α) :=
  if 0 < bsize ∧ bsize < n then
    (mergeBlocks cmp false data bsize).bind fun data => sortLoop cmp (bsize * 2) data n
  else .ok data
termination_by n - bsize

/-- `std_array_sort`, array.cpp:447-468.  (`data.ssize()` does not change, see `C18_permutation`.) -/
def sort (cmp : α → α → Cmp) (data : List α) : Res (List α) :=
  if data.length ≤ 1 then .ok data else sortLoop cmp 1 data data.length

/-- The loop of `std_array_usort`, array.cpp:484-489: the data and the final block size. -/
def usortLoop (cmp : α → α → Cmp) (bsize : Nat) (data : List α) (n : Nat) : Res (List α × Nat) :=
  if 0 < bsize ∧ bsize * 2 < n then
    (mergeBlocks cmp false data bsize).bind fun data => usortLoop cmp (bsize * 2) data n
  else .ok (data, bsize)
termination_by n - bsize

/-- `std_array_usort`, array.cpp:470-492. -/
def usort (cmp : α → α → Cmp) (data : List α) : Res (List α) :=
  if data.length ≤ 1 then .ok data
  else (usortLoop cmp 1 data data.length).bind fun (data, bsize) => mergeBlocks cmp true data bsize

/-- `std_array_ksort`, array.cpp:494-527: pairs are sorted by key.  An object is its list of pairs, in
the order of iteration. -/
def ksort (cmp : κ → κ → Cmp) (object : List (κ × β)) : Res (List (κ × β)) :=
  sort (fun x y => cmp x.1 y.1) object

/-- The loop of `std_array_max_of` (`worse = less`) and `std_array_min_of` (`worse = greater`),
array.cpp:535-538, 548-551; `isNull` is `Value::is_null`. -/
def extremeLoop (cmp : α → α → Cmp) (isNull : α → Bool) (worse : Cmp) (result : α) : List α → Res α
  | [] => .ok result
  | r :: rs =>
    if isNull result then extremeLoop cmp isNull worse r rs
    else if isNull r then extremeLoop cmp isNull worse result rs
    else (compareTotal cmp result r).bind fun c =>
      extremeLoop cmp isNull worse (if c = worse then r else result) rs

/-- `std_array_max_of`, array.cpp:529-540. -/
def maxOf (cmp : α → α → Cmp) (isNull : α → Bool) (null : α) (data : List α) : Res α :=
  extremeLoop cmp isNull .less null data

/-- `std_array_min_of`, array.cpp:542-553. -/
def minOf (cmp : α → α → Cmp) (isNull : α → Bool) (null : α) (data : List α) : Res α :=
  extremeLoop cmp isNull .greater null data

/-- `swap(ptr[i], ptr[j])`: undefined out of bounds. -/
def swapAt (l : List α) (i j : Nat) : Res (List α) :=
  match l[i]?, l[j]? with
  | some a, some b => .ok ((l.set i b).set j a)
  | _, _ => .ub

/-- `probe_origin`, /repo/asteria/rocket/xhashtable.hpp:11-19, in 64-bit arithmetic. -/
def probeOrigin (size hval : Nat) : Nat :=
  (hval * 0x9E3779B9 % 2 ^ 64) % 0x100000000 * size % 2 ^ 64 / 0x100000000

/-- One step of the generator in `std_array_shuffle`, array.cpp:606-608. -/
def lcgStep (lcg : Nat) : Nat := ((lcg * 0x5DEECE66D % 2 ^ 64 + 0xB) % 2 ^ 64) % 2 ^ 48

/-- The loop of `std_array_shuffle`, array.cpp:602-615; `rem` is `data.size() - k`. -/
def shuffleLoop (lcg : Nat) (k : Nat) (data : List α) : Nat → Res (List α)
  | 0 => .ok data
  | rem + 1 =>
    let lcg := lcgStep lcg
    let r := probeOrigin data.length (lcg / 2 ^ 16)
    if r ≠ k then (swapAt data r k).bind fun data => shuffleLoop lcg (k + 1) data rem
    else shuffleLoop lcg (k + 1) data rem

/-- `std_array_shuffle`, array.cpp:585-617; `lcg` is the seed converted to `uint64_t`, or two outputs of
the random engine. -/
def shuffle (data : List α) (lcg : Nat) : Res (List α) :=
  if data.length ≤ 1 then .ok data else shuffleLoop lcg 0 data data.length

/-- The loop `do swap(ptr[bot++], ptr[brk++]); while(bot != stp)`, /repo/asteria/rocket/fwd.hpp:915-917,
where `stp - bot` is the count; also used for the loop at 932-934, where `end - brk` is. -/
def swapRun (bot brk : Nat) (l : List α) : Nat → Res (List α)
  | 0 => .ok l
  | n + 1 => (swapAt l bot brk).bind fun l => swapRun (bot + 1) (brk + 1) l n

/-- The loop of `rotate`, fwd.hpp:904-957.  `brk = stp` whenever control is at its head, so one
variable represents both.  The `do` loops execute at least once; the counts are positive because
neither side is empty (an empty one would not terminate and is mapped to `ub`). -/
def rotateLoop (e bot brk : Nat) (l : List α) : Res (List α) :=
  if bot < brk ∧ brk < e then
    if brk - bot < e - brk then
      (swapRun bot brk l (brk - bot)).bind fun l => rotateLoop e brk (brk + (brk - bot)) l
    else if e - brk < brk - bot then
      (swapRun bot brk l (e - brk)).bind fun l => rotateLoop e (bot + (e - brk)) brk l
    else swapRun bot brk l (brk - bot)
  else .ub
termination_by e - bot

/-- `rotate`, fwd.hpp:887-958. -/
def rotateRange (l : List α) (b seek e : Nat) : Res (List α) :=
  if seek - b = 0 then .ok l
  else if e - seek = 0 then .ok l
  else rotateLoop e b seek l

/-- `std_array_rotate`, array.cpp:619-634.  `%` truncates; `~seek >> 63` is -1 if `seek >= 0` and 0
otherwise. -/
def rotate (data : List α) (shift : Int) : Res (List α) :=
  if data.length ≤ 1 then .ok data
  else
    let seek := shift.tmod data.length
    if seek = 0 then .ok data
    else
      let seek := (if 0 ≤ seek then (data.length : Int) else 0) - seek
      rotateRange data 0 seek.toNat data.length

end Asteria.ArrayLib
