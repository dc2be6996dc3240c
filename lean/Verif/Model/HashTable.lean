import Verif.Model.Basic

/-!
# Open addressing

The probing functions shared by `Reference_Dictionary`, `Variable_HashMap` and `cow_hashmap`.
-/

namespace Asteria.Hash

/-- The buckets of a table: `none` is an empty bucket (`operator bool` is false). -/
abbrev Table (K V : Type) := List (Option (K × V))

/-- `probe_origin`, /repo/asteria/rocket/xhashtable.hpp:11-19.  All arithmetic is on 64-bit `size_t`. -/
def probeOrigin (size hval : Nat) : Nat :=
  hval * 0x9E3779B9 % 2 ^ 64 % 2 ^ 32 * size % 2 ^ 64 / 2 ^ 32

/-- The indices visited by `linear_probe`: from `from_` to `size`, then from `0` to `to`
(xhashtable.hpp:27-34). -/
def probeOrder (to from_ size : Nat) : List Nat :=
  List.range' from_ (size - from_) ++ List.range to

/-- The body of the two loops of `linear_probe`, xhashtable.hpp:28-30 and 32-34: stop on an empty bucket
or a match.  Reading outside of the table is undefined behaviour. -/
def scan {α : Type} (data : List (Option α)) (pred : α → Bool) : List Nat → Res (Option Nat)
  | [] => .ok none
  | k :: ks =>
    match data[k]? with
    | none => .ub
    | some none => .ok (some k)
    | some (some e) => if pred e then .ok (some k) else scan data pred ks

/-- `linear_probe`, xhashtable.hpp:21-36, with a predictor that does not modify the table.  The result is
the index of the bucket, or `none` for the null pointer. -/
def linearProbe {α : Type} (data : List (Option α)) (to from_ : Nat) (pred : α → Bool) :
    Res (Option Nat) :=
  scan data pred (probeOrder to from_ data.length)

/-- Look for a new bucket for an element whose uniqueness is implied, and dereference the result:
/repo/asteria/src/llds/reference_dictionary.cpp:41-43 and 187-190,
/repo/asteria/src/llds/variable_hashmap.cpp:41-43, 155-158 and 215-218,
/repo/asteria/rocket/details/cow_hashmap.ipp:231-236.  A null pointer would fail the assertion. -/
def spare {K V : Type} (hash : K → Nat) (t : Table K V) (k : K) : Res Nat :=
  (linearProbe t (probeOrigin t.length (hash k)) (probeOrigin t.length (hash k)) fun _ => false).bind
    fun
    | none => .ub
    | some q => .ok q

/-- Find the bucket with a key or an empty one:
/repo/asteria/src/llds/reference_dictionary.cpp:97-106, 123-125 and 152-154,
/repo/asteria/src/llds/variable_hashmap.cpp:99-101 and 125-127,
/repo/asteria/rocket/details/cow_hashmap.ipp:588-595.  A null pointer is dereferenced or fails the
assertion.  Simplified: the comparison of keys by size, then address, then hash and bytes is equality of
keys, as equal strings have equal hashes. -/
def locate {K V : Type} [DecidableEq K] (hash : K → Nat) (t : Table K V) (k : K) : Res Nat :=
  (linearProbe t (probeOrigin t.length (hash k)) (probeOrigin t.length (hash k)) fun e => e.1 == k).bind
    fun
    | none => .ub
    | some q => .ok q

end Asteria.Hash
