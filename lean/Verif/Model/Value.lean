import Verif.Model.Double

/-!
# Values and their comparison

/repo/asteria/value.hpp, /repo/asteria/src/value.cpp
-/

namespace Asteria

/-- `Value`, /repo/asteria/value.hpp.  Simplified: opaque objects and functions are represented by
identifiers; integers are the mathematical integers (`Value.Valid` bounds them to `int64_t`); objects
are lists of pairs, the keys of which are distinct in a valid value. -/
inductive Value where
  | null
  | bool (b : Bool)
  | int (i : Int)
  | real (d : Dbl)
  | str (s : Bytes)
  | opaque (id : Nat)
  | func (id : Nat)
  | arr (l : List Value)
  | obj (l : List (Bytes × Value))

/-- `enum Compare`, /repo/asteria/fwd.hpp:717-723. -/
inductive Compare where
  | unordered
  | less
  | equal
  | greater
deriving DecidableEq, Repr

namespace Value

/-- `Value::compare_numeric_partial(V_integer)`, value.cpp:244-285.  `static_cast<V_integer>(oreal)` is
the integer `roundDown other` itself (`roundDown_range` shows that it is in range). -/
def compareNumericInt (v : Value) (other : Int) : Compare :=
  match v with
  | int value => if value < other then .less else if value > other then .greater else .equal
  | real value =>
    let oreal := Dbl.fin (roundDown other : ℤ)
    let otest := roundDown other
    if value.isless oreal then .less
    else if value.isgreater oreal then .greater
    else if value.isunordered oreal then .unordered
    else if otest ≠ other then .less
    else .equal
  | _ => .unordered

/-- `Value::compare_numeric_partial(V_real)`, value.cpp:287-330. -/
def compareNumericReal (v : Value) (other : Dbl) : Compare :=
  match v with
  | int value =>
    let vreal := Dbl.fin (roundDown value : ℤ)
    let vtest := roundDown value
    if vreal.isless other then .less
    else if vreal.isgreater other then .greater
    else if vreal.isunordered other then .unordered
    else if vtest ≠ value then .greater
    else .equal
  | real value =>
    if value.isless other then .less
    else if value.isgreater other then .greater
    else if value.isunordered other then .unordered
    else .equal
  | _ => .unordered

/-- The sign of `memcmp(lhs, rhs, len)` (C library): bytes are compared as `unsigned char`. -/
def memcmp (lhs rhs : Bytes) : Nat → Compare
  | 0 => .equal
  | n + 1 =>
    match lhs, rhs with
    | a :: lhs, b :: rhs => if a < b then .less else if b < a then .greater else memcmp lhs rhs n
    | _, _ => .equal

/-- The sign of `cow_string::compare`, rocket/cow_string.hpp:1946-1976, which is the `xmemcmp` with two
lengths, rocket/xstring.hpp:78-87. -/
def compareBytes (lhs rhs : Bytes) : Compare :=
  if lhs.length < rhs.length then if memcmp rhs lhs lhs.length = .less then .greater else .less
  else if lhs.length > rhs.length then if memcmp lhs rhs rhs.length = .less then .less else .greater
  else memcmp lhs rhs lhs.length

/-- The number of nodes of a value; it bounds the number of iterations of the loop of
`compare_partial`. -/
def size : Value → Nat
  | arr l => 1 + sizeList l
  | _ => 1
where
  /-- The sum over a list. -/
  sizeList : List Value → Nat
    | [] => 0
    | x :: xs => x.size + sizeList xs

theorem size_pos (v : Value) : 0 < v.size := by cases v <;> simp only [size] <;> omega

/-- An element of the explicit stack of `compare_partial`, value.cpp:340: two iterators; `ra` and `rb`
are the elements after `curp`, `na` and `nb` are the sizes of the arrays. -/
structure CmpFrame where
  ra : List Value
  rb : List Value
  na : Nat
  nb : Nat

/-- The number of nodes still to be visited. -/
def frameSize : List CmpFrame → Nat
  | [] => 0
  | f :: fs => size.sizeList f.ra + frameSize fs

mutual

/-- The body of `Value::compare_partial` from the label `r`, value.cpp:342-396. -/
def comparePartialLoop (qval qoth : Value) (stack : List CmpFrame) : Compare :=
  match qoth with
  | int o =>
    match compareNumericInt qval o with
    | .equal => comparePartialUnwind stack
    | c => c
  | real o =>
    match compareNumericReal qval o with
    | .equal => comparePartialUnwind stack
    | c => c
  | null =>
    match qval with
    | null => comparePartialUnwind stack
    | _ => .unordered
  | bool o =>
    match qval with
    | bool v => if !v && o then .less else if v && !o then .greater else comparePartialUnwind stack
    | _ => .unordered
  | str o =>
    match qval with
    | str v =>
      match compareBytes v o with
      | .less => .less
      | .greater => .greater
      | _ => comparePartialUnwind stack
    | _ => .unordered
  | arr o =>
    match qval with
    | arr v =>
      match v, o with
      | a :: v, b :: o => comparePartialLoop a b (⟨v, o, v.length + 1, o.length + 1⟩ :: stack)
      | v, o =>
        if v.length < o.length then .less
        else if v.length > o.length then .greater
        else comparePartialUnwind stack
    | _ => .unordered
  | _ => .unordered
termination_by 2 * (frameSize stack + qval.size) + stack.length
decreasing_by
  all_goals (try have := size_pos qval)
  all_goals (try simp only [frameSize, size, size.sizeList, List.length_cons])
  all_goals omega

/-- The unwinding loop of `Value::compare_partial`, value.cpp:398-417. -/
def comparePartialUnwind (stack : List CmpFrame) : Compare :=
  match stack with
  | [] => .equal
  | ⟨a :: ra, b :: rb, na, nb⟩ :: fs => comparePartialLoop a b (⟨ra, rb, na, nb⟩ :: fs)
  | ⟨_, _, na, nb⟩ :: fs =>
    if na < nb then .less else if na > nb then .greater else comparePartialUnwind fs
termination_by 2 * frameSize stack + stack.length + 1
decreasing_by
  all_goals (try simp only [frameSize, size.sizeList, List.length_cons])
  all_goals omega

end

/-- `Value::compare_partial`, value.cpp:332-418. -/
def comparePartial (a b : Value) : Compare := comparePartialLoop a b []

/-- `Value::compare_total`, value.hpp:415-423. -/
def compareTotal (a b : Value) : Res Compare :=
  if comparePartial a b = .unordered then .throw else .ok (comparePartial a b)

end Value

/-- `safe_double_to_int64`, /repo/asteria/src/utils.cpp:182-198.  `llrint` raises FE_INVALID when the
result is not an `int64_t` (also for infinities and NaNs), and FE_INEXACT when the argument is not an
integer; both make the function throw. -/
def safeDoubleToInt64 : Dbl → Res Int
  | .fin q =>
    if q.den = 1 then
      if -2 ^ 63 ≤ q.num ∧ q.num < 2 ^ 63 then .ok q.num else .throw
    else .throw
  | _ => .throw

end Asteria
