import Verif.Model.Basic

/-!
# `~Value`: destruction of arrays and objects without recursion
-/

namespace Asteria.Teardown

/-- The bytes of a `Value`, /repo/asteria/value.hpp:21-31, as far as its destruction is concerned.
* `plain`: a type up to `type_real`, which has no destructor; a `Value` that is filled with zeroes is one;
* `ext k`: a string, opaque object or function; `k` is what it refers to;
* `box obj p`: an array or (`obj`) an object; `p` is its storage, and a null pointer if it has none.

Simplification: the kinds of `ext`, the data of `plain` and the keys of objects are left out. -/
inductive Val where
  | plain
  | ext (k : Nat)
  | box (obj : Bool) (p : Option Nat)
deriving DecidableEq

/-- The storage of an array or object, /repo/asteria/rocket/details/cow_vector.ipp:14-48 and cow_hashmap.ipp:106-137: its
counter, and the values in it in the order of iteration. -/
structure Cell where
  cnt : Nat
  kids : List Val
deriving DecidableEq

/-- Storages that exist (`none` has been deallocated); which strings, opaque objects and functions have been
destroyed, and which storages have been deallocated, the last ones first. -/
structure State where
  cells : List (Option Cell)
  drops : List Nat
  freed : List Nat
deriving DecidableEq

/-- The storage with a number, if it exists. -/
def State.cell (st : State) (i : Nat) : Option Cell := (st.cells[i]?).join

/-- Writing to a storage. -/
def State.store (st : State) (i : Nat) (c : Option Cell) : State := { st with cells := st.cells.set i c }

/-- A storage is deallocated, cow_vector.ipp:272. -/
def State.free (st : State) (i : Nat) : State := { st.store i none with freed := i :: st.freed }

/-- `~basic_storage`, cow_vector.ipp:54-59 and cow_hashmap.ipp:140-146: `~Value` of every element, which does nothing
for types up to `type_real`, value.hpp:115-119, and otherwise is `nested`.  Simplification: the elements of an
array are destroyed backwards; here it is forwards, which makes no difference to `nested`s that are not called. -/
def each (nested : State → Val → Res State) (st : State) : List Val → Res State
  | [] => .ok st
  | v :: l => (if v = .plain then .ok st else nested st v).bind fun st => each nested st l

/-- `~storage_handle`, cow_vector.ipp:239-273: decrements the counter, and when it gets to zero destroys the
elements and deallocates the storage.  A storage that does not exist, or whose counter is zero, is undefined
behaviour. -/
def State.dtor (nested : State → Val → Res State) (st : State) : Option Nat → Res State
  | none => .ok st
  | some i =>
    match st.cell i with
    | none => .ub
    | some c =>
      if c.cnt < 1 then .ub
      else if c.cnt - 1 ≠ 0 then .ok (st.store i (some ⟨c.cnt - 1, c.kids⟩))
      else (each nested (st.store i (some ⟨0, c.kids⟩)) c.kids).map fun st => st.free i

/-- What is left by the loops that move elements onto `stack`: how many more elements can be pushed, the
stack, the elements of the storage, and whether no exception has been thrown. -/
structure Pushed where
  room : Nat
  stack : List Val
  kids : List Val
  done : Bool

/-- The loops that move raw bytes into `stack`, /repo/asteria/src/value.cpp:94-98, 107-111: `push_back`
throws if memory cannot be allocated, which happens when `room` elements have been pushed. -/
def push (room : Nat) (stack : List Val) : List Val → Pushed
  | [] => ⟨room, stack, [], true⟩
  | v :: l =>
    if room = 0 then ⟨0, stack, v :: l, false⟩
    else
      let r := push (room - 1) (v :: stack) l
      ⟨r.room, r.stack, .plain :: r.kids, r.done⟩

/-- How a round ends: by going on, or by an exception, after which `leaked` is not destroyed by anything. -/
inductive Round where
  | more (room : Nat) (st : State) (stack : List Val)
  | failed (st : State) (leaked : List Val)

/-- The cases for arrays and objects, value.cpp:90-101, 103-114: if there are elements and the storage is not
shared, they are moved onto the stack; then the array or object is destroyed. -/
def expand (nested : State → Val → Res State) (room : Nat) (st : State) (cur : Val) (p : Option Nat) (stack : List Val) :
    Res Round :=
  match p with
  | none => (st.dtor nested none).map fun st => .more room st stack
  | some i =>
    match st.cell i with
    | none => .ub
    | some c =>
      if c.kids ≠ [] ∧ c.cnt = 1 then
        let r := push room stack c.kids
        let st := st.store i (some ⟨c.cnt, r.kids⟩)
        if r.done then (st.dtor nested (some i)).map fun st => .more r.room st r.stack
        else .ok (.failed st (cur :: r.stack))
      else (st.dtor nested (some i)).map fun st => .more room st stack

/-- One round from the label `r`, value.cpp:75-118. -/
def round (nested : State → Val → Res State) (room : Nat) (st : State) (cur : Val) (stack : List Val) : Res Round :=
  match cur with
  | .plain => .ok (.more room st stack)
  | .ext k => .ok (.more room { st with drops := k :: st.drops } stack)
  | .box false p => expand nested room st cur p stack
  | .box true p => expand nested room st cur p stack

/-- `do_destroy_variant_slow`, value.cpp:55-140: what is left on the stack is destroyed one by one.  An
exception is caught and ignored.  The first argument is how many rounds there may be; more than that is
undefined behaviour here, so whatever theorems say of this function they say for the loop without a bound. -/
def loop (nested : State → Val → Res State) : Nat → Nat → State → Val → List Val → Res (State × List Val)
  | 0, _, _, _, _ => .ub
  | fuel + 1, room, st, cur, stack =>
    (round nested room st cur stack).bind fun r =>
    match r with
    | .failed st leaked => .ok (st, leaked)
    | .more _ st [] => .ok (st, [])
    | .more room st (v :: stack) => loop nested fuel room st v stack

end Asteria.Teardown
