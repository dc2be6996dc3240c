import Verif.Model.Value
import Verif.Model.ArrayLib

/-!
# Subscripts and references

/repo/asteria/utils.hpp (`Wrapped_Index`), /repo/asteria/src/runtime/subscript.cpp,
/repo/asteria/src/runtime/reference.cpp
-/

namespace Asteria.Subscript

/-- The members of `Wrapped_Index`, /repo/asteria/utils.hpp:148-155. -/
structure Wrapped where
  nappend : Nat
  nprepend : Nat
  rindex : Nat
deriving DecidableEq

/-- Whether a mathematical integer is an `int64_t` (also `ptrdiff_t`, fwd.hpp). -/
def fits (x : Int) : Prop := -0x8000000000000000 ≤ x ∧ x ≤ 0x7FFFFFFFFFFFFFFF

instance (x : Int) : Decidable (fits x) := by unfold fits; infer_instance

/-- The constructor of `Wrapped_Index`, utils.hpp:157-176.  The subtractions are in `int64_t`, where
overflow is undefined; conversions to `size_t` and the final addition are modulo `2 ^ 64`.  Arguments that
are no `int64_t` cannot occur; they are given the outcome of undefined behaviour as well. -/
def wrap (ssize sindex : Int) : Res Wrapped :=
  if ssize < 0 ∨ ¬ fits ssize ∨ ¬ fits sindex then .ub
  else if 0 ≤ sindex then
    let last := ssize - 1
    let d := max last sindex - last
    if fits last ∧ fits d then .ok ⟨d.toNat, 0, sindex.toNat⟩ else .ub
  else
    let first := 0 - ssize
    let d := first - min sindex first
    let s := sindex + ssize
    if fits first ∧ fits d ∧ fits s then .ok ⟨0, d.toNat, ((s % 0x10000000000000000).toNat + d.toNat) % 0x10000000000000000⟩ else .ub

/-- `Subscript`, /repo/asteria/runtime/subscript.hpp:15-51. -/
inductive Sub where
  | index (i : Int)
  | key (k : Bytes)
  | head
  | tail
  | random (seed : Nat)
deriving DecidableEq

/-- A pointer to an element of a container: the pointers that the functions below return point to the
element at a position, or to the value with a key. -/
inductive Loc where
  | elem (i : Nat)
  | field (k : Bytes)
deriving DecidableEq

/-- `cow_hashmap::ptr`, /repo/asteria/rocket/cow_hashmap.hpp: the value with key `k`. -/
def lookup (k : Bytes) : List (Bytes × Value) → Option Value
  | [] => none
  | (k', v) :: l => if k' = k then some v else lookup k l

/-- An assignment to the value with key `k` (C++: `*ptr = v`). -/
def assignKey (k : Bytes) (v : Value) : List (Bytes × Value) → List (Bytes × Value)
  | [] => []
  | (k', v') :: l => if k' = k then (k', v) :: l else (k', v') :: assignKey k v l

/-- `cow_hashmap::erase(iterator)`: removes the element with key `k`. -/
def eraseKey (k : Bytes) : List (Bytes × Value) → List (Bytes × Value)
  | [] => []
  | (k', v) :: l => if k' = k then l else (k', v) :: eraseKey k l

/-- The value that a pointer points to. -/
def get (v : Value) : Loc → Option Value
  | .elem i => match v with
    | .arr l => l[i]?
    | _ => none
  | .field k => match v with
    | .obj l => lookup k l
    | _ => none

/-- An assignment through a pointer. -/
def put (v : Value) (p : Loc) (x : Value) : Value :=
  match p with
  | .elem i => match v with
    | .arr l => .arr (l.set i x)
    | v => v
  | .field k => match v with
    | .obj l => .obj (assignKey k x l)
    | v => v

/-- `Subscript::apply_read_opt`, /repo/asteria/src/runtime/subscript.cpp:11-113.  `none` is a null
pointer. -/
def applyRead (s : Sub) (parent : Value) : Res (Option Loc) :=
  match s with
  | .index i =>
    match parent with
    | .null => .ok none
    | .arr l => (wrap l.length i).bind fun w =>
        if w.nprepend ≠ 0 ∨ w.nappend ≠ 0 then .ok none else .ok (some (.elem w.rindex))
    | _ => .throw
  | .key k =>
    match parent with
    | .null => .ok none
    | .obj l => .ok ((lookup k l).map fun _ => .field k)
    | _ => .throw
  | .head =>
    match parent with
    | .null => .ok none
    | .arr l => if l.length = 0 then .ok none else .ok (some (.elem 0))
    | _ => .throw
  | .tail =>
    match parent with
    | .null => .ok none
    | .arr l => if l.length = 0 then .ok none else .ok (some (.elem (l.length - 1)))
    | _ => .throw
  | .random seed =>
    match parent with
    | .null => .ok none
    | .arr l => if l.length = 0 then .ok none else .ok (some (.elem (ArrayLib.probeOrigin l.length seed)))
    | _ => .throw

/-- `Subscript::apply_write_opt`, subscript.cpp:115-217.  `open_array`, `mut_data` and so on make the storage
unique, which does not change values (C37). -/
def applyWrite (s : Sub) (parent : Value) : Res (Option Loc) :=
  match s with
  | .index i =>
    match parent with
    | .null => .ok none
    | .arr l => (wrap l.length i).bind fun w =>
        if w.nprepend ≠ 0 ∨ w.nappend ≠ 0 then .ok none else .ok (some (.elem w.rindex))
    | _ => .throw
  | .key k =>
    match parent with
    | .null => .ok none
    | .obj l => .ok ((lookup k l).map fun _ => .field k)
    | _ => .throw
  | .head =>
    match parent with
    | .null => .ok none
    | .arr l => if l.length = 0 then .ok none else .ok (some (.elem 0))
    | _ => .throw
  | .tail =>
    match parent with
    | .null => .ok none
    | .arr l => if l.length = 0 then .ok none else .ok (some (.elem (l.length - 1)))
    | _ => .throw
  | .random seed =>
    match parent with
    | .null => .ok none
    | .arr l => if l.length = 0 then .ok none else .ok (some (.elem (ArrayLib.probeOrigin l.length seed)))
    | _ => .throw

/-- The array operations in `apply_open` throw `length_error` if the array would have more than `lim`
elements (`cow_vector::max_size`; C37 describes the exact condition). -/
def growTo (lim : Nat) (l l' : List Value) : List Value × Res Unit :=
  if l'.length > lim then (l, .throw) else (l', .ok ())

/-- The check of the parent for array subscripts in `apply_open`, subscript.cpp:224-235: null becomes an
empty array; `none` is a failure. -/
def asArray : Value → Option (List Value)
  | .null => some []
  | .arr l => some l
  | _ => none

/-- The check of the parent for object subscripts in `apply_open`, subscript.cpp:253-263. -/
def asObject : Value → Option (List (Bytes × Value))
  | .null => some []
  | .obj l => some l
  | _ => none

/-- The insertion for `[^]`, subscript.cpp:270-287: a copy of the first element, or null. -/
def dupHead : List Value → List Value
  | [] => [.null]
  | x :: l => x :: x :: l

/-- The insertion for `[$]`, subscript.cpp:289-306: a copy of the last element, or null. -/
def dupTail (l : List Value) : List Value :=
  match l.getLast? with
  | none => [.null]
  | some x => l ++ [x]

/-- `Subscript::apply_open`, subscript.cpp:219-329.  The first component is the parent afterwards, also
when an exception is thrown.  `lim` is the greatest size of an array. -/
def applyOpen (lim : Nat) (s : Sub) (parent : Value) : Value × Res Loc :=
  match s with
  | .index i =>
    match asArray parent with
    | none => (parent, .throw)
    | some l =>
      match wrap l.length i with
      | .ub => (.arr l, .ub)
      | .throw => (.arr l, .throw)
      | .ok w =>
        let r := if w.nprepend ≠ 0 then growTo lim l (List.replicate w.nprepend .null ++ l)
          else if w.nappend ≠ 0 then growTo lim l (l ++ List.replicate w.nappend .null)
          else (l, .ok ())
        (.arr r.1, r.2.map fun _ => .elem w.rindex)
  | .key k =>
    match asObject parent with
    | none => (parent, .throw)
    | some l =>
      (.obj (match lookup k l with
        | some _ => l
        | none => l ++ [(k, .null)]), .ok (.field k))
  | .head =>
    match asArray parent with
    | none => (parent, .throw)
    | some l =>
      let r := growTo lim l (dupHead l)
      (.arr r.1, r.2.map fun _ => .elem 0)
  | .tail =>
    match asArray parent with
    | none => (parent, .throw)
    | some l =>
      let r := growTo lim l (dupTail l)
      (.arr r.1, r.2.map fun _ => .elem (r.1.length - 1))
  | .random seed =>
    match asArray parent with
    | none => (parent, .throw)
    | some l =>
      if l.length = 0 then (.arr l, .throw)
      else (.arr l, .ok (.elem (ArrayLib.probeOrigin l.length seed)))

/-- The removal of the element at a pointer (C++: `auto val = move(*it); erase(it);`). -/
def removeAt (v : Value) : Loc → Value
  | .elem i => match v with
    | .arr l => .arr (l.eraseIdx i)
    | v => v
  | .field k => match v with
    | .obj l => .obj (eraseKey k l)
    | v => v

/-- `Subscript::apply_unset`, subscript.cpp:331-451: the parent afterwards, and the value returned. -/
def applyUnset (s : Sub) (parent : Value) : Value × Res Value :=
  match s with
  | .index i =>
    match parent with
    | .null => (parent, .ok .null)
    | .arr l =>
      match wrap l.length i with
      | .ok w =>
        if w.nprepend ≠ 0 ∨ w.nappend ≠ 0 then (parent, .ok .null)
        else match l[w.rindex]? with
          | some x => (.arr (l.eraseIdx w.rindex), .ok x)
          | none => (parent, .ub)
      | .throw => (parent, .throw)
      | .ub => (parent, .ub)
    | _ => (parent, .throw)
  | .key k =>
    match parent with
    | .null => (parent, .ok .null)
    | .obj l =>
      match lookup k l with
      | none => (parent, .ok .null)
      | some x => (.obj (eraseKey k l), .ok x)
    | _ => (parent, .throw)
  | .head =>
    match parent with
    | .null => (parent, .ok .null)
    | .arr l =>
      match l with
      | [] => (parent, .ok .null)
      | x :: l => (.arr l, .ok x)
    | _ => (parent, .throw)
  | .tail =>
    match parent with
    | .null => (parent, .ok .null)
    | .arr l =>
      match l.getLast? with
      | none => (parent, .ok .null)
      | some x => (.arr l.dropLast, .ok x)
    | _ => (parent, .throw)
  | .random seed =>
    match parent with
    | .null => (parent, .ok .null)
    | .arr l =>
      if l.length = 0 then (parent, .ok .null)
      else match l[ArrayLib.probeOrigin l.length seed]? with
        | some x => (.arr (l.eraseIdx (ArrayLib.probeOrigin l.length seed)), .ok x)
        | none => (parent, .ub)
    | _ => (parent, .throw)

/-! ### References -/

/-- The loop of `do_dereference_readonly_slow`, /repo/asteria/src/runtime/reference.cpp:108-120 (and 86-98
for a temporary): the value found, or null. -/
def readPath : List Sub → Value → Res Value
  | [], v => .ok v
  | s :: ss, v => (applyRead s v).bind fun p =>
      match p with
      | none => .ok .null
      | some p => match get v p with
        | some x => readPath ss x
        | none => .ub

/-- The loop of `do_dereference_copy_slow` for a temporary, reference.cpp:136-153. -/
def copyPath : List Sub → Value → Res Value
  | [], v => .ok v
  | s :: ss, v => (applyWrite s v).bind fun p =>
      match p with
      | none => .ok .null
      | some p => match get v p with
        | some x => copyPath ss x
        | none => .ub

/-- The loop of `dereference_mutable`, reference.cpp:209-217, followed by the assignment of `x` to the
element found, as in `do_solidify`d assignment nodes, /repo/asteria/src/runtime/air_node.cpp:2301-2322.
The first component is the value of the variable afterwards, also when an exception is thrown. -/
def assignPath (lim : Nat) (x : Value) : List Sub → Value → Value × Res Unit
  | [], _ => (x, .ok ())
  | s :: ss, v =>
    let r := applyOpen lim s v
    match r.2 with
    | .throw => (r.1, .throw)
    | .ub => (r.1, .ub)
    | .ok p => match get r.1 p with
      | none => (r.1, .ub)
      | some c =>
        let q := assignPath lim x ss c
        (put r.1 p q.1, q.2)

/-- `dereference_unset`, reference.cpp:246-262: the value of the variable afterwards, and the value
returned. -/
def unsetPath : List Sub → Value → Value × Res Value
  | [], v => (v, .throw)
  | [s], v => applyUnset s v
  | s :: ss, v =>
    match applyWrite s v with
    | .throw => (v, .throw)
    | .ub => (v, .ub)
    | .ok none => (v, .ok .null)
    | .ok (some p) => match get v p with
      | none => (v, .ub)
      | some c =>
        let q := unsetPath ss c
        (put v p q.1, q.2)

/-- A variable, /repo/asteria/runtime/variable.hpp: `none` as the value means not initialized. -/
structure Var where
  value : Option Value
  immutable : Bool

/-- The states of a `Reference` that can be dereferenced, /repo/asteria/runtime/reference.hpp:13-33, and one
that stands for all others.  The variable is identified by number. -/
inductive Ref where
  | bad
  | temp (val : Value) (subs : List Sub)
  | var (v : Nat) (subs : List Sub)

/-- `dereference_readonly`, reference.cpp:75-124; `env` holds the variables. -/
def Ref.readonly (env : Nat → Var) : Ref → Res Value
  | .bad => .throw
  | .temp val subs => readPath subs val
  | .var v subs =>
    match (env v).value with
    | none => .throw
    | some val => readPath subs val

/-- `dereference_copy`, reference.cpp:126-184. -/
def Ref.copy (env : Nat → Var) : Ref → Res Value
  | .bad => .throw
  | .temp val subs => copyPath subs val
  | .var v subs =>
    match (env v).value with
    | none => .throw
    | some val => readPath subs val

/-- `dereference_mutable`, reference.cpp:186-221, and assignment of `x`.  Returns the variables
afterwards. -/
def Ref.assign (lim : Nat) (env : Nat → Var) (x : Value) : Ref → (Nat → Var) × Res Unit
  | .bad => (env, .throw)
  | .temp _ _ => (env, .throw)
  | .var v subs =>
    match (env v).value with
    | none => (env, .throw)
    | some val =>
      if (env v).immutable then (env, .throw)
      else
        let r := assignPath lim x subs val
        ((fun u => if u = v then { env v with value := some r.1 } else env u), r.2)

/-- `dereference_unset`, reference.cpp:223-265. -/
def Ref.unset (env : Nat → Var) : Ref → (Nat → Var) × Res Value
  | .bad => (env, .throw)
  | .temp _ _ => (env, .throw)
  | .var v subs =>
    match (env v).value with
    | none => (env, .throw)
    | some val =>
      if (env v).immutable then (env, .throw)
      else
        let r := unsetPath subs val
        ((fun u => if u = v then { env v with value := some r.1 } else env u), r.2)

end Asteria.Subscript
