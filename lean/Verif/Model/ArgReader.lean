import Verif.Model.Value

/-!
# The reader of the arguments of native functions

/repo/asteria/runtime/argument_reader.hpp, /repo/asteria/src/runtime/argument_reader.cpp,
/repo/asteria/llds/reference_stack.hpp

An argument is a `Reference` of an arbitrary type `A`; `deref` is `Reference::dereference_readonly`, which may throw,
and `ofInt` is the conversion of `int64_t` to `double`.  The arguments are listed from the bottom of the stack to its
top, that is, from left to right.
-/

namespace Asteria.ArgReader

/-- The types that `required` and `optional` are overloaded for, argument_reader.hpp:84-139. -/
inductive Ty where
  | boolean | integer | real | string | opaque | function | array | object
deriving DecidableEq

/-- One call of `optional` or `required`, argument_reader.hpp:84-139. -/
inductive Param where
  | optReference
  | optValue
  | opt (t : Ty)
  | req (t : Ty)
deriving DecidableEq

/-- The names of types in the messages, argument_reader.cpp:99-455. -/
def Ty.name : Ty → Bytes
  | .boolean => [98, 111, 111, 108, 101, 97, 110]
  | .integer => [105, 110, 116, 101, 103, 101, 114]
  | .real => [114, 101, 97, 108]
  | .string => [115, 116, 114, 105, 110, 103]
  | .opaque => [111, 112, 97, 113, 117, 101]
  | .function => [102, 117, 110, 99, 116, 105, 111, 110]
  | .array => [97, 114, 114, 97, 121]
  | .object => [111, 98, 106, 101, 99, 116]

/-- The argument of `do_prepare_parameter` in each of the readers, argument_reader.cpp:99-455. -/
def Param.name : Param → Bytes
  | .optReference => [91, 114, 101, 102, 101, 114, 101, 110, 99, 101, 93]
  | .optValue => [91, 118, 97, 108, 117, 101, 93]
  | .opt t => 91 :: (t.name ++ [93])
  | .req t => t.name

/-- `Argument_Reader::State`, argument_reader.hpp:19-25. -/
structure State where
  params : Bytes := []
  nparams : Nat := 0
  finish : Bool := false
  matched : Bool := false

/-- `Argument_Reader`, argument_reader.hpp:13-29, without the name and the stack. -/
structure Reader where
  state : State := {}
  saved : List State := []
  overloads : Bytes := []

/-- What a reader leaves in its `out` parameter: the null or default value, a value, or a reference. -/
inductive Out (A : Type) where
  | empty
  | value (v : Value)
  | reference (a : A)

/-- `do_prepare_parameter`, argument_reader.cpp:15-27. -/
def prepare (name : Bytes) (s : State) : Res State :=
  if s.finish then .throw
  else .ok { s with params := s.params ++ (name ++ [44, 32]), nparams := (s.nparams + 1) % 2 ^ 32 }

/-- `do_terminate_parameter_list`, argument_reader.cpp:29-42; `append(str, 0, n)` takes no more than there is, and
`size() - 2` is a `size_t`. -/
def terminate (s : State) (overloads : Bytes) : Res (State × Bytes) :=
  if s.finish then .throw
  else .ok ({ s with finish := true },
    overloads ++ (s.params.take ((s.params.length + (2 ^ 64 - 2)) % 2 ^ 64) ++ [124]))

/-- `Reference_Stack::top`, reference_stack.hpp:76-81. -/
def top (args : List A) (index : Nat) : Res A :=
  if index < args.length then
    match args[args.length - 1 - index]? with
    | some a => .ok a
    | none => .ub
  else .ub

/-- `do_peek_argument`, argument_reader.cpp:53-68, with the subtraction in `uint32_t`. -/
def peek (args : List A) (s : State) : Res (Option A) :=
  if ¬ s.matched then .ok none
  else
    let rindex := (args.length + (2 ^ 32 - s.nparams)) % 2 ^ 32
    if rindex ≥ args.length then .ok none
    else (top args rindex).map some

/-- `is_boolean`, ..., `is_object` and `as_boolean`, ..., `as_object`, /repo/asteria/value.hpp:137-337: an integer is
also a real. -/
def Ty.cast (ofInt : Int → Dbl) : Ty → Value → Option Value
  | .boolean, .bool b => some (.bool b)
  | .integer, .int i => some (.int i)
  | .real, .int i => some (.real (ofInt i))
  | .real, .real d => some (.real d)
  | .string, .str s => some (.str s)
  | .opaque, .opaque i => some (.opaque i)
  | .function, .func i => some (.func i)
  | .array, .arr l => some (.arr l)
  | .object, .obj l => some (.obj l)
  | _, _ => none

/-- `optional` and `required`, argument_reader.cpp:99-455. -/
def read (ofInt : Int → Dbl) (deref : A → Res Value) (args : List A) (p : Param) (s : State) : Res (State × Out A) :=
  (prepare p.name s).bind fun s =>
  (peek args s).bind fun
  | none => match p with
    | .req _ => .ok ({ s with matched := false }, .empty)
    | _ => .ok (s, .empty)
  | some a => match p with
    | .optReference => .ok (s, .reference a)
    | .optValue => (deref a).bind fun v => .ok (s, .value v)
    | .opt t => (deref a).bind fun v => match v with
      | .null => .ok (s, .empty)
      | v => match t.cast ofInt v with
        | some v => .ok (s, .value v)
        | none => .ok ({ s with matched := false }, .empty)
    | .req t => (deref a).bind fun v => match t.cast ofInt v with
      | some v => .ok (s, .value v)
      | none => .ok ({ s with matched := false }, .empty)

/-- `end_overload()`, argument_reader.cpp:457-475. -/
def endFixed (args : List A) (r : Reader) : Res (Reader × Bool) :=
  (terminate r.state r.overloads).bind fun (s, ov) =>
  if ¬ s.matched then .ok ({ r with state := s, overloads := ov }, false)
  else if args.length > s.nparams then .ok ({ r with state := { s with matched := false }, overloads := ov }, false)
  else .ok ({ r with state := s, overloads := ov }, true)

/-- The loop of `end_overload(cow_vector<Reference>&)` and `end_overload(cow_vector<Value>&)`,
argument_reader.cpp:493-494 and 517-518; `f` is what is done to each argument. -/
def takeVargs (f : A → Res B) (args : List A) : Nat → List B → Res (List B)
  | 0, out => .ok out
  | n + 1, out => (top args n).bind fun a => (f a).bind fun b => takeVargs f args n (out ++ [b])

/-- `end_overload(cow_vector<Reference>&)` and `end_overload(cow_vector<Value>&)`, argument_reader.cpp:477-523. -/
def endVariadic (f : A → Res B) (args : List A) (r : Reader) : Res (Reader × Option (List B)) :=
  (prepare [46, 46, 46] r.state).bind fun s =>
  (terminate s r.overloads).bind fun (s, ov) =>
  if ¬ s.matched then .ok ({ r with state := s, overloads := ov }, none)
  else
    let nparams := (s.nparams + (2 ^ 32 - 1)) % 2 ^ 32
    if args.length > nparams then
      (takeVargs f args (args.length - nparams) []).map fun l => ({ r with state := s, overloads := ov }, some l)
    else .ok ({ r with state := s, overloads := ov }, some [])

/-- `save_state`, argument_reader.cpp:77-86. -/
def save (i : Nat) (r : Reader) : Reader :=
  { r with saved := (r.saved ++ List.replicate (i + 1 - r.saved.length) ({} : State)).set i r.state }

/-- `load_state`, argument_reader.cpp:70-75; `at` throws if there is no such element. -/
def load (i : Nat) (r : Reader) : Res Reader :=
  match r.saved[i]? with
  | some s => .ok { r with state := s }
  | none => .throw

/-- `start_overload`, argument_reader.cpp:88-97. -/
def start (r : Reader) : Reader :=
  { r with state := { params := [], nparams := 0, finish := false, matched := true } }

/-- How an overload ends: without more arguments, or with any number of references or values. -/
inductive Ending where
  | fixed | references | values
deriving DecidableEq

/-- The calls that a native function makes, for example /repo/asteria/src/library/array.cpp:686-704.  `x` is the
variable that a parameter is read into. -/
inductive Op where
  | start
  | read (x : Nat) (p : Param)
  | save (i : Nat)
  | load (i : Nat)
  | fin (e : Ending)

/-- What comes of it: the number of the overload that has been accepted, the variables, and the variadic arguments; or
the list of overloads that `throw_no_matching_function_call` displays. -/
inductive Result (A : Type) where
  | accept (k : Nat) (vars : Nat → Out A) (vargs : List (Out A))
  | noMatch (overloads : Bytes)

/-- A native function, which tries the overloads in order, and calls `throw_no_matching_function_call` in the end; for
example /repo/asteria/src/library/array.cpp:686-704. -/
def run (ofInt : Int → Dbl) (deref : A → Res Value) (args : List A) :
    List Op → Reader → Nat → (Nat → Out A) → Res (Result A)
  | [], r, _, _ => .ok (.noMatch r.overloads)
  | .start :: ops, r, k, vars => run ofInt deref args ops (start r) k vars
  | .read x p :: ops, r, k, vars => (read ofInt deref args p r.state).bind fun (s, o) =>
      run ofInt deref args ops { r with state := s } k (Function.update vars x o)
  | .save i :: ops, r, k, vars => run ofInt deref args ops (save i r) k vars
  | .load i :: ops, r, k, vars => (load i r).bind fun r => run ofInt deref args ops r k vars
  | .fin .fixed :: ops, r, k, vars => (endFixed args r).bind fun
      | (_, true) => .ok (.accept k vars [])
      | (r, false) => run ofInt deref args ops r (k + 1) vars
  | .fin .references :: ops, r, k, vars =>
      (endVariadic (fun a => .ok (Out.reference a)) args r).bind fun
      | (_, some l) => .ok (.accept k vars l)
      | (r, none) => run ofInt deref args ops r (k + 1) vars
  | .fin .values :: ops, r, k, vars =>
      (endVariadic (fun a => (deref a).map Out.value) args r).bind fun
      | (_, some l) => .ok (.accept k vars l)
      | (r, none) => run ofInt deref args ops r (k + 1) vars

/-- The loop of `throw_no_matching_function_call` over the overloads, argument_reader.cpp:556-568: the text between
the bars, `n` times.  The number of the line and the name of the function are left out. -/
def listing : Nat → Bytes → List Bytes
  | 0, _ => []
  | n + 1, ov => ov.takeWhile (· ≠ 124) :: listing n ((ov.dropWhile (· ≠ 124)).drop 1)

/-- The signatures that are displayed, argument_reader.cpp:545-568. -/
def signatures (ov : Bytes) : List Bytes := listing (ov.count 124) ov

end Asteria.ArgReader
