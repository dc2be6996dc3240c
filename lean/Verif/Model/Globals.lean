import Verif.Model.Basic

/-!
# Global contexts

`Recursion_Sentry` of /repo/asteria/recursion_sentry.hpp, the constructor of `Global_Context` of
/repo/asteria/src/runtime/global_context.cpp, and the global variables of `Simple_Script` of /repo/asteria/src/simple_script.cpp.
-/

namespace Asteria.Globals

/-! ### Recursion -/

/-- An address.  Simplified: pointers are 64-bit integers and their difference is that of the integers (recursion_sentry.hpp:49). -/
abbrev Addr := BitVec 64

/-- `do_validate_stack_usage`, recursion_sentry.hpp:46-56. -/
def validate (base self : Addr) : Res Unit :=
  let usage := base - self
  if usage.sshiftRight 20 ≠ usage.sshiftRight 63 then .throw else .ok ()

/-- What happens on the stack, with the address of the object: a sentry is copied from the global one (global_context.hpp:45-48,
air_node.cpp:1987, 4328, 4485 and 4804), or `Simple_Script::execute` (simple_script.cpp:141-151) is called with its `self`. -/
inductive Event where
  | sentry (a : Addr)
  | execute (a : Addr)

/-- The address of the object. -/
def Event.addr : Event → Addr
  | .sentry a => a
  | .execute a => a

/-- Calls within calls, from the outermost to the innermost one: the base in the end (`m_base`, recursion_sentry.hpp:13; `set_base`,
recursion_sentry.hpp:71-77). -/
def nest : Addr → List Event → Res Addr
  | base, [] => .ok base
  | base, .sentry a :: es =>
    match validate base a with
    | .ok _ => nest base es
    | .throw => .throw
    | .ub => .ub
  | _, .execute a :: es => nest a es

/-! ### The standard library -/

/-- `Module`, global_context.cpp:33-38, without the function. -/
structure Module where
  version : UInt32
  name : String
deriving DecidableEq

/-- `s_modules`, global_context.cpp:39-58. -/
def modules : List Module :=
  [⟨0, "version"⟩, ⟨0x10000, "gc"⟩, ⟨0x10000, "system"⟩, ⟨0x10000, "debug"⟩, ⟨0x10000, "chrono"⟩, ⟨0x10000, "string"⟩, ⟨0x10000, "array"⟩,
    ⟨0x10000, "numeric"⟩, ⟨0x10000, "math"⟩, ⟨0x10000, "filesystem"⟩, ⟨0x10000, "checksum"⟩, ⟨0x10000, "json"⟩, ⟨0x10000, "io"⟩,
    ⟨0x10000, "zlib"⟩, ⟨0x10000, "ini"⟩, ⟨0x10000, "csv"⟩, ⟨0x20000, "rsa"⟩]

/-- The loop of `std::upper_bound` (global_context.cpp:95), as in libstdc++: `first` and the remaining length. -/
def upperBound (ms : List Module) (v : UInt32) (first len : Nat) : Res Nat :=
  if _h : len = 0 then .ok first
  else
    let half := len / 2
    match ms[first + half]? with
    | none => .ub
    | some m => if v < m.version then upperBound ms v first half else upperBound ms v (first + half + 1) (len - half - 1)
termination_by len

/-- `try_emplace()` and `init()` for one module, global_context.cpp:99-104: the name and the version that is passed.  Simplified: the
contents of modules are left out. -/
def addModule (v : UInt32) (o : List (String × UInt32)) (m : Module) : List (String × UInt32) :=
  match o.lookup m.name with
  | some _ => o
  | none => o ++ [(m.name, v)]

/-- `Global_Context::Global_Context`, global_context.cpp:80-108: the modules of `std` with the versions that they get. -/
def construct (ms : List Module) (req : UInt32) : Res (List (String × UInt32)) :=
  match upperBound ms req 0 ms.length with
  | .throw => .throw
  | .ub => .ub
  | .ok e =>
    if e = 0 then .ok []
    else match ms[e - 1]? with
      | none => .ub
      | some last => .ok ((ms.take e).foldl (addModule last.version) [])

/-- `create_bindings_version`, library/version.cpp:10-22: `major` and `minor`. -/
def versionBindings (v : UInt32) : Nat × Nat := ((v / 0x10000).toNat, (v % 0x10000).toNat)

/-- `max_api_version`, global_context.cpp:119-125. -/
def maxVersion (ms : List Module) : Option UInt32 := ms.getLast?.map (·.version)

/-! ### Global variables -/

/-- A name. -/
abbrev Name := Bytes

/-- A reference in the global context: to nothing, to a temporary value, or to a variable (`Reference`, runtime/reference.hpp). -/
inductive Ref where
  | none
  | temporary
  | variable (i : Nat)
deriving DecidableEq

/-- The named references of the global context (`m_named_refs`, runtime/abstract_context.hpp).  Simplified: the table is a function; there
are no lazy references in it (`do_create_lazy_reference_opt`, abstract_context.cpp:10-16). -/
abbrev Names := Name → Option Ref

/-- `unphase_variable_opt`, runtime/reference.hpp:221-230. -/
def unphase : Ref → Option Nat
  | .variable i => some i
  | _ => .none

/-- `get_global_variable_opt`, simple_script.cpp:18-29. -/
def getGlobal (N : Names) (x : Name) : Option Nat :=
  match N x with
  | .none => .none
  | some r => unphase r

/-- `open_global_variable`, simple_script.cpp:31-44, where the collector hands out the variable `fresh`. -/
def openGlobal (N : Names) (fresh : Nat) (x : Name) : Nat × Names :=
  let r := (N x).getD .none
  match unphase r with
  | some i => (i, fun y => if y = x then some r else N y)
  | .none => (fresh, fun y => if y = x then some (.variable fresh) else N y)

/-- `erase_global_variable`, simple_script.cpp:46-52. -/
def eraseGlobal (N : Names) (x : Name) : Bool × Names := ((N x).isSome, fun y => if y = x then .none else N y)

end Asteria.Globals
