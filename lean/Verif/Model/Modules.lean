import Verif.Model.NumText

/-!
# Model of the module loader

/repo/asteria/src/runtime/module_loader.cpp, /repo/asteria/runtime/module_loader.hpp, and the `import` expression at
/repo/asteria/src/runtime/air_node.cpp:4512-4529.

The map `m_strms` of streams is modelled as the list of its keys.  A module is modelled as what happens to its file, and the
`import` expressions that its script evaluates, in order.
-/

namespace Asteria.Modules

open NumText (writeDigits)

/-- `sformat("dev:$1/ino:$2", info.st_dev, info.st_ino)`, module_loader.cpp:42; `put_DU`, ascii_numput.cpp:1415-1433. -/
def key (dev ino : Nat) : Bytes :=
  "dev:".toUTF8.toList ++ (writeDigits 10 dev 1 ++ ("/ino:".toUTF8.toList ++ writeDigits 10 ino 1))

/-- What happens to a file: whether `::fopen` at module_loader.cpp:29, `::fstat` at module_loader.cpp:37 and `::flock` at
module_loader.cpp:51 succeed, and its device and inode numbers. -/
structure File where
  opens : Bool
  stats : Bool
  locks : Bool
  dev : Nat
  ino : Nat

/-- Why a script is ended by an exception. -/
inductive Error where
  | open
  | stat
  | recursive
  | flock
  | script
deriving DecidableEq

/-- `Module_Loader::do_lock_stream`, module_loader.cpp:25-56: the outcome, and the keys of `m_strms`. -/
def lock (strms : List Bytes) (f : File) : Except Error Bytes × List Bytes :=
  if ¬ f.opens then (.error .open, strms)
  else if ¬ f.stats then (.error .stat, strms)
  else
    let k := key f.dev f.ino
    if k ∈ strms then (.error .recursive, strms)
    else if ¬ f.locks then (.error .flock, k :: strms)
    else (.ok k, k :: strms)

/-- `Module_Loader::do_unlock_stream`, module_loader.cpp:58-65. -/
def unlock (strms : List Bytes) (k : Bytes) : List Bytes := strms.erase k

/-- A module: its file, the `import` expressions that its script evaluates, each with whether exceptions from it are caught,
and whether the script throws an exception of its own after that.  A script that cannot be parsed evaluates nothing and throws
an exception. -/
inductive Module where
  | mk (file : File) (imports : List (Bool × Module)) (throws : Bool)

mutual
/-- `import`, air_node.cpp:4512-4529: `none` if there is no exception.  The destructor of `Unique_Stream` at
module_loader.hpp:81-84, 107-118 removes the lock, whether there is an exception or not. -/
def run (strms : List Bytes) : Module → Option Error × List Bytes
  | .mk file imports throws =>
    match lock strms file with
    | (.error e, strms) => (some e, strms)
    | (.ok k, strms) =>
      let r := runAll strms imports
      (match r.1 with | some e => some e | none => if throws then some .script else none, unlock r.2 k)

/-- The script of a module, invoked at air_node.cpp:4529: its `import` expressions in order, until an exception is not
caught. -/
def runAll (strms : List Bytes) : List (Bool × Module) → Option Error × List Bytes
  | [] => (none, strms)
  | (caught, m) :: ms =>
    let r := run strms m
    match r.1 with
    | some e => if caught then runAll r.2 ms else (some e, r.2)
    | none => runAll r.2 ms
end

end Asteria.Modules
