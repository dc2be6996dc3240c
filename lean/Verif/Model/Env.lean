import Verif.Model.Basic

/-!
# Environment variables, and launching programs

/repo/asteria/src/library/system.cpp:38-68, 183-226
-/

namespace Asteria.Env

/-- `=`. -/
def eqSign : UInt8 := 61

/-- `safe_c_str`, /repo/asteria/rocket/cow_string.hpp (`safe_c_str` throws an exception if the string has a null character). -/
def safeCStr (s : Bytes) : Res Bytes := if (0 : UInt8) ∈ s then .throw else .ok s

/-- `getenv` of the C library, for `environ` with these strings: the first one that has the name and `=` first.  (The empty
name is not looked up.)  This is the library's, not in /repo. -/
def getenv (environ : List Bytes) (name : Bytes) : Option Bytes :=
  if name = [] then none
  else match environ.find? (fun e => (name ++ [eqSign]).isPrefixOf e) with
    | none => none
    | some e => some (e.drop (name.length + 1))

/-- `std_system_get_environment_variable`, system.cpp:38-47. -/
def getOne (environ : List Bytes) (name : Bytes) : Res (Option Bytes) :=
  match safeCStr name with
  | .ok name => .ok (getenv environ name)
  | .throw => .throw
  | .ub => .ub

/-- The inner loop, system.cpp:57-63. -/
def split : Bytes → Bool → Bytes → Bytes → Bytes × Bytes
  | [], _, key, val => (key, val)
  | c :: s, inKey, key, val =>
    if inKey = false then split s inKey key (val ++ [c])
    else if c = eqSign then split s false key val
    else split s inKey (key ++ [c]) val

/-- `insert_or_assign` of an object.  That the hash map is one is C34; here it is a list of pairs, with the same lookups. -/
def assign (k v : Bytes) : List (Bytes × Bytes) → List (Bytes × Bytes)
  | [] => [(k, v)]
  | (k', v') :: l => if k' = k then (k, v) :: l else (k', v') :: assign k v l

/-- The outer loop, system.cpp:53-66. -/
def collect : List Bytes → List (Bytes × Bytes) → List (Bytes × Bytes)
  | [], vars => vars
  | e :: environ, vars =>
    let (key, val) := split e true [] []
    collect environ (assign key val vars)

/-- `std_system_get_environment_variables`, system.cpp:49-68. -/
def getAll (environ : List Bytes) : List (Bytes × Bytes) := collect environ []

/-- A value, as far as it matters: a string or not. -/
inductive Arg where
  | string (s : Bytes)
  | other
deriving DecidableEq

/-- `arg.as_string().safe_c_str()`, system.cpp:192, 198; `as_string` throws an exception if the value is not a string. -/
def cString : Arg → Res Bytes
  | .string s => safeCStr s
  | .other => .throw

/-- `push_back` for all elements, system.cpp:190-192, 196-198. -/
def pushAll : List Arg → List (Option Bytes) → Res (List (Option Bytes))
  | [], cs => .ok cs
  | a :: as, cs =>
    match cString a with
    | .ok s => pushAll as (cs ++ [some s])
    | .throw => .throw
    | .ub => .ub

/-- The strings that an array of pointers denotes, which ends with a null pointer; without one, it is read past its end. -/
def upToNull : List (Option Bytes) → Res (List Bytes)
  | [] => .ub
  | none :: _ => .ok []
  | some s :: l =>
    match upToNull l with
    | .ok r => .ok (s :: r)
    | .throw => .throw
    | .ub => .ub

/-- What the operating system is asked to do. -/
structure Launch where
  path : Bytes
  argv : List Bytes
  environ : List Bytes
deriving DecidableEq

/-- The arguments of `posix_spawnp`, system.cpp:187-205. -/
def launch (cmd : Bytes) (argv envp : Option (List Arg)) : Res Launch :=
  match safeCStr cmd with
  | .throw => .throw
  | .ub => .ub
  | .ok c =>
    match pushAll (argv.getD []) [some c] with
    | .throw => .throw
    | .ub => .ub
    | .ok cs =>
      let cs := cs ++ [none]
      let envStart := cs.length
      match pushAll (envp.getD []) cs with
      | .throw => .throw
      | .ub => .ub
      | .ok cs =>
        let cs := cs ++ [none]
        match upToNull cs, upToNull (cs.drop envStart) with
        | .ok av, .ok ev => .ok ⟨cmd, av, ev⟩
        | _, _ => .ub

/-- The loop that awaits the end of the program, system.cpp:211-225, with what `waitpid` returns each time (`none` is -1).
`none` if it is still waiting. -/
def await : List (Option Nat) → Option (Res Nat)
  | [] => none
  | none :: _ => some .throw
  | some w :: l =>
    if w % 128 = 0 then some (.ok (w / 256 % 256))
    else if 0 < w % 128 ∧ w % 128 + 1 < 128 then some (.ok (128 + w % 128))
    else await l

/-- `std_system_call`, system.cpp:183-226: what is launched, and what is returned.  `spawn` says whether `posix_spawnp` returns
0. -/
def call (cmd : Bytes) (argv envp : Option (List Arg)) (spawn : Launch → Bool) (waits : List (Option Nat)) :
    Option Launch × Option (Res Nat) :=
  match launch cmd argv envp with
  | .throw => (none, some .throw)
  | .ub => (none, some .ub)
  | .ok l => if spawn l then (some l, await waits) else (some l, some .throw)

end Asteria.Env
