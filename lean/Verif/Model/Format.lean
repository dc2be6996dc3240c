import Verif.Model.Basic

/-!
# Model of `formatv` and `std.string.format`

/repo/asteria/rocket/tinyfmt.hpp:686-858, /repo/asteria/src/library/string.cpp:1650-1672.

A template is a null-terminated string, modelled as the bytes before the terminator: that `*next` is the terminator means that
nothing remains.  An argument is modelled as the text which its formatter writes.  The output is a list of bytes.
-/

namespace Asteria.Format

/-- What built-in placeholders write: the environment, tinyfmt.hpp:765-808 (`do_format_errno`, `do_format_strerror_errno`,
`do_format_time_iso`). -/
structure Env where
  errno : Bytes
  strerror : Bytes
  localTime : Bytes
  utcTime : Bytes

/-- `no_arg`, tinyfmt.hpp:746 and 843: `(no arg)`. -/
def noArg : Bytes := [0x28, 0x6E, 0x6F, 0x20, 0x61, 0x72, 0x67, 0x29]

/-- What is written for an argument number, tinyfmt.hpp:736-748 and 833-845. -/
def insert (stempl : Bytes) (insts : List Bytes) (iarg : Nat) : Bytes :=
  if iarg = 0 then stempl
  else if iarg ≤ insts.length then insts.getD (iarg - 1) []
  else noArg

/-- The loop that scans an argument number, tinyfmt.hpp:816-831.  `UINT32_MAX` is the result if it is not valid. -/
def scanNumber (iarg : Nat) : Bytes → Nat
  | [] => iarg
  | c :: cs =>
    if c < 0x30 ∨ c > 0x39 then 0xFFFFFFFF
    else if iarg ≥ 0xFFFF then 0xFFFFFFFF
    else scanNumber (iarg * 10 % 2 ^ 32 + (c - 0x30).toNat) cs

/-- What is written for a composite placeholder, tinyfmt.hpp:765-845. -/
def composite (env : Env) (stempl : Bytes) (insts : List Bytes) (body : Bytes) : Bytes :=
  if body = [0x65, 0x72, 0x72, 0x6E, 0x6F] then env.errno
  else if body = [0x65, 0x72, 0x72, 0x6E, 0x6F, 0x3A, 0x73, 0x74, 0x72] then env.strerror
  else if body = [0x65, 0x72, 0x72, 0x6E, 0x6F, 0x3A, 0x66, 0x75, 0x6C, 0x6C] then
    env.strerror ++ ([0x20, 0x28, 0x65, 0x72, 0x72, 0x6E, 0x6F, 0x20] ++ (env.errno ++ [0x29]))
  else if body = [0x74, 0x69, 0x6D, 0x65] then env.localTime
  else if body = [0x74, 0x69, 0x6D, 0x65, 0x3A, 0x75, 0x74, 0x63] then env.utcTime
  else if body = [] then []
  else insert stempl insts (scanNumber 0 body)

/-- The loop of `formatv`, tinyfmt.hpp:693-857.  `next` is what remains of the template.  `fuel` is an artifact: every
iteration consumes at least one byte, so the length of the template is enough; when it is used up, the outcome is `ub`. -/
def loop (env : Env) (stempl : Bytes) (insts : List Bytes) : Nat → Bytes → Bytes → Res Bytes
  | 0, _, _ => .ub
  | fuel + 1, out, next =>
    -- Look for the next placeholder.
    let out := out ++ next.takeWhile (· ≠ 0x24)
    match next.dropWhile (· ≠ 0x24) with
    | [] => .ok out
    | _ :: next =>
      match next with
      | [] => .throw
      | c :: next =>
        if c = 0x24 then loop env stempl insts fuel (out ++ [0x24]) next
        else if 0x30 ≤ c ∧ c ≤ 0x39 then
          loop env stempl insts fuel (out ++ insert stempl insts (c - 0x30).toNat) next
        else if c = 0x7B then
          match next.dropWhile (· ≠ 0x7D) with
          | [] => .throw
          | _ :: rest => loop env stempl insts fuel (out ++ composite env stempl insts (next.takeWhile (· ≠ 0x7D))) rest
        else .throw

/-- `formatv`, tinyfmt.hpp:686-858. -/
def formatv (env : Env) (stempl : Bytes) (insts : List Bytes) : Res Bytes :=
  loop env stempl insts (stempl.length + 1) [] stempl

/-- `std.string.format`, string.cpp:1650-1672.  `safe_c_str` (cow_string.hpp:1169-1178) throws an exception if there is a null
character. -/
def format (env : Env) (templ : Bytes) (values : List Bytes) : Res Bytes :=
  if 0 ∈ templ then .throw else formatv env templ values

end Asteria.Format
