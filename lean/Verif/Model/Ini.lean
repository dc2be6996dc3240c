import Verif.Model.Lexer
import Verif.Model.Value
import Verif.Model.Csv

/-!
# Model of the INI library

/repo/asteria/src/library/ini.cpp: `std.ini.format` and `std.ini.parse`.  Objects are lists of pairs; the order is that of
insertion.  `print` is `Value::print_to` of a null, a boolean or a number.
-/

namespace Asteria.Ini

open Lexer (getlines)
open Csv (chop dropBom)

/-- `s_reject`, ini.cpp:13. -/
def reject (b : UInt8) : Bool := b = 0x5B || b = 0x5D || b = 0x3D || b = 0x3B || b = 0x23

/-- `s_comment`, ini.cpp:14. -/
def comment (b : UInt8) : Bool := b = 0x3B || b = 0x23

/-- `s_space`, ini.cpp:15. -/
def space (b : UInt8) : Bool := b = 0x20 || b = 0x09

/-! ### The formatter -/

/-- The checks of a key, ini.cpp:23-30, and of a string that is not empty, ini.cpp:54-61. -/
def allowed (s : Bytes) : Bool := !s.any reject && !(s.head?.any space) && !(s.getLast?.any space)

/-- `do_format_key`, ini.cpp:17-33. -/
def key (k : Bytes) : Res Bytes := if k = [] then .throw else if allowed k then .ok k else .throw

/-- `do_format_check_scalar`, ini.cpp:35-76, and what is written of the value, ini.cpp:89-92, 116-119: `none` if the value
is ignored. -/
def scalar (print : Value → Bytes) : Value → Res (Option Bytes)
  | .str s => if s = [] then .ok (some s) else if allowed s then .ok (some s) else .throw
  | .opaque _ | .func _ | .arr _ | .obj _ => .ok none
  | v => .ok (some (print v))

/-- The loops over properties, ini.cpp:83-96, 110-123: the text and the number of lines. -/
def props (print : Value → Bytes) : List (Bytes × Value) → Res (Bytes × Nat)
  | [] => .ok ([], 0)
  | (k, v) :: rest =>
    (scalar print v).bind fun
      | none => props print rest
      | some t =>
        (key k).bind fun k =>
          (props print rest).map fun r => (k ++ (0x3D :: (t ++ (0x0D :: 0x0A :: r.1))), r.2 + 1)

/-- The loop over sections, ini.cpp:98-124; `n` is `nlines`. -/
def sections (print : Value → Bytes) : Nat → List (Bytes × Value) → Res Bytes
  | _, [] => .ok []
  | n, (k, .obj ps) :: rest =>
    (key k).bind fun k =>
      (props print ps).bind fun r =>
        (sections print (n + 1 + r.2) rest).map fun t =>
          (if n ≠ 0 then [0x0D, 0x0A] else []) ++ (0x5B :: (k ++ (0x5D :: 0x0D :: 0x0A :: (r.1 ++ t))))
  | n, _ :: rest => sections print n rest

/-- `do_format_to`, ini.cpp:78-125. -/
def format (print : Value → Bytes) (obj : List (Bytes × Value)) : Res Bytes :=
  (props print obj).bind fun r => (sections print r.2 obj).map fun t => r.1 ++ t

/-! ### The parser -/

/-- An element of the result: a string, or a section. -/
inductive Entry where
  | text (t : Bytes)
  | sect (l : List (Bytes × Bytes))
deriving DecidableEq

/-- `insert_or_assign`. -/
def assign {α : Type} (k : Bytes) (v : α) : List (Bytes × α) → List (Bytes × α)
  | [] => [(k, v)]
  | x :: l => if x.1 = k then (k, v) :: l else x :: assign k v l

/-- The variables of `do_parse_from`, ini.cpp:128-130: the result, and the name of the section that `sink` points to, if
any. -/
structure St where
  root : List (Bytes × Entry)
  sink : Option Bytes
deriving DecidableEq

/-- `sink->insert_or_assign`, ini.cpp:204.  The section that `sink` points to exists and stays where it is as long as
`sink` points to it, for the root is not modified in the meantime. -/
def St.put (st : St) (k t : Bytes) : St :=
  match st.sink with
  | none => { st with root := assign k (.text t) st.root }
  | some n =>
    { st with root := st.root.map fun x =>
        match x with
        | (m, .sect l) => if m = n then (m, .sect (assign k t l)) else (m, .sect l)
        | x => x }

/-- `root.try_emplace` and the assertion after it, ini.cpp:178-180. -/
def St.enter (st : St) (n : Bytes) : Res St :=
  match st.root.lookup n with
  | none => .ok ⟨st.root ++ [(n, .sect [])], some n⟩
  | some (.sect _) => .ok ⟨st.root, some n⟩
  | some (.text _) => .ub

/-- `line.rfind_not_of(s_space); line.erase(pos + 1)`, ini.cpp:158-159, 190-195. -/
def rtrim (s : Bytes) : Bytes := (s.reverse.dropWhile space).reverse

/-- A line without comments and spaces around it, ini.cpp:161-204. -/
def item (st : St) (line : Bytes) : Res St :=
  if line.head? = some 0x5B then
    if line.getLast? ≠ some 0x5D then .throw
    else if ((line.drop 1).dropWhile space).length = 1 then .throw
    else st.enter ((line.drop 1).dropLast)
  else
    match line.dropWhile (· ≠ 0x3D) with
    | [] => .ok (st.put line [])
    | _ :: v =>
      let k := line.takeWhile (· ≠ 0x3D)
      if k = [] then .throw
      else if rtrim k = [] then .throw
      else .ok (st.put (rtrim k) (v.dropWhile space))

/-- One turn of the loop over lines, ini.cpp:142-205, after the byte order mark has been removed. -/
def doLine (st : St) (line : Bytes) : Res St :=
  let line := (chop line).takeWhile fun b => !comment b
  match line.dropWhile space with
  | [] => .ok st
  | s => item st (rtrim s)

/-- The loop over lines, ini.cpp:135-205. -/
def lines : St → List Bytes → Res St
  | st, [] => .ok st
  | st, l :: ls => (doLine st l).bind fun st => lines st ls

/-- `do_parse_from`, ini.cpp:127-206, called from `std_ini_parse`, ini.cpp:227-235. -/
def parse (text : Bytes) : Res (List (Bytes × Entry)) :=
  (lines ⟨[], none⟩ (dropBom (getlines [] text))).map (·.root)

end Asteria.Ini
