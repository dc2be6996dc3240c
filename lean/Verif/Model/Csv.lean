import Verif.Model.Lexer
import Verif.Model.Value

/-!
# Model of the CSV library

/repo/asteria/src/library/csv.cpp: `std.csv.format` and `std.csv.parse`.
-/

namespace Asteria.Csv

open Lexer (getlines cQuote)

/-! ### The formatter -/

/-- `str.find_of(",\n\"") != npos`, csv.cpp:30. -/
def special (b : UInt8) : Bool := b = 0x2C || b = 0x0A || b = 0x22

/-- The loop that doubles quotation marks, csv.cpp:33-37. -/
def double : Bytes → Bytes
  | [] => []
  | b :: s => if b = 0x22 then 0x22 :: 0x22 :: double s else b :: double s

/-- A string, csv.cpp:27-42, 45.  If it is written as is, then `Value::print_to`, value.cpp:448-452, puts it between
quotation marks and escapes its characters. -/
def cellText (s : Bytes) : Bytes :=
  if s.any special then 0x22 :: (double s ++ [0x22]) else 0x22 :: (cQuote s ++ [0x22])

/-- A cell, csv.cpp:24-45.  `print` is `Value::print_to` of a null, a boolean or a number. -/
def valueText (print : Value → Bytes) : Value → Bytes
  | .opaque _ | .func _ | .arr _ | .obj _ => []
  | .str s => cellText s
  | v => print v

/-- A row, csv.cpp:20-46. -/
def rowText (print : Value → Bytes) : List Value → Bytes
  | [] => []
  | [v] => valueText print v
  | v :: w :: vs => valueText print v ++ 0x2C :: rowText print (w :: vs)

/-- `do_print_to`, csv.cpp:13-50.  `as_array` throws if a row is not an array. -/
def format (print : Value → Bytes) : List Value → Res Bytes
  | [] => .ok []
  | .arr row :: rest => (format print rest).map fun t => rowText print row ++ (0x0D :: 0x0A :: t)
  | _ :: _ => .throw

/-! ### The parser -/

/-- The variables of `do_parse_from`, csv.cpp:55-57: the rows, last row first, the cells of each row, last cell first;
`quote_allowed`; and whether `quote_at_line` is not zero.  `cell` points to the last cell of the last row whenever it is
used, so it is not kept apart. -/
structure St where
  rows : List (List Bytes)
  allowed : Bool
  quoted : Bool
deriving DecidableEq

/-- `cell->append`: if there is no cell, then this is undefined. -/
def St.append (st : St) (t : Bytes) : Res St :=
  match st.rows with
  | (c :: cs) :: rs => .ok { st with rows := ((c ++ t) :: cs) :: rs }
  | _ => .ub

/-- `row.emplace_back(V_string())` on the last row. -/
def St.newCell (st : St) : Res St :=
  match st.rows with
  | cs :: rs => .ok { st with rows := ([] :: cs) :: rs }
  | [] => .ub

/-- `if(row.empty())`, csv.cpp:83-87. -/
def St.first (st : St) : Res St :=
  match st.rows with
  | [] :: _ => st.newCell
  | _ :: _ => .ok st
  | [] => .ub

/-- The loop over a line, csv.cpp:78-139; `s` is what follows `offset`.  `line[dpos]` reads a null character at the end of
the line.  The first argument bounds the number of iterations. -/
def loop : Nat → St → Bytes → Res St
  | _, st, [] => .ok st
  | 0, _, _ :: _ => .ub
  | n + 1, st, b :: t =>
    let s := b :: t
    if st.quoted = false then
      st.first.bind fun st =>
        if st.allowed ∧ b = 0x22 then loop n { st with quoted := true } t
        else
          match s.dropWhile (· ≠ 0x2C) with
          | [] => (st.append s).map fun st => { st with allowed := true }
          | _ :: r =>
            (st.append (s.takeWhile (· ≠ 0x2C))).bind fun st =>
              ({ st with allowed := true } : St).newCell.bind fun st => loop n st r
    else
      match s.dropWhile (· ≠ 0x22) with
      | [] => st.append (s ++ [0x0A])
      | _ :: 0x22 :: r => (st.append (s.takeWhile (· ≠ 0x22) ++ [0x22])).bind fun st => loop n st r
      | _ :: r => (st.append (s.takeWhile (· ≠ 0x22))).bind fun st => loop n { st with quoted := false, allowed := false } r

/-- `if(line.ends_with("\r")) line.pop_back()`, csv.cpp:70-71. -/
def chop (line : Bytes) : Bytes := if line.getLast? = some 0x0D then line.dropLast else line

/-- The byte order mark, csv.cpp:66. -/
def bom : Bytes := [0xEF, 0xBB, 0xBF]

/-- One turn of the loop over lines, csv.cpp:69-139, after the byte order mark has been removed. -/
def doLine (st : St) (line : Bytes) : Res St :=
  let line := chop line
  loop (line.length + 1) (if st.quoted then st else { st with rows := [] :: st.rows }) line

/-- The loop over lines, csv.cpp:62-140. -/
def lines : St → List Bytes → Res St
  | st, [] => .ok st
  | st, l :: ls => (doLine st l).bind fun st => lines st ls

/-- `if((nlines == 1) && line.starts_with(...)) line.erase(0, 3)`, csv.cpp:66-67. -/
def dropBom : List Bytes → List Bytes
  | [] => []
  | l :: ls => (if bom.isPrefixOf l then l.drop 3 else l) :: ls

/-- `do_parse_from`, csv.cpp:52-144, called from `std_csv_parse`, csv.cpp:165-173. -/
def parse (text : Bytes) : Res (List (List Bytes)) :=
  (lines ⟨[], true, false⟩ (dropBom (getlines [] text))).bind fun st =>
    if st.quoted then .throw else .ok (st.rows.reverse.map List.reverse)

end Asteria.Csv
