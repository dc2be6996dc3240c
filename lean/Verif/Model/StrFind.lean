import Verif.Model.Basic

/-!
# Searching in `rocket::cow_string`

Texts and patterns are lists of bytes read by index; reading outside is undefined behaviour.  Characters are `char`.  Positions
are `size_t`, with `npos` for none.
-/

namespace Asteria.StrFind

/-- `npos`, /repo/asteria/rocket/cow_string.hpp:147. -/
def npos : Nat := 2 ^ 64 - 1

/-- `it[i]`: undefined outside the range. -/
def rd (l : Bytes) (i : Nat) : Res UInt8 :=
  match l[i]? with
  | some b => .ok b
  | none => .ub

/-- `noadl::int_from(c) % NT`, /repo/asteria/rocket/details/cow_string.ipp:507, 525, fwd.hpp:1221-1227: characters are converted
to `unsigned char`. -/
def hash (c : UInt8) : Nat := c.toNat % 64

/-- The table `offsets` after the first loop, cow_string.ipp:502-509; an offset is converted to `offsetT`, that is, taken modulo
`m`. -/
def offsets (m : Nat) (p : Bytes) : Nat → Nat :=
  (List.range (p.length - 1)).foldl
    (fun tbl k => fun h => if (p[k]?).map hash = some h then (k + 1) % m else tbl h) (fun _ => 0)

/-- The inner loop, cow_string.ipp:514-521, at offset `i` of the pattern: does the pattern match at `tcur`? -/
def compareAt (t p : Bytes) (tcur i : Nat) : Res Bool :=
  (rd t (tcur + i)).bind fun a => (rd p i).bind fun b =>
    if a = b then if i + 1 < p.length then compareAt t p tcur (i + 1) else .ok true
    else .ok false
termination_by p.length - i

/-- The outer loop, cow_string.ipp:511-527.  An offset as large as the pattern would not get on; it is mapped to `ub`. -/
def search (tbl : Nat → Nat) (t p : Bytes) (tcur : Nat) : Res (Option Nat) :=
  (compareAt t p tcur 0).bind fun ok =>
    if ok then .ok (some tcur)
    else (rd t (tcur + p.length - 1)).bind fun c =>
      if _h : tbl (hash c) < p.length then
        if tcur + p.length - tbl (hash c) + p.length ≤ t.length then search tbl t p (tcur + p.length - tbl (hash c)) else .ok none
      else .ub
termination_by t.length - tcur

/-- `do_boyer_moore_horspool_search`, cow_string.ipp:487-531; `m` is the number of values of `offsetT`.  `none` is the position
passed as `npos`. -/
def bmh (m : Nat) (t p : Bytes) : Res (Option Nat) :=
  if t.length < p.length ∨ p.length = 0 then .ub else search (offsets m p) t p 0

/-- The number of values of `uint8_t` or of `size_type`, cow_string.hpp:1278-1283, 1378-1383. -/
def width (n : Nat) : Nat := if n ≤ 0x100 then 2 ^ 8 else 2 ^ 64

/-- `find(from, s, n)`, cow_string.hpp:1256-1284.  The search begins at `data() + from`, and what it returns is returned as it
is. -/
def find (t : Bytes) (from' : Nat) (p : Bytes) : Res Nat :=
  if from' > t.length then .ok npos
  else if p.length = 0 then .ok from'
  else if t.length - from' < p.length then .ok npos
  else (bmh (width p.length) (t.drop from') p).map fun
    | some i => i
    | none => npos

/-- `rfind(to, s, n)`, cow_string.hpp:1358-1384.  Reverse iterators make the lists reversed ones; the subtraction is one of
`size_t`, and `d - npos` stands for none. -/
def rfind (t : Bytes) (to' : Nat) (p : Bytes) : Res Nat :=
  if t.length < p.length then .ok npos
  else if p.length = 0 then .ok (min to' t.length)
  else
    let d := min to' (t.length - p.length)
    (bmh (width p.length) (t.take (d + p.length)).reverse p.reverse).map fun r =>
      let k := match r with | some i => i | none => (d + 2 ^ 64 - npos) % 2 ^ 64
      (d + 2 ^ 64 - k) % 2 ^ 64

/-- `bitmap`, cow_string.hpp:1467-1476 and three times more.  `overflow` is zero for `char`. -/
def bitmap (s : Bytes) : UInt8 → Bool := s.foldl (fun m b => fun c => if c = b then true else m c) fun _ => false

/-- The second loop of `find_of` and `find_not_of`, cow_string.hpp:1478-1490, 1697-1709. -/
def upFrom (ok : UInt8 → Bool) (t : Bytes) (cur : Nat) : Res Nat :=
  (rd t cur).bind fun c => if ok c then .ok cur else if cur + 1 < t.length then upFrom ok t (cur + 1) else .ok npos
termination_by t.length - cur

/-- The second loop of `rfind_of` and `rfind_not_of`, cow_string.hpp:1593-1605, 1812-1824: before zero is `size_type(-1)`. -/
def downFrom (ok : UInt8 → Bool) (t : Bytes) : Nat → Res Nat
  | 0 => (rd t 0).map fun c => if ok c then 0 else npos
  | cur + 1 => (rd t (cur + 1)).bind fun c => if ok c then .ok (cur + 1) else downFrom ok t cur

/-- `find_of(from, s, n)`, cow_string.hpp:1458-1491. -/
def findOf (t : Bytes) (from' : Nat) (s : Bytes) : Res Nat :=
  if from' ≥ t.length then .ok npos else upFrom (bitmap s) t from'

/-- `rfind_of(to, s, n)`, cow_string.hpp:1573-1606. -/
def rfindOf (t : Bytes) (to' : Nat) (s : Bytes) : Res Nat :=
  if t.length = 0 then .ok npos else downFrom (bitmap s) t (min to' (t.length - 1))

/-- `find_not_of(from, s, n)`, cow_string.hpp:1686-1710. -/
def findNotOf (t : Bytes) (from' : Nat) (s : Bytes) : Res Nat :=
  if from' ≥ t.length then .ok npos else upFrom (fun c => !bitmap s c) t from'

/-- `rfind_not_of(to, s, n)`, cow_string.hpp:1797-1825. -/
def rfindNotOf (t : Bytes) (to' : Nat) (s : Bytes) : Res Nat :=
  if t.length = 0 then .ok npos else downFrom (fun c => !bitmap s c) t (min to' (t.length - 1))

/-- `find(from, c)` and `find_of(from, c)`, cow_string.hpp:1294-1300, 1500-1514; `xmemchr` is `memchr` of the C library. -/
def findChar (t : Bytes) (from' : Nat) (c : UInt8) : Res Nat :=
  if from' ≥ t.length then .ok npos
  else match (t.drop from').findIdx? (· = c) with
    | some i => .ok (from' + i)
    | none => .ok npos

/-- `rfind(to, c)` and `rfind_of(to, c)`, cow_string.hpp:1394-1400, 1615-1628. -/
def rfindChar (t : Bytes) (to' : Nat) (c : UInt8) : Res Nat :=
  if t.length = 0 then .ok npos else downFrom (· = c) t (min to' (t.length - 1))

/-- `find_not_of(from, c)`, cow_string.hpp:1720-1733. -/
def findNotChar (t : Bytes) (from' : Nat) (c : UInt8) : Res Nat :=
  if t.length = 0 then .ok npos else if from' < t.length then upFrom (· ≠ c) t from' else .ok npos

/-- `rfind_not_of(to, c)`, cow_string.hpp:1835-1848. -/
def rfindNotChar (t : Bytes) (to' : Nat) (c : UInt8) : Res Nat :=
  if t.length = 0 then .ok npos else downFrom (· ≠ c) t (min to' (t.length - 1))

end Asteria.StrFind
