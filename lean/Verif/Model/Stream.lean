import Verif.Model.LinearBuffer

/-!
# Formatting streams: `tinyfmt_str`, `tinyfmt_ln`, `putn_latin1`, and the flags of `tinyfmt_file::open`
-/

namespace Asteria.Stream

variable {α : Type}

/-- `tinyfmt_base::open_mode`, /repo/asteria/rocket/tinyfmt_base.hpp:19-30: a set of bits. -/
abbrev Mode := Nat

/-- `mode & open_read`, tinyfmt_base.hpp:22. -/
def canRead (m : Mode) : Bool := m.testBit 0
/-- `mode & open_write`, tinyfmt_base.hpp:23. -/
def canWrite (m : Mode) : Bool := m.testBit 1
/-- `mode & open_append`, tinyfmt_base.hpp:25. -/
def appends (m : Mode) : Bool := m.testBit 2

/-- `basic_tinyfmt_str`, /repo/asteria/rocket/tinyfmt_str.hpp:26-28.  `off` is an `int64_t`.  The storage of
the string and its sharing are those of `CowString`; here it is its elements. -/
structure Str (α : Type) where
  str : List α
  off : Int
  mode : Mode

/-- Adding to an `int64_t`; overflow is undefined behaviour (`m_off += …`, `m_off ++`,
tinyfmt_str.hpp:284, 307, 341, 375). -/
def add64 (a b : Int) : Res Int :=
  if -(2 ^ 63 : Int) ≤ a + b ∧ a + b < (2 ^ 63 : Int) then .ok (a + b) else .ub

/-- `static_cast<size_t>(m_off)` where it is used as an offset from `data()`, tinyfmt_str.hpp:282, 306,
340, 374: a negative offset points outside of the string. -/
def offset (i : Int) : Res Nat := if 0 ≤ i then .ok i.toNat else .ub

/-- `seek_dir`, tinyfmt_base.hpp:12-17; `other` is a value that is none of the enumerators. -/
inductive Dir where
  | set
  | cur
  | fin
  | other
deriving DecidableEq

/-- `seek`, tinyfmt_str.hpp:223-262.  `noadl::addm`, /repo/asteria/rocket/fwd.hpp:463-471, reports overflow. -/
def seek (t : Str α) (off : Int) (dir : Dir) : Res (Str α) :=
  (match dir with
   | .set => Res.ok (0 : Int)
   | .cur => .ok t.off
   | .fin => .ok t.str.length
   | .other => .throw).bind fun orig =>
  if ¬ (-(2 ^ 63 : Int) ≤ orig + off ∧ orig + off < (2 ^ 63 : Int)) then .throw
  else if orig + off < 0 then .throw
  else .ok { t with off := orig + off }

/-- `tell`, tinyfmt_str.hpp:210-216. -/
def tell (t : Str α) : Int := t.off

/-- `getn`, tinyfmt_str.hpp:269-287. -/
def getn (t : Str α) (n : Nat) : Res (List α × Str α) :=
  if ¬ canRead t.mode then .throw
  else if t.off ≥ t.str.length then .ok ([], t)
  else
    (offset t.off).bind fun o =>
    (add64 t.off (min n (t.str.length - o) : Nat)).bind fun off =>
    .ok ((t.str.drop o).take (min n (t.str.length - o)), { t with off := off })

/-- `getc`, tinyfmt_str.hpp:293-309; `none` is -1. -/
def getc (t : Str α) : Res (Option α × Str α) :=
  if ¬ canRead t.mode then .throw
  else if t.off ≥ t.str.length then .ok (none, t)
  else
    (offset t.off).bind fun o =>
    (add64 t.off 1).bind fun off =>
    match t.str.drop o with
    | c :: _ => .ok (some c, { t with off := off })
    | [] => .ub

/-- `basic_cow_string::append(s, n)`, /repo/asteria/rocket/cow_string.hpp:657-683; `limit` is `max_size()`. -/
def append (limit : Nat) (str s : List α) : Res (List α) :=
  if s.length = 0 then .ok str
  else if str.length + s.length > limit then .throw
  else .ok (str ++ s)

/-- `basic_cow_string::resize(n)`, cow_string.hpp:485-491; `z` is `value_type()`. -/
def resize (limit : Nat) (z : α) (str : List α) (n : Nat) : Res (List α) :=
  if str.length < n then append limit str (List.replicate (n - str.length) z)
  else .ok (str.take n)

/-- `xmempcpy(mut_data() + off, s, n)`, tinyfmt_str.hpp:340-342; writing past the end of the string is
undefined behaviour. -/
def overwrite (str : List α) (o : Nat) (s : List α) : Res (List α) :=
  if o + s.length ≤ str.length then .ok (str.take o ++ s ++ str.drop (o + s.length)) else .ub

/-- `putn`, tinyfmt_str.hpp:314-344. -/
def putn (limit : Nat) (z : α) (t : Str α) (s : List α) : Res (Str α) :=
  if ¬ canWrite t.mode then .throw
  else if appends t.mode ∨ t.off = t.str.length then
    (append limit t.str s).map fun str => { t with str := str, off := str.length }
  else if t.off > limit then .throw
  else
    (offset t.off).bind fun o =>
    if s.length > limit - o then .throw
    else
      (resize limit z t.str (o + s.length)).bind fun str =>
      (add64 t.off s.length).bind fun off =>
      (overwrite str o s).map fun str => { t with str := str, off := off }

/-- `putc`, tinyfmt_str.hpp:349-378. -/
def putc (limit : Nat) (z : α) (t : Str α) (c : α) : Res (Str α) :=
  if ¬ canWrite t.mode then .throw
  else if appends t.mode ∨ t.off = t.str.length then
    (append limit t.str [c]).map fun str => { t with str := str, off := str.length }
  else if t.off ≥ limit then .throw
  else
    (offset t.off).bind fun o =>
    (resize limit z t.str (o + 1)).bind fun str =>
    (add64 t.off 1).bind fun off =>
    (overwrite str o [c]).map fun str => { t with str := str, off := off }

/-- `set_string(str)` and `set_string(str, mode)`, tinyfmt_str.hpp:164-182. -/
def setString (t : Str α) (s : List α) (m : Option Mode) : Str α :=
  { str := s, off := 0, mode := m.getD t.mode }

/-- `clear_string`, tinyfmt_str.hpp:184-190. -/
def clearString (t : Str α) : Str α := { t with str := [], off := 0 }

/-- `extract_string`, tinyfmt_str.hpp:192-197, whose result initializes another string, which leaves this
one empty. -/
def extractString (t : Str α) : List α × Str α := (t.str, { t with str := [], off := 0 })

/-- The move constructor, tinyfmt_str.hpp:83-88: the new stream, and what is left of the old one. -/
def moveFrom (t : Str α) : Str α × Str α := (t, { str := [], off := 0, mode := 0 })

/-! ## `putn_latin1` -/

/-- The loop of `basic_tinyfmt<charT>::putn_latin1`, /repo/asteria/rocket/tinyfmt.hpp:129-152, for any
stream: `put` is its `putn`, `ext` the zero-extension of one character, `x` the characters that are pending
and `M` is 32. -/
def latin1 {σ : Type} (put : σ → List α → Res σ) (ext : UInt8 → α) (M : Nat) : σ → List α → Bytes → Res σ
  | t, _, [] => .ok t
  | t, x, c :: s =>
    if x.length = M then .ub
    else if s ≠ [] ∧ (x ++ [ext c]).length ≠ M then latin1 put ext M t (x ++ [ext c]) s
    else (put t (x ++ [ext c])).bind fun t => latin1 put ext M t [] s

/-- `putn_latin1`, tinyfmt.hpp:129-152. -/
def putnLatin1 {σ : Type} (put : σ → List α → Res σ) (ext : UInt8 → α) (t : σ) (s : Bytes) : Res σ :=
  latin1 put ext 32 t [] s

/-! ## `tinyfmt_ln` -/

/-- `basic_tinyfmt_ln`, /repo/asteria/rocket/tinyfmt_ln.hpp:26-27. -/
structure Ln (α : Type) where
  buf : LinearBuffer.Buf α
  mode : Mode

/-- `tell`, tinyfmt_ln.hpp:190-196. -/
def Ln.tell (_ : Ln α) : Int := -1

/-- `seek`, tinyfmt_ln.hpp:200-207. -/
def Ln.seek (_ : Ln α) (_ : Int) (_ : Dir) : Res (Ln α) := .throw

/-- `getn`, tinyfmt_ln.hpp:213-223. -/
def Ln.getn (t : Ln α) (n : Nat) : Res (List α × Ln α) :=
  if ¬ canRead t.mode then .throw
  else (LinearBuffer.getn t.buf n).map fun r => (r.1, { t with buf := r.2 })

/-- `getc`, tinyfmt_ln.hpp:229-239. -/
def Ln.getc (t : Ln α) : Res (Option α × Ln α) :=
  if ¬ canRead t.mode then .throw
  else (LinearBuffer.getc t.buf).map fun r => (r.1, { t with buf := r.2 })

/-- `putn`, tinyfmt_ln.hpp:244-255. -/
def Ln.putn (limit : Nat) (t : Ln α) (s : List α) : Res (Ln α) :=
  if ¬ canWrite t.mode then .throw
  else (LinearBuffer.putn limit t.buf s).map fun b => { t with buf := b }

/-- `putc`, tinyfmt_ln.hpp:260-271. -/
def Ln.putc (limit : Nat) (t : Ln α) (c : α) : Res (Ln α) :=
  if ¬ canWrite t.mode then .throw
  else (LinearBuffer.putc limit t.buf c).map fun b => { t with buf := b }

/-- `clear_buffer`, tinyfmt_ln.hpp:164-169. -/
def Ln.clear (t : Ln α) : Ln α := { t with buf := LinearBuffer.clear t.buf }

/-! ## `tinyfmt_file::open` -/

/-- The flags passed to `::open`, /repo/asteria/rocket/tinyfmt_file.hpp:124-179.  `O_NOCTTY`, which is
always there, and `_O_BINARY`, which is not on POSIX, are left out. -/
structure Flags where
  rd : Bool
  wr : Bool
  append : Bool
  creat : Bool
  trunc : Bool
  excl : Bool
deriving DecidableEq

/-- `mstr[0] = c`, tinyfmt_file.hpp:168. -/
def setFirst (s : Bytes) (c : UInt8) : Bytes := c :: s.drop 1

/-- The part of `open` up to the call of `::open`, tinyfmt_file.hpp:120-176: the flags, and the mode string
for `::fdopen` (114 is `r`, 119 is `w`, 43 is `+`, 98 is `b` and 97 is `a`). -/
def openArgs (m : Mode) : Res (Flags × Bytes) :=
  (if m.testBit 0 = true ∧ m.testBit 1 = false then
     Res.ok ((⟨true, false, false, false, false, false⟩ : Flags), ([114] : Bytes))
   else if m.testBit 0 = false ∧ m.testBit 1 = true then .ok (⟨false, true, false, false, false, false⟩, [119])
   else if m.testBit 0 = true ∧ m.testBit 1 = true then .ok (⟨true, true, false, false, false, false⟩, [114, 43])
   else .throw).bind fun (f, s) =>
  let s := if m.testBit 3 then s ++ [98] else s
  let f := if m.testBit 6 then { f with excl := true } else f
  if m.testBit 1 then
    let (f, s) := if m.testBit 2 then ({ f with append := true }, setFirst s 97) else (f, s)
    let f := if m.testBit 4 then { f with creat := true } else f
    let f := if m.testBit 5 then { f with trunc := true } else f
    .ok (f, s)
  else .ok (f, s)

end Asteria.Stream
