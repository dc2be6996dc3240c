import Verif.Model.Basic
import Verif.Model.ArrayLib

/-!
# `rocket::cow_string`: reference-counted storage of strings

A heap of storage blocks with their reference counts, and the string operations written in terms of it.  A string has a
pointer to its text, a length, and a handle of a block; the text need not be in the block of the handle, nor at its
beginning.  `Res.ub` stands for: access to a freed block or outside of a block or of a literal, a failed assertion, and a
write into a block whose reference count is not one (which C++ itself does not forbid, but which is the mistake
copy-on-write has to avoid).

Not modelled: concurrent use of the counters, overflow of the counters (an `int`), allocators other than the standard one,
failure to allocate, characters other than `char`.
-/

namespace Asteria.CowString

/-- The constants: `ssize` is `sizeof(basic_storage)`, `limit` is `max_size()`
(/repo/asteria/rocket/details/cow_string.ipp:192-199), and `junk` is what is in memory that has not been written to. -/
structure Cfg where
  ssize : Nat
  limit : Nat
  junk : UInt8

/-- `storage_header` and `basic_storage`, cow_string.ipp:9-47: `nref`, the capacity that `nblk` implies, and `data`, which has
one more character for the terminator. -/
structure Block where
  nref : Nat
  cap : Nat
  cells : Bytes
deriving DecidableEq

/-- The blocks that are allocated, by address.  `next` is an address never given out so far (the C++
allocator may reuse addresses; whether it does is not observable here). -/
structure Heap where
  blk : Nat → Option Block
  next : Nat

/-- A pointer to characters: to a literal (a pointer into a literal is one to the rest of it), or into a block. -/
inductive Ptr where
  | lit (t : Bytes)
  | at (p off : Nat)
deriving DecidableEq

/-- `basic_cow_string`, /repo/asteria/rocket/cow_string.hpp:149-156: `m_ref.m_ptr`, `m_ref.m_len`, and the pointer in
`m_sth`. -/
structure Str where
  ptr : Ptr
  len : Nat
  sth : Option Nat
deriving DecidableEq

/-- `s_zstr` with no storage, cow_string.hpp:150-172. -/
def zstr : Str := ⟨.lit [], 0, none⟩

/-- `min_nblk_for_nchar`, cow_string.ipp:50-60. -/
def minNblk (c : Cfg) (n : Nat) : Nat := (n + c.ssize - 1) / c.ssize + 1

/-- `max_nchar_for_nblk`, cow_string.ipp:62-66. -/
def maxNchar (c : Cfg) (nblk : Nat) : Nat := (nblk - 1) * c.ssize

/-- `check_size_add`, cow_string.ipp:201-213; throws `length_error`. -/
def checkSizeAdd (c : Cfg) (base add : Nat) : Res Nat :=
  if base + add > c.limit then .throw else .ok (base + add)

/-- `round_up_capacity`, cow_string.ipp:215-222. -/
def roundUp (c : Cfg) (n : Nat) : Res Nat :=
  (checkSizeAdd c 0 n).map fun cap => maxNchar c (minNblk c cap)

/-- Characters `bs` are stored from offset `off` on (C++: `memcpy`, `memmove`, `xmempset`, assignments). -/
def overwrite (l : Bytes) (off : Nat) (bs : Bytes) : Bytes := l.take off ++ (bs ++ l.drop (off + bs.length))

namespace Heap

/-- A store to the block at address `p` (C++: assignments to the members of `*qstor`). -/
def set (H : Heap) (p : Nat) (b : Option Block) : Heap :=
  { H with blk := fun q => if q = p then b else H.blk q }

/-- Access to the block at address `p` (C++: `*qstor`). -/
def get (H : Heap) (p : Nat) : Res Block :=
  match H.blk p with
  | some b => .ok b
  | none => .ub

/-- `n` characters from `q + off` on. -/
def read (H : Heap) (q : Ptr) (off n : Nat) : Res Bytes :=
  match q with
  | .lit t => if off + n ≤ t.length + 1 then .ok (((t ++ [0]).drop off).take n) else .ub
  | .at p o => (H.get p).bind fun b =>
      if o + off + n ≤ b.cells.length then .ok ((b.cells.drop (o + off)).take n) else .ub

/-- Stores characters in a block. -/
def write (H : Heap) (p off : Nat) (bs : Bytes) : Res Heap :=
  (H.get p).bind fun b =>
    if b.nref ≠ 1 ∨ b.cells.length < off + bs.length then .ub
    else .ok (H.set p (some { b with cells := overwrite b.cells off bs }))

/-- `storage_handle::capacity`, cow_string.ipp:181-190. -/
def capacity (H : Heap) : Option Nat → Res Nat
  | none => .ok 0
  | some p => (H.get p).map fun b => b.cap

/-- `storage_handle::mut_data_opt`, cow_string.ipp:235-245: the block, if it is not shared. -/
def mutDataOpt (H : Heap) : Option Nat → Res (Option Nat)
  | none => .ok none
  | some p => (H.get p).map fun b => if b.nref = 1 then some p else none

/-- `storage_handle::unique`, cow_string.ipp:160-169. -/
def unique (H : Heap) (m : Option Nat) : Res Bool := (H.mutDataOpt m).map Option.isSome

/-- `reference_counter::increment`, /repo/asteria/rocket/reference_counter.hpp:67-74, as called by `share_with`. -/
def incref (H : Heap) : Option Nat → Res Heap
  | none => .ok H
  | some p => (H.get p).bind fun b =>
      if b.nref = 0 then .ub else .ok (H.set p (some { b with nref := b.nref + 1 }))

/-- The release of the old pointer in `do_reset`, cow_string.ipp:120-135, with `reference_counter::decrement`,
reference_counter.hpp:80-87, and `do_destroy_storage`, cow_string.ipp:137-146. -/
def decref (H : Heap) : Option Nat → Res Heap
  | none => .ok H
  | some p => (H.get p).bind fun b =>
      if b.nref = 0 then .ub
      else if b.nref = 1 then .ok (H.set p none)
      else .ok (H.set p (some { b with nref := b.nref - 1 }))

/-- `reallocate_more` called on a handle `self`, cow_string.ipp:247-273; `src` points to the `len` characters to copy. -/
def realloc (c : Cfg) (H : Heap) (self : Option Nat) (src : Ptr) (len add : Nat) : Res (Heap × Nat) :=
  (checkSizeAdd c len add).bind fun cap =>
    let rcap := maxNchar c (minNblk c cap)
    let q := H.next
    let H := { H.set q (some ⟨1, rcap, List.replicate (rcap + 1) c.junk⟩) with next := q + 1 }
    (H.write q cap [0]).bind fun H => (H.read src 0 len).bind fun bs => (H.write q 0 (bs ++ [0])).bind fun H =>
      (H.decref self).map fun H => (H, q)

/-- `do_set_data_and_size`, cow_string.hpp:331-338, with a pointer to the block of the handle. -/
def setData (H : Heap) (p n : Nat) : Res (Heap × Str) :=
  (H.write p n [0]).map fun H => (H, ⟨.at p 0, n, some p⟩)

/-- `append(s, n)`, `append(n, c)`, and `append(first, last)` with iterators whose distance is known,
cow_string.hpp:657-741.  `fetch` gives the `n` new characters; for iterators they are read one by one, in between the
writes, which do not change what they refer to.  `n <= cap - len` is unsigned. -/
def append (c : Cfg) (H : Heap) (s : Str) (n : Nat) (fetch : Heap → Res Bytes) : Res (Heap × Str) :=
  if n = 0 then .ok (H, s)
  else (H.mutDataOpt s.sth).bind fun ptr => (H.capacity s.sth).bind fun cap =>
    match ptr, decide (n ≤ (cap + 2 ^ 64 - s.len) % 2 ^ 64) with
    | some p, true =>
      (fetch H).bind fun bs => (H.write p s.len bs).bind fun H => H.setData p (s.len + n)
    | _, _ =>
      (H.realloc c none s.ptr s.len (n ||| cap / 2)).bind fun r =>
        (fetch r.1).bind fun bs => (r.1.write r.2 s.len bs).bind fun H => (H.setData r.2 (s.len + n)).bind fun r =>
          (r.1.decref s.sth).map fun H => (H, r.2)

/-- The loop over single-pass iterators in `append(first, last)`, cow_string.hpp:743-754; `p` is the new block. -/
def spLoop (c : Cfg) : Bytes → Heap → Nat → Nat → Res (Heap × Nat × Nat)
  | [], H, p, len => .ok (H, p, len)
  | a :: as, H, p, len =>
    (H.capacity (some p)).bind fun cap =>
      (if len ≥ cap then H.realloc c (some p) (.at p 0) len (cap / 2) else .ok (H, p)).bind fun r =>
        (r.1.write r.2 len [a]).bind fun H => spLoop c as H r.2 (len + 1)

/-- `append(first, last)` with single-pass iterators, whose distance `estimate_distance` reports as zero,
cow_string.hpp:713-759. -/
def appendSP (c : Cfg) (H : Heap) (s : Str) (as : Bytes) : Res (Heap × Str) :=
  if as = [] then .ok (H, s)
  else (H.capacity s.sth).bind fun cap =>
    (H.realloc c none s.ptr s.len (17 ||| cap / 2)).bind fun r =>
      (spLoop c as r.1 r.2 s.len).bind fun r => (r.1.setData r.2.1 r.2.2).bind fun r =>
        (r.1.decref s.sth).map fun H => (H, r.2)

/-- `mut_data`, cow_string.hpp:1180-1193. -/
def mutData (c : Cfg) (H : Heap) (s : Str) : Res (Heap × Str × Nat) :=
  (H.mutDataOpt s.sth).bind fun ptr =>
    match ptr, decide (some s.ptr = ptr.map (.at · 0)) with
    | some p, true => .ok (H, s, p)
    | _, _ => (H.realloc c s.sth s.ptr s.len 0).map fun r => (r.1, { s with ptr := .at r.2 0, sth := some r.2 }, r.2)

/-- `noadl::rotate` on the characters of a block, /repo/asteria/rocket/fwd.hpp:887-958; nothing from `e` on is touched. -/
def rotate (H : Heap) (p b seek e : Nat) : Res Heap :=
  (H.get p).bind fun k =>
    if k.nref ≠ 1 ∨ k.cells.length < e then .ub
    else (ArrayLib.rotateRange (k.cells.take e) b seek e).map fun l =>
      H.set p (some { k with cells := l ++ k.cells.drop e })

/-- `do_swizzle_unchecked`, cow_string.hpp:369-380. -/
def swizzle (c : Cfg) (H : Heap) (s : Str) (tpos tlen old : Nat) : Res (Heap × Str) :=
  (H.mutData c s).bind fun r =>
    (r.1.rotate r.2.2 tpos (tpos + tlen) (s.len + 1)).bind fun H =>
      (H.rotate r.2.2 tpos (old - tlen) (s.len - tlen)).map fun H => (H, { r.2.1 with len := s.len - tlen })

/-- `replace(tpos, tn, ...)`, cow_string.hpp:870-912, with `do_clamp_substr`, cow_string.hpp:358-367.  The overloads with
iterators, cow_string.hpp:922-970, are the same after a check; `insert`, `erase` and `assign`, cow_string.hpp:972-1052,
1116-1149, call `replace`. -/
def replace (c : Cfg) (H : Heap) (s : Str) (tpos tn n : Nat) (fetch : Heap → Res Bytes) : Res (Heap × Str) :=
  if tpos > s.len then .throw
  else (H.append c s n fetch).bind fun r => r.1.swizzle c r.2 tpos (min (s.len - tpos) tn) s.len

/-- `pop_back(n)`, cow_string.hpp:1054-1074. -/
def popBack (c : Cfg) (H : Heap) (s : Str) (n : Nat) : Res (Heap × Str) :=
  if n > s.len then .ub
  else if s.len = 0 then .ok (H, s)
  else (H.mutDataOpt s.sth).bind fun ptr =>
    match ptr with
    | some p => H.setData p (s.len - n)
    | none => (H.realloc c s.sth s.ptr (s.len - n) 0).bind fun r => r.1.setData r.2 (s.len - n)

/-- `substr(tpos, tn)`, cow_string.hpp:1076-1098; the result is a new string. -/
def substr (c : Cfg) (H : Heap) (s : Str) (tpos tn : Nat) : Res (Heap × Str) :=
  if tpos > s.len then .throw
  else
    let tlen := min (s.len - tpos) tn
    if tpos + tlen = s.len then
      (H.incref s.sth).map fun H =>
        (H, ⟨match s.ptr with | .lit t => .lit (t.drop tpos) | .at p o => .at p (o + tpos), tlen, s.sth⟩)
    else
      (H.realloc c none s.ptr 0 tlen).bind fun r => (r.1.read s.ptr tpos tlen).bind fun bs =>
        (r.1.write r.2 0 bs).bind fun H => H.setData r.2 tlen

/-- `mut(pos)` followed by an assignment, cow_string.hpp:609-617. -/
def setChar (c : Cfg) (H : Heap) (s : Str) (pos : Nat) (a : UInt8) : Res (Heap × Str) :=
  if pos ≥ s.len then .throw
  else (H.mutData c s).bind fun r => (r.1.write r.2.2 pos [a]).map fun H => (H, r.2.1)

/-- `resize(n, c)`, cow_string.hpp:484-491. -/
def resize (c : Cfg) (H : Heap) (s : Str) (n : Nat) (a : UInt8) : Res (Heap × Str) :=
  if s.len < n then H.append c s (n - s.len) (fun _ => .ok (List.replicate (n - s.len) a)) else H.popBack c s (s.len - n)

/-- `shrink_to_fit`, cow_string.hpp:521-541, with `do_deallocate`, cow_string.hpp:322-329. -/
def shrink (c : Cfg) (H : Heap) (s : Str) : Res (Heap × Str) :=
  if s.len = 0 then (H.decref s.sth).map fun H => (H, zstr)
  else (roundUp c s.len).bind fun rcap => (H.unique s.sth).bind fun u => (H.capacity s.sth).bind fun cap =>
    if !u ∨ cap ≤ rcap then .ok (H, s)
    else (H.realloc c none s.ptr s.len 0).bind fun r =>
      (r.1.decref s.sth).map fun H => (H, { s with ptr := .at r.2 0, sth := some r.2 })

/-- `reserve(n)`, cow_string.hpp:499-519. -/
def reserve (c : Cfg) (H : Heap) (s : Str) (n : Nat) : Res (Heap × Str) :=
  if n = 0 then H.shrink c s
  else (roundUp c (max s.len n)).bind fun rcap => (H.unique s.sth).bind fun u => (H.capacity s.sth).bind fun cap =>
    if u ∧ cap ≥ rcap then .ok (H, s)
    else (H.realloc c none s.ptr s.len (rcap - s.len)).bind fun r =>
      (r.1.decref s.sth).map fun H => (H, { s with ptr := .at r.2 0, sth := some r.2 })

/-- `operator=(const basic_cow_string&)`, cow_string.hpp:281-289, with `share_with`, cow_string.ipp:282-290.  The copy
constructor, cow_string.hpp:204-210, is the same with no storage in `m`. -/
def share (H : Heap) (m other : Option Nat) : Res Heap := (H.incref other).bind fun H => H.decref m

end Heap

/-! ### Programs that work with several strings -/

/-- What is copied: characters outside of all strings (C++: `const char*` and a length), or
`other.data() + pos` with `other.do_clamp_substr(pos, n)`. -/
inductive Src where
  | ext (b : Bytes)
  | sub (w pos n : Nat)

/-- A heap and a number of string objects (C++: variables, elements of containers, ...). -/
structure State where
  heap : Heap
  vec : List Str

/-- The operations of `cow_string`.  Strings are identified by number; `v` is the object that the function is called on.
`literal` replaces a string by one that was constructed from a literal, cow_string.hpp:174-202; `shallow` is
`operator=(shallow_type)`, cow_string.hpp:264-279; `move` is `operator=(basic_cow_string&&)`, cow_string.hpp:291-299; the result
of `substr` is assigned to `v` with the latter. -/
inductive Op where
  | literal (v : Nat) (b : Bytes)
  | shallow (v : Nat) (b : Bytes)
  | copy (v w : Nat)
  | move (v w : Nat)
  | swap (v w : Nat)
  | append (v : Nat) (src : Src)
  | fill (v n : Nat) (a : UInt8)
  | appendSP (v : Nat) (as : Bytes)
  | replace (v tpos tn : Nat) (src : Src)
  | replaceFill (v tpos tn n : Nat) (a : UInt8)
  | popBack (v n : Nat)
  | substr (v w tpos tn : Nat)
  | setChar (v pos : Nat) (a : UInt8)
  | resize (v n : Nat) (a : UInt8)
  | clear (v : Nat)
  | shrink (v : Nat)
  | reserve (v n : Nat)

namespace State

/-- String `v` (C++: the object itself). -/
def str (S : State) (v : Nat) : Res Str :=
  match S.vec[v]? with
  | some s => .ok s
  | none => .ub

/-- A pointer, an offset and a length for the source, cow_string.hpp:645-649, 846-850. -/
def resolve (S : State) : Src → Res (Ptr × Nat × Nat)
  | .ext b => .ok (.lit b, 0, b.length)
  | .sub w pos n => (S.str w).bind fun s => if pos > s.len then .throw else .ok (s.ptr, pos, min (s.len - pos) n)

/-- The outcome of a member function called on string `v`. -/
def put (S : State) (v : Nat) (r : Res (Heap × Str)) : Res State :=
  r.map fun r => ⟨r.1, S.vec.set v r.2⟩

/-- A step of a program; the functions are cited at `Op` and above.  `clear` is cow_string.hpp:543-550, `swap` is
cow_string.hpp:310-319. -/
def step (c : Cfg) (S : State) : Op → Res State
  | .literal v b => (S.str v).bind fun s => (S.heap.decref s.sth).map fun H => ⟨H, S.vec.set v ⟨.lit b, b.length, none⟩⟩
  | .shallow v b => (S.str v).map fun s => ⟨S.heap, S.vec.set v ⟨.lit b, b.length, s.sth⟩⟩
  | .copy v w => (S.str v).bind fun s => (S.str w).bind fun t =>
      (S.heap.share s.sth t.sth).map fun H => ⟨H, S.vec.set v t⟩
  | .move v w => (S.str v).bind fun s => (S.str w).map fun t =>
      ⟨S.heap, if v = w then S.vec else (S.vec.set v t).set w ⟨.lit [], 0, s.sth⟩⟩
  | .swap v w => (S.str v).bind fun s => (S.str w).map fun t => ⟨S.heap, (S.vec.set v t).set w s⟩
  | .append v src => (S.str v).bind fun s => (S.resolve src).bind fun r =>
      S.put v (S.heap.append c s r.2.2 fun H => H.read r.1 r.2.1 r.2.2)
  | .fill v n a => (S.str v).bind fun s => S.put v (S.heap.append c s n fun _ => .ok (List.replicate n a))
  | .appendSP v as => (S.str v).bind fun s => S.put v (S.heap.appendSP c s as)
  | .replace v tpos tn src => (S.str v).bind fun s => (S.resolve src).bind fun r =>
      S.put v (S.heap.replace c s tpos tn r.2.2 fun H => H.read r.1 r.2.1 r.2.2)
  | .replaceFill v tpos tn n a => (S.str v).bind fun s =>
      S.put v (S.heap.replace c s tpos tn n fun _ => .ok (List.replicate n a))
  | .popBack v n => (S.str v).bind fun s => S.put v (S.heap.popBack c s n)
  | .substr v w tpos tn => (S.str v).bind fun s => (S.str w).bind fun t =>
      (S.heap.substr c t tpos tn).bind fun r => (r.1.decref s.sth).map fun H => ⟨H, S.vec.set v r.2⟩
  | .setChar v pos a => (S.str v).bind fun s => S.put v (S.heap.setChar c s pos a)
  | .resize v n a => (S.str v).bind fun s => S.put v (S.heap.resize c s n a)
  | .clear v => (S.str v).map fun s => ⟨S.heap, S.vec.set v ⟨.lit [], 0, s.sth⟩⟩
  | .shrink v => (S.str v).bind fun s => S.put v (S.heap.shrink c s)
  | .reserve v n => (S.str v).bind fun s => S.put v (S.heap.reserve c s n)

/-- A program. -/
def run (c : Cfg) : List Op → State → Res State
  | [], S => .ok S
  | op :: ops, S => (S.step c op).bind (run c ops)

/-- `c_str()` of string `v` with the terminator: the characters up to `size()`, and the one there. -/
def text (S : State) (v : Nat) : Res Bytes := (S.str v).bind fun s => S.heap.read s.ptr 0 (s.len + 1)

/-- `n` strings after default construction. -/
def start (n : Nat) : State := ⟨⟨fun _ => none, 0⟩, List.replicate n zstr⟩

end State

end Asteria.CowString
