import Verif.Model.Basic
import Verif.Model.ArrayLib

/-!
# `rocket::cow_vector`: reference-counted storage

A heap of storage blocks with their reference counts, and the vector operations written in terms of it.
`Res.ub` stands for: access to a freed block, to an element that is not constructed or has been moved from,
a failed assertion, and a write into a block whose reference count is not one (which C++ itself does not
forbid, but which is the mistake copy-on-write has to avoid).

Not modelled: concurrent use of the counters, overflow of the counters (an `int`), constructors of elements
that throw, allocators other than the standard one, failure to allocate.
-/

namespace Asteria.CowVector

/-- The constants of an instantiation: `vsize` is `sizeof(value_type)`, `ssize` is
`sizeof(basic_storage)`, `limit` is `max_size()` (/repo/asteria/rocket/details/cow_vector.ipp:319-326), and
`trivial` selects the overload of `do_transfer` at cow_vector.ipp:133-142. -/
structure Cfg where
  vsize : Nat
  ssize : Nat
  limit : Nat
  trivial : Bool

/-- `storage_header` and `basic_storage`, cow_vector.ipp:10-66: `nref`, `nskip`, and the capacity that `nblk` implies.  `cells`
are the first `nelem` elements of `data`; `none` is an element not constructed or moved from. -/
structure Block (α : Type) where
  nref : Nat
  nskip : Nat
  cap : Nat
  cells : List (Option α)
deriving DecidableEq

/-- The blocks that are allocated, by address.  `next` is an address never given out so far (the C++
allocator may reuse addresses; whether it does is not observable here). -/
structure Heap (α : Type) where
  blk : Nat → Option (Block α)
  next : Nat

/-- `storage_handle::m_qstor`, cow_vector.ipp:212. -/
abbrev Ptr := Option Nat

/-- `min_nblk_for_nelem`, cow_vector.ipp:70-79.  The subtraction wraps around in the code if `nelem` is
zero, with the same result as here. -/
def minNblk (c : Cfg) (nelem : Nat) : Nat := (nelem * c.vsize + c.ssize - 1 - c.vsize) / c.ssize + 1

/-- `max_nelem_for_nblk`, cow_vector.ipp:81-85. -/
def maxNelem (c : Cfg) (nblk : Nat) : Nat := (nblk - 1) * c.ssize / c.vsize + 1

/-- `check_size_add`, cow_vector.ipp:328-340; throws `length_error`. -/
def checkSizeAdd (c : Cfg) (base add : Nat) : Res Nat :=
  if base + add > c.limit then .throw else .ok (base + add)

/-- `round_up_capacity`, cow_vector.ipp:342-349. -/
def roundUp (c : Cfg) (n : Nat) : Res Nat :=
  (checkSizeAdd c 0 n).map fun cap => maxNelem c (minNblk c cap)

section
variable {α : Type}

namespace Heap

/-- A store to the block at address `p` (C++: assignments to the members of `*qstor`). -/
def set (H : Heap α) (p : Nat) (b : Option (Block α)) : Heap α :=
  { H with blk := fun q => if q = p then b else H.blk q }

/-- Access to the block at address `p` (C++: `*qstor`). -/
def get (H : Heap α) (p : Nat) : Res (Block α) :=
  match H.blk p with
  | some b => .ok b
  | none => .ub

/-- `storage_handle::size`, cow_vector.ipp:374-383. -/
def size (H : Heap α) : Ptr → Res Nat
  | none => .ok 0
  | some p => (H.get p).map fun b => b.cells.length

/-- `storage_handle::capacity`, cow_vector.ipp:308-317. -/
def capacity (H : Heap α) : Ptr → Res Nat
  | none => .ok 0
  | some p => (H.get p).map fun b => b.cap

/-- `storage_handle::unique`, cow_vector.ipp:287-296. -/
def unique (H : Heap α) : Ptr → Res Bool
  | none => .ok false
  | some p => (H.get p).map fun b => decide (b.nref = 1)

/-- `mut_data_opt() != nullptr`, cow_vector.ipp:362-372: a null handle counts as writable. -/
def writable (H : Heap α) : Ptr → Res Bool
  | none => .ok true
  | some p => (H.get p).map fun b => decide (b.nref = 1)

/-- `reference_counter::increment`, /repo/asteria/rocket/reference_counter.hpp:67-74, as called by
`share_with`. -/
def incref (H : Heap α) : Ptr → Res (Heap α)
  | none => .ok H
  | some p => (H.get p).bind fun b =>
      if b.nref = 0 then .ub else .ok (H.set p (some { b with nref := b.nref + 1 }))

/-- The release of the old pointer in `do_reset`, cow_vector.ipp:249-262, with
`reference_counter::decrement`, reference_counter.hpp:80-87, and `do_destroy_storage`,
cow_vector.ipp:264-273. -/
def decref (H : Heap α) : Ptr → Res (Heap α)
  | none => .ok H
  | some p => (H.get p).bind fun b =>
      if b.nref = 0 then .ub
      else if b.nref = 1 then .ok (H.set p none)
      else .ok (H.set p (some { b with nref := b.nref - 1 }))

/-- The allocation and construction of a block in `reallocate_prepare` and `reallocate_clone`,
cow_vector.ipp:436-442, 468-474: `nelem` and `nskip` are both set to `len`. -/
def alloc (H : Heap α) (cap len : Nat) : Nat × Heap α :=
  (H.next, { blk := fun q => if q = H.next then some ⟨1, len, cap, List.replicate len none⟩ else H.blk q,
             next := H.next + 1 })

/-- `dispatch_transfer` and `do_transfer`, cow_vector.ipp:113-193.  The elements from `nskip` on are copied
to the new block; they are moved from the old block if it is not shared and the elements are not trivial.
The last of the elements constructed sets `nskip` of the new block; a trivial copy takes over `nskip` of the
old block.  The overloads for elements that cannot be copied or moved are not modelled. -/
def transfer (c : Cfg) (H : Heap α) (pnew pold nskip : Nat) : Res (Heap α) :=
  (H.get pnew).bind fun n => (H.get pold).bind fun o =>
    if o.cells.length < o.nskip ∨ o.cells.length ≠ n.nskip ∨ n.cells.length < n.nskip ∨ nskip < o.nskip then .ub
    else
      let cells := n.cells.take nskip ++ o.cells.drop nskip ++ n.cells.drop (max nskip o.cells.length)
      if c.trivial then
        .ok (H.set pnew (some { n with cells := cells, nskip := o.nskip }))
      else if (o.cells.drop nskip).any Option.isNone then .ub
      else
        let H := H.set pnew (some { n with cells := cells, nskip := if nskip < o.cells.length then nskip else n.nskip })
        .ok (if o.nref = 1 then
               H.set pold (some { o with cells := o.cells.take nskip ++ List.replicate (o.cells.length - nskip) none })
             else H)

end Heap

/-- What the constructor of an element is given: a value, or a reference to element `i` of the block at
`p`, which is read when the element is constructed. -/
inductive Arg (α : Type) where
  | val (a : α)
  | ref (p i : Nat)
deriving DecidableEq

namespace Heap

/-- The value that `construct` finds behind its argument (C++: lvalue-to-rvalue conversion). -/
def read (H : Heap α) : Arg α → Res α
  | .val a => .ok a
  | .ref p i => (H.get p).bind fun b =>
      match b.cells[i]? with
      | some (some a) => .ok a
      | _ => .ub

/-- `emplace_back_unchecked`, cow_vector.ipp:87-99. -/
def emplace (H : Heap α) (p : Nat) (a : Arg α) : Res (Heap α) :=
  (H.get p).bind fun b =>
    if b.nref ≠ 1 ∨ b.cap ≤ b.cells.length then .ub
    else (H.read a).map fun v => H.set p (some { b with cells := b.cells ++ [some v] })

/-- `append_n_unchecked` and `append_range_unchecked`, cow_vector.ipp:403-418. -/
def emplaceAll (H : Heap α) (p : Nat) : List (Arg α) → Res (Heap α)
  | [] => .ok H
  | a :: as => (H.emplace p a).bind fun H => H.emplaceAll p as

/-- `pop_back_unchecked`, cow_vector.ipp:100-110, on a handle, cow_vector.ipp:393-401. -/
def pop (H : Heap α) : Ptr → Res (Heap α)
  | none => .ub
  | some p => (H.get p).bind fun b =>
      if b.nref ≠ 1 ∨ b.cells.length = 0 then .ub
      else .ok (H.set p (some { b with cells := b.cells.dropLast }))

/-- `pop_n_unchecked`, cow_vector.ipp:419-425. -/
def popN (H : Heap α) (m : Ptr) : Nat → Res (Heap α)
  | 0 => .ok H
  | n + 1 => (H.pop m).bind fun H => H.popN m n

/-- `reallocate_clone` with `sth` being the handle itself, cow_vector.ipp:427-457; its only caller is
`mut_data`.  The new block has as many storage units as the old one. -/
def clone (c : Cfg) (H : Heap α) : Ptr → Res (Heap α × Ptr)
  | none => .ub
  | some p => (H.get p).bind fun b =>
      let r := H.alloc b.cap b.cells.length
      (if b.cells.length ≠ 0 then r.2.transfer c r.1 p 0 else .ok r.2).bind fun H =>
        (H.decref (some p)).map fun H => (H, some r.1)

/-- `reallocate_prepare`, cow_vector.ipp:459-490.  `self` is the handle it is called on, `sth` is its
argument; the new block is returned. -/
def prepare (c : Cfg) (H : Heap α) (self sth : Ptr) (skip add : Nat) : Res (Heap α × Nat) :=
  (H.size sth).bind fun len => (checkSizeAdd c len add).bind fun cap =>
    let r := H.alloc (maxNelem c (minNblk c cap)) len
    (if skip < len then
       match sth with
       | none => Res.ub
       | some p => r.2.transfer c r.1 p skip
     else .ok r.2).bind fun H =>
      (H.decref self).map fun H => (H, r.1)

/-- `reallocate_finish`, cow_vector.ipp:492-503. -/
def finish (c : Cfg) (H : Heap α) (p : Nat) (sth : Ptr) : Res (Heap α) :=
  (H.get p).bind fun b =>
    (if b.nskip ≠ 0 then
       match sth with
       | none => Res.ub
       | some q => H.transfer c p q 0
     else .ok H).bind fun H =>
      (H.get p).bind fun b => if b.nskip ≠ 0 then .ub else .ok H

/-- `cow_vector::mut_data`, /repo/asteria/rocket/cow_vector.hpp:790-800. -/
def mutData (c : Cfg) (H : Heap α) (m : Ptr) : Res (Heap α × Ptr) :=
  (H.writable m).bind fun w => if w then .ok (H, m) else H.clone c m

/-- `cow_vector::append` with a count or with iterators whose distance is known, cow_vector.hpp:476-533 and
545-548.  The new block is swapped into the handle, and the old one is released when `sth` goes out of
scope. -/
def append (c : Cfg) (H : Heap α) (m : Ptr) (args : List (Arg α)) : Res (Heap α × Ptr) :=
  if args.length = 0 then .ok (H, m)
  else (H.writable m).bind fun w => (H.capacity m).bind fun cap => (H.size m).bind fun len =>
    if w ∧ args.length ≤ cap - len then
      match m with
      | none => .ub
      | some p => (H.emplaceAll p args).map fun H => (H, m)
    else
      (H.prepare c none m len (args.length ||| cap / 2)).bind fun r =>
        (r.1.emplaceAll r.2 args).bind fun H =>
          (H.finish c r.2 m).bind fun H =>
            (H.decref m).map fun H => (H, some r.2)

/-- The loop over single-pass iterators in `append(first, last)`, cow_vector.hpp:535-545. -/
def spLoop (c : Cfg) (len : Nat) : List α → Heap α → Nat → Res (Heap α × Nat)
  | [], H, p => .ok (H, p)
  | a :: as, H, p =>
    (H.size (some p)).bind fun n => (H.capacity (some p)).bind fun cap =>
      (if n ≥ cap then H.prepare c (some p) (some p) len (cap / 2) else .ok (H, p)).bind fun r =>
        (r.1.emplace r.2 (.val a)).bind fun H => spLoop c len as H r.2

/-- `cow_vector::append(first, last)` with single-pass iterators, whose distance `estimate_distance`
reports as zero, cow_vector.hpp:511-549. -/
def appendSP (c : Cfg) (H : Heap α) (m : Ptr) (as : List α) : Res (Heap α × Ptr) :=
  if as = [] then .ok (H, m)
  else (H.capacity m).bind fun cap => (H.size m).bind fun len =>
    (H.prepare c none m len (17 ||| cap / 2)).bind fun r =>
      (spLoop c len as r.1 r.2).bind fun r =>
        (r.1.finish c r.2 m).bind fun H =>
          (H.decref m).map fun H => (H, some r.2)

/-- `cow_vector::emplace_back`, cow_vector.hpp:558-579. -/
def emplaceBack (c : Cfg) (H : Heap α) (m : Ptr) (a : Arg α) : Res (Heap α × Ptr) :=
  (H.writable m).bind fun w => (H.capacity m).bind fun cap => (H.size m).bind fun len =>
    if w ∧ len < cap then
      match m with
      | none => .ub
      | some p => (H.emplace p a).map fun H => (H, m)
    else
      (H.prepare c none m len (17 ||| cap / 2)).bind fun r =>
        (r.1.emplace r.2 a).bind fun H =>
          (H.finish c r.2 m).bind fun H =>
            (H.decref m).map fun H => (H, some r.2)

/-- A sequence of assignments to the elements through the pointer from `mut_data`, which turns the cells
`l` to `f l`.  A null pointer has no element. -/
def modify (H : Heap α) (m : Ptr) (f : List (Option α) → Res (List (Option α))) : Res (Heap α) :=
  match m with
  | none => (f []).map fun _ => H
  | some p => (H.get p).bind fun b => (f b.cells).bind fun l =>
      if b.nref ≠ 1 then .ub else .ok (H.set p (some { b with cells := l }))

/-- `cow_vector::insert(tpos, ...)` with several new elements, cow_vector.hpp:619-654, with `do_clamp_subvec`,
cow_vector.hpp:190-199, and `do_swizzle_unchecked`, cow_vector.hpp:201-210. -/
def insert (c : Cfg) (H : Heap α) (m : Ptr) (tpos : Nat) (args : List (Arg α)) : Res (Heap α × Ptr) :=
  (H.size m).bind fun kpos =>
    if tpos > kpos then .throw
    else (H.append c m args).bind fun r => (r.1.mutData c r.2).bind fun r =>
      (r.1.size r.2).bind fun n =>
        (r.1.modify r.2 fun l => ArrayLib.rotateRange l tpos kpos n).map fun H => (H, r.2)

/-- `cow_vector::insert(tpos, value)`, cow_vector.hpp:581-617. -/
def insertOne (c : Cfg) (H : Heap α) (m : Ptr) (tpos : Nat) (a : Arg α) : Res (Heap α × Ptr) :=
  (H.size m).bind fun kpos =>
    if tpos > kpos then .throw
    else (H.emplaceBack c m a).bind fun r => (r.1.mutData c r.2).bind fun r =>
      (r.1.size r.2).bind fun n =>
        (r.1.modify r.2 fun l => ArrayLib.rotateRange l tpos kpos n).map fun H => (H, r.2)

/-- `cow_vector::erase(tpos, tn)`, cow_vector.hpp:711-718, with `do_erase_unchecked`,
cow_vector.hpp:212-220. -/
def erase (c : Cfg) (H : Heap α) (m : Ptr) (tpos tn : Nat) : Res (Heap α × Ptr) :=
  (H.size m).bind fun size =>
    if tpos > size then .throw
    else
      let tlen := min (size - tpos) tn
      (H.mutData c m).bind fun r => (r.1.size r.2).bind fun n =>
        (r.1.modify r.2 fun l => ArrayLib.rotateRange l tpos (tpos + tlen) n).bind fun H =>
          (H.popN r.2 tlen).map fun H => (H, r.2)

/-- `cow_vector::pop_back(n)`, cow_vector.hpp:736-743. -/
def popBack (c : Cfg) (H : Heap α) (m : Ptr) (n : Nat) : Res (Heap α × Ptr) :=
  (H.mutData c m).bind fun r => (r.1.popN r.2 n).map fun H => (H, r.2)

/-- `cow_vector::mut(pos)` followed by an assignment to the element, cow_vector.hpp:438-447. -/
def write (c : Cfg) (H : Heap α) (m : Ptr) (pos : Nat) (a : α) : Res (Heap α × Ptr) :=
  (H.size m).bind fun size =>
    if pos ≥ size then .throw
    else (H.mutData c m).bind fun r =>
      (r.1.modify r.2 fun l => if pos < l.length then .ok (l.set pos (some a)) else .ub).map fun H => (H, r.2)

/-- `cow_vector::at(pos)`, cow_vector.hpp:396-403. -/
def at_ (H : Heap α) (m : Ptr) (pos : Nat) : Res α :=
  (H.size m).bind fun size =>
    if pos ≥ size then .throw
    else match m with
      | none => .ub
      | some p => H.read (.ref p pos)

/-- `cow_vector::resize(n, ...)`, cow_vector.hpp:313-321. -/
def resize (c : Cfg) (H : Heap α) (m : Ptr) (n : Nat) (a : Arg α) : Res (Heap α × Ptr) :=
  (H.size m).bind fun size =>
    if size < n then H.append c m (List.replicate (n - size) a) else H.popBack c m (size - n)

/-- `cow_vector::clear`, cow_vector.hpp:370-382. -/
def clear (H : Heap α) (m : Ptr) : Res (Heap α × Ptr) :=
  (H.unique m).bind fun u =>
    if u then (H.size m).bind fun n => (H.popN m n).map fun H => (H, m)
    else (H.decref m).map fun H => (H, none)

/-- `cow_vector::shrink_to_fit`, cow_vector.hpp:350-368. -/
def shrink (c : Cfg) (H : Heap α) (m : Ptr) : Res (Heap α × Ptr) :=
  (H.size m).bind fun size =>
    if size = 0 then (H.decref m).map fun H => (H, none)
    else (roundUp c size).bind fun rcap => (H.unique m).bind fun u => (H.capacity m).bind fun cap =>
      if !u ∨ cap ≤ rcap then .ok (H, m)
      else (H.prepare c none m 0 0).bind fun r => (r.1.decref m).map fun H => (H, some r.2)

/-- `cow_vector::reserve`, cow_vector.hpp:328-348. -/
def reserve (c : Cfg) (H : Heap α) (m : Ptr) (n : Nat) : Res (Heap α × Ptr) :=
  if n = 0 then H.shrink c m
  else (H.size m).bind fun size => (roundUp c (max size n)).bind fun rcap =>
    (H.unique m).bind fun u => (H.capacity m).bind fun cap =>
      if u ∧ cap ≥ rcap then .ok (H, m)
      else (H.prepare c none m 0 (rcap - size)).bind fun r => (r.1.decref m).map fun H => (H, some r.2)

/-- `cow_vector::assign` with elements outside of the vector, cow_vector.hpp:759-780. -/
def assign (c : Cfg) (H : Heap α) (m : Ptr) (as : List α) : Res (Heap α × Ptr) :=
  (H.clear m).bind fun r => r.1.append c r.2 (as.map .val)

/-- `cow_vector::subvec(tpos, tn)`, cow_vector.hpp:745-757; the result is a new handle. -/
def subvec (c : Cfg) (H : Heap α) (m : Ptr) (tpos tn : Nat) : Res (Heap α × Ptr) :=
  (H.size m).bind fun size =>
    if tpos > size then .throw
    else
      let tlen := min (size - tpos) tn
      (H.prepare c none none 0 tlen).bind fun r =>
        match m with
        | none => .ok (r.1, some r.2)
        | some p => (r.1.emplaceAll r.2 ((List.range' tpos tlen).map (.ref p))).map fun H => (H, some r.2)

/-- `operator=(const cow_vector&)`, cow_vector.hpp:128-135, with `share_with`, cow_vector.ipp:511-520.  The
copy constructor, cow_vector.hpp:72-77, is the same with `m` null. -/
def assignCopy (H : Heap α) (m other : Ptr) : Res (Heap α × Ptr) :=
  (H.incref other).bind fun H =>
    if m = none ∧ other = none then .ok (H, none) else (H.decref m).map fun H => (H, other)

end Heap

/-! ### Programs that work with several vectors -/

/-- An argument of a call: a value, or a reference to element `i` of vector `v`. -/
inductive Src (α : Type) where
  | val (a : α)
  | elem (v i : Nat)

/-- A heap and a number of vector objects (C++: variables, elements of other containers, ...). -/
structure State (α : Type) where
  heap : Heap α
  vec : List Ptr

/-- The operations of `cow_vector`.  The vectors are identified by number; `v` is the object that the
function is called on.  `move v w` is the move constructor and the move assignment operator as well as
`swap`, cow_vector.hpp:85-95, 137-144, 154-161, all of which exchange the pointers; `destroy` is the
destructor (or `do_deallocate`), after which the number denotes a new, empty vector. -/
inductive Op (α : Type) where
  | copy (v w : Nat)
  | move (v w : Nat)
  | destroy (v : Nat)
  | append (v : Nat) (srcs : List (Src α))
  | appendSP (v : Nat) (as : List α)
  | emplaceBack (v : Nat) (src : Src α)
  | insert (v tpos : Nat) (srcs : List (Src α))
  | insertOne (v tpos : Nat) (src : Src α)
  | erase (v tpos tn : Nat)
  | popBack (v n : Nat)
  | write (v pos : Nat) (a : α)
  | resize (v n : Nat) (src : Src α)
  | clear (v : Nat)
  | shrink (v : Nat)
  | reserve (v n : Nat)
  | assign (v : Nat) (as : List α)
  | subvec (v w tpos tn : Nat)

namespace State

/-- The pointer in vector `v` (C++: `m_sth.m_qstor`). -/
def ptr (S : State α) (v : Nat) : Ptr := (S.vec[v]?).getD none

/-- The reference that a caller passes (C++: `w[i]`, which must exist: cow_vector.hpp:414-420). -/
def resolve (S : State α) : Src α → Res (Arg α)
  | .val a => .ok (.val a)
  | .elem w i =>
    match S.ptr w with
    | none => .ub
    | some p => (S.heap.size (some p)).bind fun n => if i < n then .ok (.ref p i) else .ub

/-- `resolve` for a list of arguments. -/
def resolveAll (S : State α) : List (Src α) → Res (List (Arg α))
  | [] => .ok []
  | s :: ss => (S.resolve s).bind fun a => (S.resolveAll ss).map fun as => a :: as

/-- The outcome of a member function called on vector `v`: the pointer of that vector is replaced. -/
def put (S : State α) (v : Nat) (r : Res (Heap α × Ptr)) : Res (State α) :=
  r.map fun r => ⟨r.1, S.vec.set v r.2⟩

end State

/-- Performs an operation, by the functions above. -/
def Op.run {α : Type} (c : Cfg) (S : State α) : Op α → Res (State α)
  | .copy v w => S.put v (S.heap.assignCopy (S.ptr v) (S.ptr w))
  | .move v w => .ok ⟨S.heap, (S.vec.set v (S.ptr w)).set w (S.ptr v)⟩
  | .destroy v => S.put v ((S.heap.decref (S.ptr v)).map fun H => (H, none))
  | .append v ss => (S.resolveAll ss).bind fun as => S.put v (S.heap.append c (S.ptr v) as)
  | .appendSP v as => S.put v (S.heap.appendSP c (S.ptr v) as)
  | .emplaceBack v s => (S.resolve s).bind fun a => S.put v (S.heap.emplaceBack c (S.ptr v) a)
  | .insert v tpos ss => (S.resolveAll ss).bind fun as => S.put v (S.heap.insert c (S.ptr v) tpos as)
  | .insertOne v tpos s => (S.resolve s).bind fun a => S.put v (S.heap.insertOne c (S.ptr v) tpos a)
  | .erase v tpos tn => S.put v (S.heap.erase c (S.ptr v) tpos tn)
  | .popBack v n => S.put v (S.heap.popBack c (S.ptr v) n)
  | .write v pos a => S.put v (S.heap.write c (S.ptr v) pos a)
  | .resize v n s => (S.resolve s).bind fun a => S.put v (S.heap.resize c (S.ptr v) n a)
  | .clear v => S.put v (S.heap.clear (S.ptr v))
  | .shrink v => S.put v (S.heap.shrink c (S.ptr v))
  | .reserve v n => S.put v (S.heap.reserve c (S.ptr v) n)
  | .assign v as => S.put v (S.heap.assign c (S.ptr v) as)
  | .subvec v w tpos tn =>
    (S.heap.subvec c (S.ptr w) tpos tn).bind fun r => S.put v ((r.1.decref (S.ptr v)).map fun H => (H, r.2))

end

end Asteria.CowVector
