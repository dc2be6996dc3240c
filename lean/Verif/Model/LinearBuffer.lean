import Verif.Model.Basic

/-!
# `rocket::basic_linear_buffer`
-/

namespace Asteria.LinearBuffer

/-- `basic_linear_buffer`, /repo/asteria/rocket/linear_buffer.hpp:37-39, with its `basic_storage`,
/repo/asteria/rocket/details/linear_buffer.ipp:24-26: `cells` are the `m_cap` elements at `m_ptr`, `none`
for one that has not been initialized. -/
structure Buf (α : Type) where
  cells : List (Option α)
  goff : Nat
  eoff : Nat
deriving DecidableEq

variable {α : Type}

/-- A default-constructed buffer, linear_buffer.hpp:42-47. -/
def empty : Buf α := ⟨[], 0, 0⟩

/-- `size`, linear_buffer.hpp:195-198.  On `size_t` the difference would wrap around. -/
def size (b : Buf α) : Nat := b.eoff - b.goff

/-- `clear`, linear_buffer.hpp:210-217. -/
def clear (b : Buf α) : Buf α := { b with goff := 0, eoff := 0 }

/-- `capacity_after_end`, linear_buffer.hpp:313-316. -/
def capacityAfterEnd (b : Buf α) : Nat := b.cells.length - b.eoff

/-- `basic_storage::reserve`, details/linear_buffer.ipp:82-132, and the update of offsets,
linear_buffer.hpp:322-327.  `limit` is `max_size()`; arithmetic overflow throws the same exception.  What
the allocator throws is not modelled. -/
def relocate (limit : Nat) (b : Buf α) (nadd : Nat) : Res (Buf α) :=
  if b.eoff < b.goff ∨ b.cells.length < b.eoff then .ub
  else if nadd ≤ b.cells.length - (b.eoff - b.goff) then
    .ok ⟨(b.cells.drop b.goff).take (b.eoff - b.goff) ++ b.cells.drop (b.eoff - b.goff), 0, b.eoff - b.goff⟩
  else if b.eoff - b.goff + nadd > limit then .throw
  else
    .ok ⟨(b.cells.drop b.goff).take (b.eoff - b.goff) ++
      List.replicate ((b.eoff - b.goff + nadd ||| 0x1000) - (b.eoff - b.goff)) none, 0, b.eoff - b.goff⟩

/-- `reserve_after_end`, linear_buffer.hpp:318-332; the result is `capacity_after_end()`.  Modelled is the
build without ASTERIA_DEBUG. -/
def reserve (limit : Nat) (b : Buf α) (nbump : Nat) : Res (Nat × Buf α) :=
  (if nbump > capacityAfterEnd b then relocate limit b nbump else .ok b).map
    fun b => (capacityAfterEnd b, b)

/-- `accept`, linear_buffer.hpp:334-341. -/
def accept (b : Buf α) (nbump : Nat) : Res (Buf α) :=
  if nbump ≤ capacityAfterEnd b then .ok { b with eoff := b.eoff + nbump } else .ub

/-- `unaccept`, linear_buffer.hpp:343-353. -/
def unaccept (b : Buf α) (nbump : Nat) : Res (Buf α) :=
  if nbump ≤ b.eoff - b.goff then .ok { b with eoff := b.eoff - nbump } else .ub

/-- `discard`, linear_buffer.hpp:235-245. -/
def discard (b : Buf α) (nbump : Nat) : Res (Buf α) :=
  if nbump ≤ b.eoff - b.goff then .ok { b with goff := b.goff + nbump } else .ub

/-- Writing elements from `mut_end()` on; writing past the storage is undefined behaviour. -/
def writeEnd (b : Buf α) (s : List α) : Res (Buf α) :=
  if b.eoff + s.length ≤ b.cells.length then
    .ok { b with cells := b.cells.take b.eoff ++ s.map some ++ b.cells.drop (b.eoff + s.length) }
  else .ub

/-- Reading elements from `data()` on; reading outside of the storage or elements that have not been
initialized is undefined behaviour. -/
def readBegin (b : Buf α) (n : Nat) : Res (List α) :=
  if b.goff + n ≤ b.cells.length then
    match ((b.cells.drop b.goff).take n).mapM id with
    | some l => .ok l
    | none => .ub
  else .ub

/-- `putn(s, n)`, linear_buffer.hpp:373-380, where `s` does not point into the buffer. -/
def putn (limit : Nat) (b : Buf α) (s : List α) : Res (Buf α) :=
  (reserve limit b s.length).bind fun r => (writeEnd r.2 s).bind fun b => accept b s.length

/-- `putn(n, c)`, linear_buffer.hpp:364-371. -/
def fill (limit : Nat) (b : Buf α) (n : Nat) (c : α) : Res (Buf α) :=
  (reserve limit b n).bind fun r => (writeEnd r.2 (List.replicate n c)).bind fun b => accept b n

/-- `putc`, linear_buffer.hpp:355-362. -/
def putc (limit : Nat) (b : Buf α) (c : α) : Res (Buf α) :=
  (reserve limit b 1).bind fun r => (writeEnd r.2 [c]).bind fun b => accept b 1

/-- `peekn`, linear_buffer.hpp:247-257. -/
def peekn (b : Buf α) (n : Nat) : Res (List α) :=
  if min n (size b) ≤ 0 then .ok [] else readBegin b (min n (size b))

/-- `getn`, linear_buffer.hpp:259-270. -/
def getn (b : Buf α) (n : Nat) : Res (List α × Buf α) :=
  if min n (size b) ≤ 0 then .ok ([], b)
  else (readBegin b (min n (size b))).bind fun l => (discard b (min n (size b))).map fun b => (l, b)

/-- `peekc`, linear_buffer.hpp:272-283; `none` is -1. -/
def peekc (b : Buf α) : Res (Option α) := (peekn b 1).map List.head?

/-- `getc`, linear_buffer.hpp:285-296; `none` is -1. -/
def getc (b : Buf α) : Res (Option α × Buf α) := (getn b 1).map fun r => (r.1.head?, r.2)

/-- `do_copy_from`, linear_buffer.hpp:170-176, used by copy construction and assignment:
`this->clear()` and `this->putn(other.data(), other.size())`. -/
def copyFrom (limit : Nat) (this other : Buf α) : Res (Buf α) :=
  (readBegin other (size other)).bind fun s => putn limit (clear this) s

end Asteria.LinearBuffer
