import Verif.Model.ArrayLib

/-!
# `static_vector` and `optional`
-/

namespace Asteria.StaticVector

/-- The number of values of `nelem_type`, /repo/asteria/rocket/details/static_vector.ipp:21, with `lowest_unsigned`,
/repo/asteria/rocket/fwd.hpp:1241-1251, and `integer_selector`, /repo/asteria/rocket/details/fwd.ipp:50-57: the first of
`unsigned char`, `unsigned short`, `unsigned int` and `unsigned long` that can represent the capacity minus one. -/
def countMod (cap : Nat) : Nat :=
  if cap - 1 < 2 ^ 8 then 2 ^ 8
  else if cap - 1 < 2 ^ 16 then 2 ^ 16
  else if cap - 1 < 2 ^ 32 then 2 ^ 32
  else 2 ^ 64

/-- `storage_handle`, static_vector.ipp:11-41: `m_nelem` and `m_data`.  A cell has an object or has none.

Simplification: allocators and debug fills are not represented; copying, moving and destroying elements does not throw;
arguments are values that are not affected by the operation (they are not elements of the vector that the operation moves
or destroys). -/
structure Vec (α : Type) where
  nelem : Nat
  cells : List (Option α)
deriving DecidableEq

/-- The default constructor, static_vector.ipp:43-48. -/
def Vec.new (cap : Nat) : Vec α := ⟨0, List.replicate cap none⟩

/-- Reading an object, `this->m_data[k]`; it has to exist. -/
def Vec.read (v : Vec α) (k : Nat) : Res α :=
  match v.cells[k]? with
  | some (some x) => .ok x
  | _ => .ub

/-- Assigning to an object, `this->m_data[k] = …`; it has to exist. -/
def Vec.store (v : Vec α) (k : Nat) (x : α) : Res (Vec α) :=
  match v.cells[k]? with
  | some (some _) => .ok { v with cells := v.cells.set k (some x) }
  | _ => .ub

/-- `emplace_back_unchecked`, static_vector.ipp:146-157.  `construct` on top of an object would leave that object without
a destructor call, which counts as undefined behaviour here. -/
def Vec.emplaceBackUnchecked (cap : Nat) (v : Vec α) (x : α) : Res (Vec α) :=
  if v.nelem < cap then
    match v.cells[v.nelem]? with
    | some none => .ok ⟨(v.nelem + 1) % countMod cap, v.cells.set v.nelem (some x)⟩
    | _ => .ub
  else .ub

/-- `pop_back_unchecked`, static_vector.ipp:159-168. -/
def Vec.popBackUnchecked (v : Vec α) : Res (Vec α) :=
  if 0 < v.nelem then
    match v.cells[v.nelem - 1]? with
    | some (some _) => .ok ⟨v.nelem - 1, v.cells.set (v.nelem - 1) none⟩
    | _ => .ub
  else .ub

/-- `append_n_unchecked`, static_vector.ipp:170-176. -/
def Vec.appendNUnchecked (cap : Nat) (v : Vec α) (x : α) : Nat → Res (Vec α)
  | 0 => .ok v
  | n + 1 => (v.emplaceBackUnchecked cap x).bind fun v => v.appendNUnchecked cap x n

/-- `append_range_unchecked`, static_vector.ipp:178-184. -/
def Vec.appendRangeUnchecked (cap : Nat) (v : Vec α) : List α → Res (Vec α)
  | [] => .ok v
  | x :: xs => (v.emplaceBackUnchecked cap x).bind fun v => v.appendRangeUnchecked cap xs

/-- `pop_n_unchecked`, static_vector.ipp:186-192. -/
def Vec.popNUnchecked (v : Vec α) : Nat → Res (Vec α)
  | 0 => .ok v
  | n + 1 => v.popBackUnchecked.bind fun v => v.popNUnchecked n

/-- The result of a call that ends with or without an exception: the vector afterwards, and what is returned. -/
abbrev Call (α β : Type) := Res (Vec α × Option β)

/-- `check_size_add`, static_vector.ipp:116-128: whether it returns. -/
def fits (cap base add : Nat) : Bool := decide (base + add < 2 ^ 64) && decide (base + add ≤ cap)

/-- `append` with a count, /repo/asteria/rocket/static_vector.hpp:415-427. -/
def Vec.append (cap : Nat) (v : Vec α) (n : Nat) (x : α) : Call α Unit :=
  if n = 0 then .ok (v, some ())
  else if fits cap v.nelem n then (v.appendNUnchecked cap x n).map fun v => (v, some ())
  else .ok (v, none)

/-- `append` with a range, static_vector.hpp:437-450; `estimate_distance`, /repo/asteria/rocket/details/fwd.ipp:26-44, is 0 for
iterators that are merely input iterators. -/
def Vec.appendRange (cap : Nat) (v : Vec α) (fwd : Bool) (xs : List α) : Call α Unit :=
  if xs.isEmpty then .ok (v, some ())
  else if fits cap v.nelem (if fwd then xs.length else 0) then
    (v.appendRangeUnchecked cap xs).map fun v => (v, some ())
  else .ok (v, none)

/-- `emplace_back` and `push_back`, static_vector.hpp:453-476. -/
def Vec.pushBack (cap : Nat) (v : Vec α) (x : α) : Call α Unit :=
  if fits cap v.nelem 1 then (v.emplaceBackUnchecked cap x).map fun v => (v, some ())
  else .ok (v, none)

/-- The objects in some cells; all of them have to exist. -/
def objects : List (Option α) → Res (List α)
  | [] => .ok []
  | some x :: cs => (objects cs).map fun xs => x :: xs
  | none :: _ => .ub

/-- `noadl::rotate` on the elements, /repo/asteria/rocket/fwd.hpp:887-958; the cells from `e` on are not touched. -/
def Vec.rotate (v : Vec α) (b seek e : Nat) : Res (Vec α) :=
  (objects (v.cells.take e)).bind fun xs =>
    (ArrayLib.rotateRange xs b seek e).map fun ys => { v with cells := ys.map some ++ v.cells.drop e }

/-- What the overloads of `insert` with a position do after `append` or `push_back`, static_vector.hpp:193-199, 480-532. -/
def Vec.swizzle (r : Call α Unit) (tpos kpos : Nat) : Call α Unit :=
  r.bind fun p =>
    match p.2 with
    | none => .ok (p.1, none)
    | some _ => (p.1.rotate tpos kpos p.1.nelem).map fun v => (v, some ())

/-- `insert` of one value, static_vector.hpp:479-498; `do_clamp_subvec`, 181-188, checks the position. -/
def Vec.insert (cap : Nat) (v : Vec α) (tpos : Nat) (x : α) : Call α Unit :=
  if tpos ≤ v.nelem then Vec.swizzle (v.pushBack cap x) tpos v.nelem else .ok (v, none)

/-- `insert` of a number of values, static_vector.hpp:500-510. -/
def Vec.insertN (cap : Nat) (v : Vec α) (tpos n : Nat) (x : α) : Call α Unit :=
  if tpos ≤ v.nelem then Vec.swizzle (v.append cap n x) tpos v.nelem else .ok (v, none)

/-- `insert` of a range, static_vector.hpp:512-533. -/
def Vec.insertRange (cap : Nat) (v : Vec α) (tpos : Nat) (fwd : Bool) (xs : List α) : Call α Unit :=
  if tpos ≤ v.nelem then Vec.swizzle (v.appendRange cap fwd xs) tpos v.nelem else .ok (v, none)

/-- `do_erase_unchecked`, static_vector.hpp:202-210. -/
def Vec.eraseUnchecked (v : Vec α) (tpos tlen : Nat) : Res (Vec α) :=
  (v.rotate tpos (tpos + tlen) v.nelem).bind fun v => v.popNUnchecked tlen

/-- `erase` with a position, static_vector.hpp:590-597. -/
def Vec.erase (v : Vec α) (tpos tn : Nat) : Call α Unit :=
  if tpos ≤ v.nelem then (v.eraseUnchecked tpos (min (v.nelem - tpos) tn)).map fun v => (v, some ())
  else .ok (v, none)

/-- `pop_back`, static_vector.hpp:615-621. -/
def Vec.popBack (v : Vec α) (n : Nat) : Call α Unit := (v.popNUnchecked n).map fun v => (v, some ())

/-- `clear`, static_vector.hpp:330-336. -/
def Vec.clear (v : Vec α) : Res (Vec α) := v.popNUnchecked v.nelem

/-- `resize`, static_vector.hpp:300-308. -/
def Vec.resize (cap : Nat) (v : Vec α) (n : Nat) (x : α) : Call α Unit :=
  if v.nelem < n then v.append cap (n - v.nelem) x else v.popBack (v.nelem - n)

/-- `reserve`, static_vector.hpp:316-322. -/
def Vec.reserve (cap : Nat) (v : Vec α) (n : Nat) : Call α Unit :=
  if fits cap 0 n then .ok (v, some ()) else .ok (v, none)

/-- `assign` of a number of values, static_vector.hpp:637-645. -/
def Vec.assign (cap : Nat) (v : Vec α) (n : Nat) (x : α) : Call α Unit := v.clear.bind fun v => v.append cap n x

/-- `assign` of a range, static_vector.hpp:647-656. -/
def Vec.assignRange (cap : Nat) (v : Vec α) (fwd : Bool) (xs : List α) : Call α Unit :=
  v.clear.bind fun v => v.appendRange cap fwd xs

/-- `at`, static_vector.hpp:339-345. -/
def Vec.«at» (v : Vec α) (pos : Nat) : Call α α :=
  if pos < v.nelem then (v.read pos).map fun x => (v, some x) else .ok (v, none)

/-- `ptr`, static_vector.hpp:348-354: the null pointer, or the object it points to. -/
def Vec.ptr (v : Vec α) (pos : Nat) : Res (Option α) :=
  if pos < v.nelem then (v.read pos).map some else .ok none

/-- `back`, static_vector.hpp:372-378. -/
def Vec.back (v : Vec α) : Res α := if v.nelem = 0 then .ub else v.read (v.nelem - 1)

/-- Assignment to what `mut` returns, static_vector.hpp:383-389. -/
def Vec.mut (v : Vec α) (pos : Nat) (x : α) : Call α Unit :=
  if pos < v.nelem then (v.store pos x).map fun v => (v, some ()) else .ok (v, none)

/-- Reading a range of elements through a pointer, `[data() + a, data() + a + n)`. -/
def Vec.slice (v : Vec α) (a : Nat) : Nat → Res (List α)
  | 0 => .ok []
  | n + 1 => (v.read a).bind fun x => (v.slice (a + 1) n).map fun xs => x :: xs

/-- `subvec`, static_vector.hpp:623-634. -/
def Vec.subvec (cap : Nat) (v : Vec α) (tpos tn : Nat) : Call α (Vec α) :=
  if tpos ≤ v.nelem then
    (v.slice tpos (min (v.nelem - tpos) tn)).bind fun xs =>
      ((Vec.new cap).appendRangeUnchecked cap xs).map fun w => (v, some w)
  else .ok (v, none)

/-- `for(k = …; k < m; ++k) this->m_data[k] = other.m_data[k]`, static_vector.ipp:200, 208; and with `move`, 225, 233.
`husk` is what moving leaves of a value; it is the identity for copies.  `n` is the number of rounds that remain. -/
def assignLoop (husk : α → α) (v w : Vec α) (k : Nat) : Nat → Res (Vec α × Vec α)
  | 0 => .ok (v, w)
  | n + 1 => (w.read k).bind fun x => (w.store k (husk x)).bind fun w => (v.store k x).bind fun v =>
      assignLoop husk v w (k + 1) n

/-- `for(k = m; k < other.m_nelem; ++k) this->emplace_back_unchecked(other.m_data[k])`, static_vector.ipp:203, and with
`move`, 228, 253, 268. -/
def emplaceLoop (cap : Nat) (husk : α → α) (v w : Vec α) (k : Nat) : Nat → Res (Vec α × Vec α)
  | 0 => .ok (v, w)
  | n + 1 => (w.read k).bind fun x => (w.store k (husk x)).bind fun w => (v.emplaceBackUnchecked cap x).bind fun v =>
      emplaceLoop cap husk v w (k + 1) n

/-- `for(k = 0; k < m; ++k) noadl::xswap(this->m_data[k], other.m_data[k])`, static_vector.ipp:250, 265. -/
def swapLoop (v w : Vec α) (k : Nat) : Nat → Res (Vec α × Vec α)
  | 0 => .ok (v, w)
  | n + 1 => (v.read k).bind fun x => (w.read k).bind fun y => (v.store k y).bind fun v => (w.store k x).bind fun w =>
      swapLoop v w (k + 1) n

/-- `copy_from`, static_vector.ipp:194-217, and `move_from`, 219-242, which differ in `move` only.  The result is both
vectors.  The copy and move constructors, static_vector.hpp:68-91, call them on a new vector; the assignments are 124-141.

Simplification: the vectors are not the same. -/
def Vec.takeFrom (cap : Nat) (husk : α → α) (v w : Vec α) : Res (Vec α × Vec α) :=
  if v.nelem < w.nelem then
    (assignLoop husk v w 0 v.nelem).bind fun p => emplaceLoop cap husk p.1 p.2 v.nelem (w.nelem - v.nelem)
  else
    (assignLoop husk v w 0 w.nelem).bind fun p =>
      (p.1.popNUnchecked (v.nelem - w.nelem)).map fun v => (v, p.2)

/-- `exchange_with`, static_vector.ipp:244-275; `swap`, static_vector.hpp:151-158.

Simplification: the vectors are not the same. -/
def Vec.exchangeWith (cap : Nat) (husk : α → α) (v w : Vec α) : Res (Vec α × Vec α) :=
  if v.nelem < w.nelem then
    (swapLoop v w 0 v.nelem).bind fun p =>
      (emplaceLoop cap husk p.1 p.2 v.nelem (w.nelem - v.nelem)).bind fun p =>
        (p.2.popNUnchecked (w.nelem - v.nelem)).map fun w => (p.1, w)
  else
    (swapLoop v w 0 w.nelem).bind fun p =>
      (emplaceLoop cap husk p.2 p.1 w.nelem (v.nelem - w.nelem)).bind fun p =>
        (p.2.popNUnchecked (v.nelem - w.nelem)).map fun v => (v, p.1)

/-- `~storage_handle`, static_vector.ipp:73-87, the loop: elements are destroyed backwards.  The result is the cells. -/
def Vec.destroyLoop (v : Vec α) : Nat → Res (List (Option α))
  | 0 => .ok v.cells
  | n + 1 =>
    match v.cells[n]? with
    | some (some _) => Vec.destroyLoop { v with cells := v.cells.set n none } n
    | _ => .ub

/-- The destructor, static_vector.ipp:73-87. -/
def Vec.destroy (v : Vec α) : Res (List (Option α)) := v.destroyLoop v.nelem

/-- A call of one of the functions that change a vector. -/
inductive Op (α : Type) where
  | append (n : Nat) (x : α)
  | appendRange (fwd : Bool) (xs : List α)
  | pushBack (x : α)
  | insert (tpos : Nat) (x : α)
  | insertN (tpos n : Nat) (x : α)
  | insertRange (tpos : Nat) (fwd : Bool) (xs : List α)
  | erase (tpos tn : Nat)
  | popBack (n : Nat)
  | clear
  | resize (n : Nat) (x : α)
  | reserve (n : Nat)
  | assign (n : Nat) (x : α)
  | assignRange (fwd : Bool) (xs : List α)
  | mut (pos : Nat) (x : α)

/-- Executing it; see the functions above. -/
def Vec.step (cap : Nat) (v : Vec α) : Op α → Call α Unit
  | .append n x => v.append cap n x
  | .appendRange fwd xs => v.appendRange cap fwd xs
  | .pushBack x => v.pushBack cap x
  | .insert tpos x => v.insert cap tpos x
  | .insertN tpos n x => v.insertN cap tpos n x
  | .insertRange tpos fwd xs => v.insertRange cap tpos fwd xs
  | .erase tpos tn => v.erase tpos tn
  | .popBack n => v.popBack n
  | .clear => v.clear.map fun v => (v, some ())
  | .resize n x => v.resize cap n x
  | .reserve n => v.reserve cap n
  | .assign n x => v.assign cap n x
  | .assignRange fwd xs => v.assignRange cap fwd xs
  | .mut pos x => v.mut pos x

/-- A program that makes calls one after another and goes on after exceptions; the results of the calls are whether they
threw. -/
def Vec.run (cap : Nat) (v : Vec α) : List (Op α) → Res (Vec α × List Bool)
  | [] => .ok (v, [])
  | o :: os => (v.step cap o).bind fun p => (Vec.run cap p.1 os).map fun q => (q.1, p.2.isNone :: q.2)

end Asteria.StaticVector
