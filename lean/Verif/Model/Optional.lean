import Verif.Model.StaticVector

/-!
# `optional`
-/

namespace Asteria.Optional

open StaticVector

/-- `optional`, /repo/asteria/rocket/optional.hpp:20-33: a `static_vector` of capacity 1. -/
abbrev Opt (α : Type) := Vec α

/-- `optional(nullopt_t)`, optional.hpp:36-41. -/
def new : Opt α := Vec.new 1

/-- `front` and `mut_front` of the vector, /repo/asteria/rocket/static_vector.hpp:364-370, 399-405; also `operator*` and
`operator->`, optional.hpp:264-284. -/
def front (o : Opt α) : Res α := if o.nelem = 0 then .ub else o.read 0

/-- `emplace_back` of the vector, static_vector.hpp:453-459.  That there is no room is an exception. -/
def emplaceBack (o : Opt α) (x : α) : Res (Opt α) :=
  (o.pushBack 1 x).bind fun p => match p.2 with
    | some _ => .ok p.1
    | none => .throw

/-- The constructors from a value, optional.hpp:43-57. -/
def ofValue (x : α) : Res (Opt α) := emplaceBack new x

/-- The constructor from an lvalue of another type of `optional`, optional.hpp:59-68; `conv` is the conversion of values. -/
def ofOther (conv : β → α) (p : Opt β) : Res (Opt α) :=
  if p.nelem = 0 then (front p).bind fun y => emplaceBack new (conv y) else .ok new

/-- The constructor from an rvalue of another type of `optional`, optional.hpp:70-79.  The result is both. -/
def ofOtherMove (conv : β → α) (husk : β → β) (p : Opt β) : Res (Opt α × Opt β) :=
  if p.nelem ≠ 0 then
    (front p).bind fun y => (p.store 0 (husk y)).bind fun p => (emplaceBack new (conv y)).map fun o => (o, p)
  else .ok (new, p)

/-- Assignment of `nullopt`, optional.hpp:81-86; `reset`, 287-293. -/
def reset (o : Opt α) : Res (Opt α) := o.clear

/-- Assignment of a value, optional.hpp:88-125. -/
def assign (o : Opt α) (x : α) : Res (Opt α) :=
  if o.nelem ≠ 0 then (front o).bind fun _ => o.store 0 x else emplaceBack o x

/-- Assignment of an lvalue of another type of `optional`, optional.hpp:127-144. -/
def assignOther (conv : β → α) (o : Opt α) (p : Opt β) : Res (Opt α) :=
  if p.nelem = 0 then o.clear
  else if o.nelem ≠ 0 then (front o).bind fun _ => (front p).bind fun y => o.store 0 (conv y)
  else (front p).bind fun y => emplaceBack o (conv y)

/-- Assignment of an rvalue of another type of `optional`, optional.hpp:146-163.  The result is both. -/
def assignOtherMove (conv : β → α) (husk : β → β) (o : Opt α) (p : Opt β) : Res (Opt α × Opt β) :=
  if p.nelem = 0 then o.clear.map fun o => (o, p)
  else if o.nelem ≠ 0 then
    (front o).bind fun _ => (front p).bind fun y => (p.store 0 (husk y)).bind fun p =>
      (o.store 0 (conv y)).map fun o => (o, p)
  else (front p).bind fun y => (p.store 0 (husk y)).bind fun p => (emplaceBack o (conv y)).map fun o => (o, p)

/-- `operator bool` and `has_value`, optional.hpp:174-178, 191-195. -/
def hasValue (o : Opt α) : Bool := o.nelem != 0

/-- `value`, optional.hpp:197-212. -/
def value (o : Opt α) : Res α := if o.nelem = 0 then .throw else front o

/-- `value_or`, optional.hpp:233-251. -/
def valueOr (o : Opt α) (d : α) : Res α := if o.nelem = 0 then .ok d else front o

/-- `move_value_or`, optional.hpp:254-261.  The caller moves the value out of the result. -/
def moveValueOr (husk : α → α) (o : Opt α) (d : α) : Res (α × Opt α) :=
  if o.nelem = 0 then .ok (d, o) else (front o).bind fun x => (o.store 0 (husk x)).map fun o => (x, o)

/-- `emplace`, optional.hpp:295-301. -/
def emplace (o : Opt α) (x : α) : Res (Opt α) := o.clear.bind fun o => emplaceBack o x

/-- `value_or_emplace`, optional.hpp:304-311: the value that the result refers to, and the object. -/
def valueOrEmplace (o : Opt α) (x : α) : Res (α × Opt α) :=
  if o.nelem = 0 then (emplaceBack o x).bind fun o => (o.read 0).map fun y => (y, o)
  else (front o).map fun y => (y, o)

/-- The implicit copy and move assignments and constructors (`husk` is the identity for copies), which are those of
`static_vector`. -/
def takeFrom (husk : α → α) (o p : Opt α) : Res (Opt α × Opt α) := Vec.takeFrom 1 husk o p

/-- `swap`, optional.hpp:165-172. -/
def swap (husk : α → α) (o p : Opt α) : Res (Opt α × Opt α) := Vec.exchangeWith 1 husk o p

/-- `operator==` of two, optional.hpp:320-325. -/
def eq (e : α → α → Bool) (o p : Opt α) : Res Bool :=
  if hasValue o && hasValue p then (front o).bind fun x => (front p).map fun y => e x y
  else .ok (!hasValue o == !hasValue p)

/-- `operator!=` of two, optional.hpp:327-332. -/
def ne (e : α → α → Bool) (o p : Opt α) : Res Bool :=
  if hasValue o && hasValue p then (front o).bind fun x => (front p).map fun y => !e x y
  else .ok (!hasValue o != !hasValue p)

/-- `operator==` of one and a value, optional.hpp:362-367, 376-381. -/
def eqValue (e : α → α → Bool) (o : Opt α) (y : α) : Res Bool :=
  if hasValue o then (front o).map fun x => e x y else .ok false

/-- `operator!=` of one and a value, optional.hpp:369-374, 383-388. -/
def neValue (e : α → α → Bool) (o : Opt α) (y : α) : Res Bool :=
  if hasValue o then (front o).map fun x => !e x y else .ok true

end Asteria.Optional
