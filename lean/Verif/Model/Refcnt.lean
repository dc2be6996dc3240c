import Verif.Model.Basic

/-!
# `refcnt_ptr`: reference-counted objects, pointers to them and threads
-/

namespace Asteria.Refcnt

/-- What is still to be done by the threads that have begun it.
* `drop o`: a pointer has been exchanged out of its `stored_pointer` and the counter of its object is to be
  decremented, /repo/asteria/rocket/details/refcnt_ptr.ipp:131-132;
* `del o`: the counter has been decremented to zero and the deleter is to be called, refcnt_ptr.ipp:133;
* `clear s`: the destructor of `stored_pointer` `s`, which is a member of an object that is being deleted,
  is to be called, refcnt_ptr.ipp:79-80. -/
inductive Act where
  | drop (o : Nat)
  | del (o : Nat)
  | clear (s : Nat)
deriving DecidableEq

/-- The state of all threads.  `slots` are the `stored_pointer`s, refcnt_ptr.ipp:54-140: variables of threads
(`home` is `none`) and members of objects (`home` is the object).  Objects are numbered as they are made;
`cnt` is `refcnt_cJveMKH5bI7L::m_nref`, refcnt_ptr.ipp:12, and `alive` is whether the object exists; `mem` are
the members of an object that are pointers.  `log` is what has been deleted, the last one first.

Simplification: which thread has begun what is not represented; whatever is in `pend` may go on at any time
and in any order, which includes every order that threads can produce. -/
structure State where
  slots : List (Option Nat)
  home : Nat → Option Nat
  next : Nat
  cnt : Nat → Nat
  alive : Nat → Bool
  mem : Nat → List Nat
  pend : List Act
  log : List Nat

/-- Nothing exists. -/
def State.init : State := ⟨[], fun _ => none, 0, fun _ => 0, fun _ => false, fun _ => [], [], []⟩

/-- What a thread does to pointers.
* `var`: a null pointer is created, refcnt_ptr.hpp:125-130;
* `make d k`: `make_refcnt` of an object with `k` members that are pointers, assigned to `d`,
  refcnt_ptr.hpp:361-365;
* `copy d s`: copy construction or assignment, refcnt_ptr.hpp:155-159, 195-201;
* `move d s`: move construction or assignment, refcnt_ptr.hpp:161-165, 203-209;
* `swap d s`: refcnt_ptr.hpp:211-217;
* `reset d`: `reset()`, assignment of `nullptr`, or destruction, refcnt_ptr.hpp:167-173, 273-279;
* `run a`: some thread goes on with what it has begun. -/
inductive Cmd where
  | var
  | make (d k : Nat)
  | copy (d s : Nat)
  | move (d s : Nat)
  | swap (d s : Nat)
  | reset (d : Nat)
  | run (a : Act)

/-- Access to a `stored_pointer`: one that does not exist, or is a member of an object that does not, is
undefined behaviour. -/
def State.get (st : State) (s : Nat) : Res (Option Nat) :=
  match st.slots[s]? with
  | none => .ub
  | some p =>
    match st.home s with
    | none => .ok p
    | some h => if st.alive h then .ok p else .ub

/-- What is left to do after a pointer has been exchanged out, refcnt_ptr.ipp:132-133: nothing if it is null. -/
def left (old : Option Nat) (pend : List Act) : List Act :=
  match old with
  | none => pend
  | some o => .drop o :: pend

/-- `exchange(m_ptr, ptr_new)` in `stored_pointer::reset`, refcnt_ptr.ipp:124-134, and what is left to do. -/
def State.put (st : State) (d : Nat) (p : Option Nat) : Res State :=
  (st.get d).map fun old => { st with slots := st.slots.set d p, pend := left old st.pend }

/-- `reference_counter::increment`, /repo/asteria/rocket/reference_counter.hpp:68-75: the assertion is that the counter was not
zero.  Simplification: the counter does not overflow. -/
def State.increment (st : State) (o : Nat) : Res State :=
  if st.alive o = false then .ub
  else if st.cnt o < 1 then .ub
  else .ok { st with cnt := fun x => if x = o then st.cnt o + 1 else st.cnt x }

/-- `stored_pointer::fork`, refcnt_ptr.ipp:113-122. -/
def State.fork (st : State) (s : Nat) : Res (Option Nat × State) :=
  (st.get s).bind fun p =>
  match p with
  | none => .ok (none, st)
  | some o => (st.increment o).map fun st => (some o, st)

/-- `stored_pointer::release`, refcnt_ptr.ipp:102-111. -/
def State.release (st : State) (s : Nat) : Res (Option Nat × State) :=
  (st.get s).map fun p => (p, { st with slots := st.slots.set s none })

/-- `new elementT(…)` in `make_refcnt`, refcnt_ptr.hpp:361-365: an object whose counter is one,
reference_counter.hpp:24-28, and whose `k` members are null. -/
def State.create (st : State) (k : Nat) : Nat × State :=
  (st.next,
    { st with
      slots := st.slots ++ List.replicate k none
      home := fun s => if s < st.slots.length then st.home s
        else if s < st.slots.length + k then some st.next else none
      next := st.next + 1
      cnt := fun x => if x = st.next then 1 else st.cnt x
      alive := fun x => if x = st.next then true else st.alive x
      mem := fun x => if x = st.next then List.range' st.slots.length k else st.mem x })

/-- One of the actions that have been begun: `drop_reference`, reference_counter.hpp:81-88; the deleter,
which destroys the members; or the destructor of a member, whose object is being deleted. -/
def State.act (st : State) : Act → Res State
  | .drop o =>
    if st.alive o = false then .ub
    else if st.cnt o < 1 then .ub
    else .ok { st with
      cnt := fun x => if x = o then st.cnt o - 1 else st.cnt x
      pend := if st.cnt o - 1 = 0 then .del o :: st.pend else st.pend }
  | .del o =>
    if st.alive o = false then .ub
    else .ok { st with
      alive := fun x => if x = o then false else st.alive x
      log := o :: st.log
      pend := (st.mem o).map .clear ++ st.pend }
  | .clear s =>
    match st.slots[s]? with
    | none => .ub
    | some old => .ok { st with slots := st.slots.set s none, pend := left old st.pend }

/-- One step.  Simplification: in `copy`, incrementing the counter and exchanging the pointer is one step;
between them other threads cannot access `d`, and what they do elsewhere they can as well do before. -/
def State.exec (st : State) : Cmd → Res State
  | .var => .ok { st with
      slots := st.slots ++ [none]
      home := fun s => if s < st.slots.length then st.home s else none }
  | .make d k =>
    let r := st.create k
    r.2.put d (some r.1)
  | .copy d s => (st.fork s).bind fun r => r.2.put d r.1
  | .move d s => (st.release s).bind fun r => r.2.put d r.1
  | .swap d s => (st.get d).bind fun p => (st.get s).map fun q =>
      { st with slots := (st.slots.set d q).set s p }
  | .reset d => st.put d none
  | .run a => if a ∈ st.pend then { st with pend := st.pend.erase a }.act a else .ok st

/-- `use_count`, refcnt_ptr.ipp:91-94. -/
def State.useCount (st : State) (s : Nat) : Res Nat :=
  (st.get s).map fun p =>
    match p with
    | none => 0
    | some o => st.cnt o

end Asteria.Refcnt
