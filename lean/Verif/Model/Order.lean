import Verif.Model.Basic

/-!
# Memory ordering of `reference_counter`

One storage that is shared by threads, and its counter.  What happens before what is tracked with vector
clocks: `clk t j` is how many events of thread `j` happen before the next one of `t`.
-/

namespace Asteria.Order

/-- What is done to a storage: its elements are read or written, its counter is accessed atomically, or the
whole is constructed or destroyed. -/
inductive Kind where
  | read
  | write
  | atomic
  | whole
deriving DecidableEq

/-- Whether two accesses conflict, so that it is a data race, which is undefined behaviour, if neither
happens before the other (C++ [intro.races]). -/
def conflict : Kind → Kind → Bool
  | .whole, _ => true
  | _, .whole => true
  | .write, .write => true
  | .write, .read => true
  | .read, .write => true
  | _, _ => false

/-- An access: what, by which thread, and which event of that thread it is. -/
structure Access where
  kind : Kind
  who : Nat
  time : Nat

/-- The state of a storage and all threads.  `refs` has the owner of every reference.  `mods` is how many times
the counter, /repo/asteria/rocket/reference_counter.hpp:21, has been modified; `val n` is its value after the
`n`th modification and `rel n` is what happens before an acquire operation that reads that value.  `seen t` is
the last modification that happens before what `t` does next, so it cannot read an earlier value
([intro.races], read-read and write-read coherence).  `accs` is what has been done to the storage, and `gone`
is whether it has been destroyed. -/
structure State where
  refs : List Nat
  mods : Nat
  val : Nat → Nat
  rel : Nat → Nat → Nat
  clk : Nat → Nat → Nat
  seen : Nat → Nat
  accs : List Access
  gone : Bool

/-- Thread 0 has constructed a storage; the counter is one, reference_counter.hpp:24-28. -/
def State.init : State :=
  { refs := [0]
    mods := 0
    val := fun _ => 1
    rel := fun _ _ => 0
    clk := fun t j => if t = 0 ∧ j = 0 then 1 else 0
    seen := fun _ => 0
    accs := [⟨.whole, 0, 1⟩]
    gone := false }

/-- What a thread does.
* `read t`: it reads elements, /repo/asteria/rocket/details/cow_string.ipp:225-233 (`data_opt`);
* `mutate t i`: it calls `mut_data_opt`, cow_string.ipp:235-245, cow_vector.ipp:362-372 or
  cow_hashmap.ipp:555-565, where the load of the counter in `unique()`, reference_counter.hpp:43-46, reads
  the `i`th value; and if it is told that it is the only owner, it writes elements;
* `copy t`: `increment`, reference_counter.hpp:68-75;
* `drop t`: `decrement`, reference_counter.hpp:81-88, and if the result is zero, destruction,
  cow_string.ipp:133 and cow_vector.ipp:260;
* `send t u`: it hands one of its references to `u`, with whatever synchronization (a mutex, a thread that is
  created or joined);
* `sync t u`: it synchronizes with `u`, and nothing else. -/
inductive Cmd where
  | read (t : Nat)
  | mutate (t i : Nat)
  | copy (t : Nat)
  | drop (t : Nat)
  | send (t u : Nat)
  | sync (t u : Nat)

/-- One more event of thread `t`. -/
def State.tick (st : State) (t : Nat) : State :=
  { st with clk := fun x j => if x = t ∧ j = t then st.clk x j + 1 else st.clk x j }

/-- What happens before what `t` does next now also includes `c`. -/
def State.join (st : State) (t : Nat) (c : Nat → Nat) : State :=
  { st with clk := fun x j => if x = t then max (st.clk x j) (c j) else st.clk x j }

/-- `t` has seen the `n`th value of the counter. -/
def State.see (st : State) (t n : Nat) : State :=
  { st with seen := fun x => if x = t then max (st.seen x) n else st.seen x }

/-- An access by `t`: undefined behaviour if the storage has been destroyed, or if an access that conflicts
does not happen before it. -/
def State.access (st : State) (t : Nat) (k : Kind) : Res State :=
  if st.gone = true then .ub
  else if st.accs.any (fun a => conflict a.kind k && decide (st.clk t a.who < a.time)) = true then .ub
  else .ok { st with accs := ⟨k, t, st.clk t t⟩ :: st.accs }

/-- A modification of the counter by `t`, which has seen it afterwards. -/
def State.modify (st : State) (t v : Nat) (r : Nat → Nat) : State :=
  { st with
    mods := st.mods + 1
    val := fun n => if n = st.mods + 1 then v else st.val n
    rel := fun n => if n = st.mods + 1 then r else st.rel n
    seen := fun x => if x = t then st.mods + 1 else st.seen x }

/-- `fetch_sub(1, memory_order_acq_rel)` by `t`, reference_counter.hpp:85. -/
def State.dropped (st : State) (t : Nat) : State :=
  let st := st.join t (st.rel st.mods)
  { st.modify t (st.val st.mods - 1) (st.clk t) with refs := st.refs.erase t }

/-- `unique()`, reference_counter.hpp:43-46, by thread `t`, which reads the `i`th value.  The code has
`memory_order_relaxed`; `acq` is whether it were `memory_order_acquire`. -/
def State.load (st : State) (acq : Bool) (t i : Nat) : Res State :=
  (st.access t .atomic).map fun st =>
    let st := st.see t i
    if acq then st.join t (st.rel i) else st

/-- One step. -/
def State.exec (acq : Bool) (st : State) : Cmd → Res State
  | .read t => (st.tick t).access t .read
  | .mutate t i =>
    ((st.tick t).load acq t i).bind fun st =>
    if st.val i = 1 then (st.tick t).access t .write else .ok st
  | .copy t =>
    -- `fetch_add(1, memory_order_relaxed)`: it continues the release sequence
    ((st.tick t).access t .atomic).bind fun st =>
    if st.val st.mods < 1 then .ub
    else .ok { st.modify t (st.val st.mods + 1) (st.rel st.mods) with refs := t :: st.refs }
  | .drop t =>
    ((st.tick t).access t .atomic).bind fun st =>
    if st.val st.mods < 1 then .ub
    else
      let st := st.dropped t
      if st.val st.mods = 0 then
        ((st.tick t).access t .whole).map fun st => { st with gone := true }
      else .ok st
  | .send t u => .ok { (st.join u (st.clk t)).see u (st.seen t) with refs := u :: st.refs.erase t }
  | .sync t u => .ok ((st.join u (st.clk t)).see u (st.seen t))

end Asteria.Order
