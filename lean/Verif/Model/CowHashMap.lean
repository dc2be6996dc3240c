import Verif.Model.HashTable

/-!
# `rocket::cow_hashmap`

The reference count of a storage is not part of this model: whether the storage is shared with other maps
when an operation begins is an argument `shared` of the operation, so that the operations are described for
every pattern of sharing.  `Verif.Model.CowVector` models the counts themselves.
-/

namespace Asteria.HashMap

open Asteria.Hash

/-- The constants of an instantiation: `bsize` is `sizeof(bucket_type)`, `ssize` is
`sizeof(basic_storage)`, `limit` is `max_size()` (/repo/asteria/rocket/details/cow_hashmap.ipp:511-519). -/
structure Cfg where
  bsize : Nat
  ssize : Nat
  limit : Nat

/-- `basic_storage`, cow_hashmap.ipp:107-123: the array of buckets and `nelem`.  `nblk` is implied by the
number of buckets. -/
structure Storage (K V : Type) where
  bkts : Table K V
  nelem : Nat
deriving DecidableEq

/-- `storage_handle`, cow_hashmap.ipp:346-374: a pointer to storage which may be null. -/
abbrev Map (K V : Type) := Option (Storage K V)

/-- `min_nblk_for_nbkt`, cow_hashmap.ipp:161-169.  The subtraction wraps around in the code if `nbkt` is
zero, with the same result as here. -/
def minNblk (c : Cfg) (nbkt : Nat) : Nat := (nbkt * c.bsize + c.ssize - 1 - c.bsize) / c.ssize + 1

/-- `max_nbkt_for_nblk`, cow_hashmap.ipp:171-176. -/
def maxNbkt (c : Cfg) (nblk : Nat) : Nat := (nblk - 1) * c.ssize / c.bsize + 1

/-- `storage_handle::size`, cow_hashmap.ipp:567-576. -/
def size {K V : Type} : Map K V → Nat
  | none => 0
  | some st => st.nelem

/-- `storage_handle::bucket_count`, cow_hashmap.ipp:495-504. -/
def bucketCount {K V : Type} : Map K V → Nat
  | none => 0
  | some st => st.bkts.length

/-- `storage_handle::capacity`, cow_hashmap.ipp:506-510. -/
def capacity {K V : Type} (h : Map K V) : Nat := bucketCount h / 2

/-- `round_up_capacity`, cow_hashmap.ipp:535-542. -/
def roundUp (c : Cfg) (n : Nat) : Res Nat :=
  if n > c.limit then .throw else .ok (maxNbkt c (minNblk c (n * 2)) / 2)

namespace Storage

variable {K V : Type}

/-- `adopt_value_unchecked(k, qval)`, cow_hashmap.ipp:240-253.  A bucket that is occupied or outside of
the table fails an assertion. -/
def adoptAt (st : Storage K V) (q : Nat) (e : K × V) : Res (Storage K V) :=
  match st.bkts[q]? with
  | some none => .ok ⟨st.bkts.set q (some e), st.nelem + 1⟩
  | _ => .ub

/-- `adopt_value_unchecked(qval)`, cow_hashmap.ipp:221-238. -/
def adopt (hash : K → Nat) (st : Storage K V) (e : K × V) : Res (Storage K V) :=
  (spare hash st.bkts e.1).bind fun q => st.adoptAt q e

/-- `dispatch_transfer`, cow_hashmap.ipp:312-331, and `do_copy_insert` without cloning,
cow_hashmap.ipp:287-298: buckets of the old storage in index order. -/
def transfer (hash : K → Nat) : Table K V → Storage K V → Res (Storage K V)
  | [], st => .ok st
  | none :: old, st => transfer hash old st
  | some e :: old, st => (st.adopt hash e).bind (transfer hash old)

/-- `do_copy_insert` with cloning, cow_hashmap.ipp:300-310: bucket `k` is copied to bucket `k`. -/
def cloneFrom : Table K V → Nat → Storage K V → Res (Storage K V)
  | [], _, st => .ok st
  | none :: old, k, st => cloneFrom old (k + 1) st
  | some e :: old, k, st => (st.adoptAt k e).bind (cloneFrom old (k + 1))

/-- `reallocate_clone`, cow_hashmap.ipp:655-685. -/
def clone (st : Storage K V) : Res (Storage K V) :=
  if st.nelem ≠ 0 then cloneFrom st.bkts 0 ⟨List.replicate st.bkts.length none, 0⟩
  else .ok ⟨List.replicate st.bkts.length none, 0⟩

/-- The loop over `[tpos,tpos+tlen)` in `erase_range_unchecked`, cow_hashmap.ipp:635-638, with
`extract_value_opt`, cow_hashmap.ipp:255-265. -/
def clearRange : List Nat → Storage K V → Res (Storage K V)
  | [], st => .ok st
  | k :: ks, st =>
    match st.bkts[k]? with
    | none => .ub
    | some none => clearRange ks st
    | some (some _) => clearRange ks ⟨st.bkts.set k none, st.nelem - 1⟩

/-- The predictor which relocates elements in `erase_range_unchecked`, cow_hashmap.ipp:640-652.  It always
returns `false`, so probing stops on the first empty bucket. -/
def relocate (hash : K → Nat) : List Nat → Storage K V → Res (Storage K V)
  | [], st => .ok st
  | k :: ks, st =>
    match st.bkts[k]? with
    | none => .ub
    | some none => .ok st
    | some (some e) => (adopt hash ⟨st.bkts.set k none, st.nelem - 1⟩ e).bind (relocate hash ks)

/-- `erase_range_unchecked`, cow_hashmap.ipp:624-653. -/
def eraseRange (hash : K → Nat) (st : Storage K V) (tpos tlen : Nat) : Res (Storage K V) :=
  if tlen = 0 then .ok st
  else (clearRange (List.range' tpos tlen) st).bind
    (relocate hash (probeOrder tpos (tpos + tlen) st.bkts.length))

/-- `keyed_try_emplace`, cow_hashmap.ipp:605-622, with `find`, cow_hashmap.ipp:578-603.  The result is
`tpos` and whether the element was inserted.  Storage without room fails an assertion. -/
def tryEmplace [DecidableEq K] (hash : K → Nat) (st : Storage K V) (k : K) (v : V) :
    Res ((Nat × Bool) × Storage K V) :=
  if st.nelem < st.bkts.length / 2 then
    (locate hash st.bkts k).bind fun q =>
      match st.bkts[q]? with
      | some (some _) => .ok ((q, false), st)
      | some none => (st.adoptAt q (k, v)).map fun st => ((q, true), st)
      | none => .ub
  else .ub

end Storage

section

variable {K V : Type}

/-- `reallocate_reserve(sth, finish, add)`, cow_hashmap.ipp:687-718. -/
def reserveNew (c : Cfg) (hash : K → Nat) (old : Map K V) (finish : Bool) (add : Nat) :
    Res (Storage K V) :=
  if size old + add > c.limit then .throw
  else if finish && decide (size old ≠ 0) then
    match old with
    | none => .ub
    | some st =>
      st.bkts |> fun b => Storage.transfer hash b
        ⟨List.replicate (maxNbkt c (minNblk c ((size old + add) * 2))) none, 0⟩
  else .ok ⟨List.replicate (maxNbkt c (minNblk c ((size old + add) * 2))) none, 0⟩

/-- `reallocate_finish(sth)`, cow_hashmap.ipp:720-737. -/
def finishNew (hash : K → Nat) (old : Map K V) (st : Storage K V) : Res (Storage K V) :=
  match old with
  | none => .ok st
  | some o => Storage.transfer hash o.bkts st

/-- `mut_buckets_opt`, cow_hashmap.ipp:555-565, and `do_mut_buckets`,
/repo/asteria/rocket/cow_hashmap.hpp:243-255: shared storage is cloned. -/
def mutBuckets (shared : Bool) (h : Map K V) : Res (Map K V) :=
  match h with
  | none => .ok none
  | some st => if shared then st.clone.map some else .ok (some st)

/-- `do_erase_unchecked`, cow_hashmap.hpp:257-264. -/
def eraseUnchecked (hash : K → Nat) (shared : Bool) (h : Map K V) (tpos tlen : Nat) : Res (Map K V) :=
  (mutBuckets shared h).bind fun
    | none => .ub
    | some st => (st.eraseRange hash tpos tlen).map some

/-- `clear`, cow_hashmap.hpp:405-415; `unique`, cow_hashmap.ipp:474-483, is false without storage. -/
def clear (hash : K → Nat) (shared : Bool) (h : Map K V) : Res (Map K V) :=
  match h with
  | none => .ok none
  | some st => if shared then .ok none else (st.eraseRange hash 0 st.bkts.length).map some

/-- `shrink_to_fit`, cow_hashmap.hpp:384-402. -/
def shrink (c : Cfg) (hash : K → Nat) (shared : Bool) (h : Map K V) : Res (Map K V) :=
  if size h = 0 then .ok none
  else (roundUp c (size h)).bind fun rcap =>
    if shared || decide (capacity h ≤ rcap) then .ok h
    else (reserveNew c hash h true 0).map some

/-- `reserve`, cow_hashmap.hpp:363-382. -/
def reserve (c : Cfg) (hash : K → Nat) (shared : Bool) (h : Map K V) (n : Nat) : Res (Map K V) :=
  if n = 0 then shrink c hash shared h
  else (roundUp c (max (size h) n)).bind fun rcap =>
    if h.isSome && !shared && decide (capacity h ≥ rcap) then .ok h
    else (reserveNew c hash h true (rcap - size h)).map some

/-- `rehash`, cow_hashmap.hpp:447-465. -/
def rehash (c : Cfg) (hash : K → Nat) (h : Map K V) (n : Nat) : Res (Map K V) :=
  (roundUp c (max (size h) n)).bind fun rcap =>
    if capacity h = rcap then .ok h
    else (reserveNew c hash h true (rcap - size h)).map some

variable [DecidableEq K]

/-- `storage_handle::find`, cow_hashmap.ipp:578-603: the index of the bucket. -/
def findPos (hash : K → Nat) (h : Map K V) (k : K) : Res (Option Nat) :=
  match h with
  | none => .ok none
  | some st =>
    (locate hash st.bkts k).bind fun q =>
      match st.bkts[q]? with
      | some (some _) => .ok (some q)
      | some none => .ok none
      | none => .ub

/-- `ptr`, cow_hashmap.hpp:769-778, and the other read-only lookups: the mapped value. -/
def get (hash : K → Nat) (h : Map K V) (k : K) : Res (Option V) :=
  (findPos hash h k).bind fun
    | none => .ok none
    | some q =>
      match h with
      | none => .ub
      | some st =>
        match st.bkts[q]? with
        | some (some e) => .ok (some e.2)
        | _ => .ub

/-- `try_emplace`, cow_hashmap.hpp:551-589: the index of the bucket of the iterator, and whether the
element is new. -/
def tryEmplace (c : Cfg) (hash : K → Nat) (shared : Bool) (h : Map K V) (k : K) (v : V) :
    Res ((Nat × Bool) × Map K V) :=
  let slow : Res ((Nat × Bool) × Map K V) :=
    (findPos hash h k).bind fun
      | some q => (mutBuckets shared h).map fun h => ((q, false), h)
      | none =>
        (reserveNew c hash h false (17 ||| capacity h / 2)).bind fun st =>
          (st.tryEmplace hash k v).bind fun r =>
            (finishNew hash h r.2).map fun st => ((r.1.1, true), some st)
  match h with
  | some st =>
    if !shared && decide (st.nelem < capacity h) then
      (st.tryEmplace hash k v).map fun r => (r.1, some r.2)
    else slow
  | none => slow

/-- Assignment through an iterator or a reference to the mapped value at a bucket of storage that is not
shared, e.g. `r.first->second = ...` in cow_hashmap.hpp:604. -/
def assignAt (h : Map K V) (q : Nat) (v : V) : Res (Map K V) :=
  match h with
  | none => .ub
  | some st =>
    match st.bkts[q]? with
    | some (some e) => .ok (some { st with bkts := st.bkts.set q (some (e.1, v)) })
    | _ => .ub

/-- `insert_or_assign`, cow_hashmap.hpp:598-606.  The iterator returned by `try_emplace` points to a
bucket of the map's own storage. -/
def insertOrAssign (c : Cfg) (hash : K → Nat) (shared : Bool) (h : Map K V) (k : K) (v : V) :
    Res (Bool × Map K V) :=
  (tryEmplace c hash shared h k v).bind fun r =>
    if r.1.2 then .ok (true, r.2) else (assignAt r.2 r.1.1 v).map fun h => (false, h)

/-- `find_and_assign`, cow_hashmap.hpp:732-742. -/
def findAndAssign (hash : K → Nat) (shared : Bool) (h : Map K V) (k : K) (v : V) : Res (Bool × Map K V) :=
  (findPos hash h k).bind fun
    | none => .ok (false, h)
    | some q => (mutBuckets shared h).bind fun h => (assignAt h q v).map fun h => (true, h)

/-- `erase(ykey)`, cow_hashmap.hpp:634-642. -/
def erase (hash : K → Nat) (shared : Bool) (h : Map K V) (k : K) : Res (Bool × Map K V) :=
  (findPos hash h k).bind fun
    | none => .ok (false, h)
    | some q => (eraseUnchecked hash shared h q 1).map fun h => (true, h)

/-- `keyed_try_emplace` on a handle for each element of a range, as in cow_hashmap.hpp:502-503. -/
def emplaceAll (hash : K → Nat) : List (K × V) → Storage K V → Res (Storage K V)
  | [], st => .ok st
  | e :: es, st => (st.tryEmplace hash e.1 e.2).bind fun r => emplaceAll hash es r.2

/-- The loop over the elements that are not in the old map, cow_hashmap.hpp:515-517. -/
def emplaceMissing (hash : K → Nat) (old : Map K V) : List (K × V) → Storage K V → Res (Storage K V)
  | [], st => .ok st
  | e :: es, st =>
    (findPos hash old e.1).bind fun
      | some _ => emplaceMissing hash old es st
      | none => (st.tryEmplace hash e.1 e.2).bind fun r => emplaceMissing hash old es r.2

/-- `insert(first, last)` with iterators whose distance is known, cow_hashmap.hpp:484-517 and 530-532. -/
def insertRange (c : Cfg) (hash : K → Nat) (shared : Bool) (h : Map K V) (es : List (K × V)) :
    Res (Map K V) :=
  if es.length = 0 then .ok h
  else
    let slow : Res (Map K V) :=
      (reserveNew c hash h false (es.length ||| capacity h / 2)).bind fun st =>
        (emplaceMissing hash h es st).bind fun st => (finishNew hash h st).map some
    match h with
    | some st =>
      if !shared && decide (es.length ≤ capacity h - size h) then (emplaceAll hash es st).map some else slow
    | none => slow

/-- The loop for single-pass iterators, cow_hashmap.hpp:519-529.  `sth` is the new handle, `cap` the
variable of that name. -/
def emplaceGrowing (c : Cfg) (hash : K → Nat) (old : Map K V) :
    List (K × V) → Storage K V → Res (Storage K V)
  | [], st => .ok st
  | e :: es, st =>
    (if st.nelem ≥ capacity (some st) then
        reserveNew c hash (some st) (decide (size old ≠ 0)) (capacity (some st) / 2)
      else .ok st).bind fun st =>
    (findPos hash old e.1).bind fun
      | some _ => emplaceGrowing c hash old es st
      | none => (st.tryEmplace hash e.1 e.2).bind fun r => emplaceGrowing c hash old es r.2

/-- `insert(first, last)` with single-pass iterators, whose distance is reported as zero:
cow_hashmap.hpp:488-492 and 519-532. -/
def insertStream (c : Cfg) (hash : K → Nat) (h : Map K V) (es : List (K × V)) : Res (Map K V) :=
  if es.length = 0 then .ok h
  else
    (reserveNew c hash h false (17 ||| capacity h / 2)).bind fun st =>
      (emplaceGrowing c hash h es st).bind fun st => (finishNew hash h st).map some

end

end Asteria.HashMap
