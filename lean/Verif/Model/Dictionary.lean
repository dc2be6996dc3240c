import Verif.Model.HashTable

/-!
# `Reference_Dictionary` and `Variable_HashMap`
-/

namespace Asteria.Hash

/-- `class Reference_Dictionary`, /repo/asteria/llds/reference_dictionary.hpp:12-18, and
`class Variable_HashMap`, /repo/asteria/llds/variable_hashmap.hpp:12-18.  `bkts` is
`m_bptr[0..m_nbkt)`, `order` is the circular list from `eptr->next` on, as bucket indices
(/repo/asteria/details/reference_dictionary.ipp:10-49), `size` is `m_size`.  Simplified: the list is not
represented by its `prev` and `next` pointers, and keys and values are not constructed or destroyed. -/
structure Dict (K V : Type) where
  bkts : Table K V
  order : List Nat
  size : Nat
deriving DecidableEq

namespace Dict

variable {K V : Type}

/-- The default constructor: reference_dictionary.hpp:16-18, variable_hashmap.hpp:16-18. -/
def empty : Dict K V := ⟨[], [], 0⟩

/-- `Bucket::attach(head)`: the bucket becomes the first one of the circular list
(reference_dictionary.ipp:24-32), after its key and value have been set. -/
def attach (d : Dict K V) (q : Nat) (e : K × V) : Dict K V :=
  { d with bkts := d.bkts.set q (some e), order := q :: d.order }

/-- `Bucket::detach()`: the bucket leaves the list and becomes empty (reference_dictionary.ipp:34-42). -/
def detach (d : Dict K V) (q : Nat) : Dict K V :=
  { d with bkts := d.bkts.set q none, order := d.order.erase q }

/-- The loop over the old elements in `do_reallocate`, reference_dictionary.cpp:39-50 and
variable_hashmap.cpp:39-50: `d` is the new table. -/
def transfer (hash : K → Nat) (old : Table K V) : List Nat → Dict K V → Res (Dict K V)
  | [], d => .ok d
  | i :: is, d =>
    match old[i]? with
    | some (some e) => (spare hash d.bkts e.1).bind fun q => transfer hash old is (d.attach q e)
    | _ => .ub

/-- `do_reallocate`, reference_dictionary.cpp:10-61 and variable_hashmap.cpp:10-61.  `limit` is
`0x7FFE0000U / sizeof(Bucket)`. -/
def reallocate (hash : K → Nat) (limit : Nat) (d : Dict K V) (nbkt : Nat) : Res (Dict K V) :=
  if nbkt ≥ limit then .throw
  else if nbkt < d.size * 2 then .ub
  else transfer hash d.bkts d.order ⟨List.replicate nbkt none, [], d.size⟩

/-- `do_clear(false)` behind the check in `clear()`: reference_dictionary.cpp:63-90,
reference_dictionary.hpp:82-88; variable_hashmap.cpp:63-89, variable_hashmap.hpp:79-85.  A count that
does not end at zero fails the assertion. -/
def clear (d : Dict K V) : Res (Dict K V) :=
  if d.size ≠ 0 then
    if d.size = d.order.length then .ok ⟨d.order.foldl (fun t i => t.set i none) d.bkts, [], 0⟩ else .ub
  else .ok d

/-- The predictor which relocates the buckets after a hole: reference_dictionary.cpp:171-197,
variable_hashmap.cpp:141-165 and 201-225.  It always returns `false`, so probing stops on the first empty
bucket. -/
def relocate (hash : K → Nat) : List Nat → Dict K V → Res (Dict K V)
  | [], d => .ok d
  | k :: ks, d =>
    match d.bkts[k]? with
    | none => .ub
    | some none => .ok d
    | some (some e) =>
      (spare hash (d.detach k).bkts e.1).bind fun q => relocate hash ks ((d.detach k).attach q e)

/-- The common tail of `erase` and `extract_variable`: detach the bucket and relocate what follows;
reference_dictionary.cpp:163-197, variable_hashmap.cpp:135-165 and 196-225. -/
def remove (hash : K → Nat) (d : Dict K V) (q : Nat) : Res (Dict K V) :=
  relocate hash (probeOrder q (q + 1) d.bkts.length) { d.detach q with size := d.size - 1 }

variable [DecidableEq K]

/-- `do_xfind_opt`, reference_dictionary.cpp:92-114: the value under a key. -/
def find (hash : K → Nat) (d : Dict K V) (k : K) : Res (Option V) :=
  if d.bkts.length = 0 then .ok none
  else (locate hash d.bkts k).bind fun q =>
    match d.bkts[q]? with
    | some (some e) => .ok (some e.2)
    | some none => .ok none
    | none => .ub

/-- Modification through the pointer returned by `mut_find_opt`, reference_dictionary.hpp:97-102; the
result tells whether there was one. -/
def mutate (hash : K → Nat) (d : Dict K V) (k : K) (f : V → V) : Res (Bool × Dict K V) :=
  if d.bkts.length = 0 then .ok (false, d)
  else (locate hash d.bkts k).bind fun q =>
    match d.bkts[q]? with
    | some (some e) => .ok (true, { d with bkts := d.bkts.set q (some (e.1, f e.2)) })
    | some none => .ok (false, d)
    | none => .ub

/-- The number of buckets to grow to, `m_size * 3 | g` on `uint32_t`: reference_dictionary.cpp:123 with
`g = 11` and variable_hashmap.cpp:98 with `g = 5`. -/
def growTo (size g : Nat) : Nat := size * 3 % 2 ^ 32 ||| g

/-- `Reference_Dictionary::insert`, reference_dictionary.cpp:116-143, followed by a modification `f`
through the reference it returns; `dflt` is a default-constructed `Reference`.  The result is
`*newly_opt`.  Modelled is the build without ASTERIA_DEBUG. -/
def insert (hash : K → Nat) (limit : Nat) (dflt : V) (d : Dict K V) (k : K) (f : V → V) :
    Res (Bool × Dict K V) :=
  (if d.size ≥ d.bkts.length / 2 then reallocate hash limit d (growTo d.size 11) else .ok d).bind
    fun d =>
    (locate hash d.bkts k).bind fun q =>
      match d.bkts[q]? with
      | some (some e) => .ok (false, { d with bkts := d.bkts.set q (some (e.1, f e.2)) })
      | some none => .ok (true, { d.attach q (k, f dflt) with size := d.size + 1 })
      | none => .ub

/-- `Reference_Dictionary::erase`, reference_dictionary.cpp:145-200: the value that was erased, if any.
`Variable_HashMap::erase`, variable_hashmap.cpp:117-168, is the same. -/
def erase (hash : K → Nat) (d : Dict K V) (k : K) : Res (Option V × Dict K V) :=
  if d.size = 0 then .ok (none, d)
  else (locate hash d.bkts k).bind fun q =>
    match d.bkts[q]? with
    | some (some e) => (remove hash d q).map fun d => (some e.2, d)
    | some none => .ok (none, d)
    | none => .ub

end Dict

namespace VarMap

variable {K W : Type} [DecidableEq K]

/-- `Variable_HashMap::insert`, variable_hashmap.cpp:91-115.  Keys are addresses, values are nullable
pointers to variables. -/
def insert (hash : K → Nat) (limit : Nat) (d : Dict K (Option W)) (k : K) (v : Option W) :
    Res (Bool × Dict K (Option W)) :=
  (if d.size ≥ d.bkts.length / 2 then d.reallocate hash limit (Dict.growTo d.size 5) else .ok d).bind
    fun d =>
    (locate hash d.bkts k).bind fun q =>
      match d.bkts[q]? with
      | some (some _) => .ok (false, d)
      | some none => .ok (true, { d.attach q (k, v) with size := d.size + 1 })
      | none => .ub

/-- The loop of `merge_into` over the circular list, variable_hashmap.cpp:181-184. -/
def mergeLoop (hash : K → Nat) (limit : Nat) (src : Table K (Option W)) :
    List Nat → Dict K (Option W) → Res (Dict K (Option W))
  | [], d => .ok d
  | i :: is, d =>
    match src[i]? with
    | some (some (k, some v)) => (insert hash limit d k (some v)).bind fun r => mergeLoop hash limit src is r.2
    | some (some (_, none)) => mergeLoop hash limit src is d
    | _ => .ub

/-- `Variable_HashMap::merge_into(other)` with `this != &other`, variable_hashmap.cpp:170-185. -/
def mergeInto (hash : K → Nat) (limit : Nat) (src other : Dict K (Option W)) : Res (Dict K (Option W)) :=
  if src.size = 0 then .ok other else mergeLoop hash limit src.bkts src.order other

/-- `Variable_HashMap::extract_variable`, variable_hashmap.cpp:187-230: the variable that was extracted, if
any.  The argument `fuel` bounds the iterations of `for(;;)`; `extract` passes the number of elements, which
decreases in each iteration. -/
def extractLoop (hash : K → Nat) : Nat → Dict K (Option W) → Res (Option W × Dict K (Option W))
  | 0, d => if d.size = 0 then .ok (none, d) else .ub
  | fuel + 1, d =>
    if d.size = 0 then .ok (none, d)
    else match d.order with
      | [] => .ub
      | q :: _ =>
        match d.bkts[q]? with
        | some (some (_, v)) =>
          (d.remove hash q).bind fun d =>
            match v with
            | some v => .ok (some v, d)
            | none => extractLoop hash fuel d
        | _ => .ub

@[inherit_doc extractLoop]
def extract (hash : K → Nat) (d : Dict K (Option W)) : Res (Option W × Dict K (Option W)) :=
  extractLoop hash d.size d

end VarMap

end Asteria.Hash
