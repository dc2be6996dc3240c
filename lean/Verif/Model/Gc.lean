import Verif.Model.Basic

/-!
# The garbage collector

/repo/asteria/src/runtime/garbage_collector.cpp, /repo/asteria/src/value.cpp, /repo/asteria/src/runtime/reference.cpp

The hash maps of the collector are modelled by lists (that they behave as finite maps is C34 and C35); the order in which
elements are extracted from a hash map is left open: it is a parameter, `pick`, which says for each turn of a loop which
element is taken.
-/

namespace Asteria.Gc

/-- Variables, by address (/repo/asteria/runtime/variable.hpp). -/
abbrev Var := Nat

/-- The memory cells that matter to the collector: values, with the cells that they consist of (the elements of an array or
object, the references in a function or opaque object), and pointers to variables (`St_var::var`, in references).  A cell is
identified by its address.  A block that is shared between values is in the lists of all of them. -/
inductive Cell where
  | value (kids : List Nat)
  | ptr (v : Var)
deriving DecidableEq

/-- Memory: cells, the values of variables (`Variable::m_value`, variable.hpp:19), and reference counts, not counting the
references that the collector itself holds. -/
structure Heap where
  cell : Nat → Cell
  root : Var → Nat
  refs : Var → Nat

/-- The state of the collector, garbage_collector.hpp:17-29, with `m_gc_ref` of variables (variable.hpp:23).  `wiped` is the
list of variables that have been uninitialized; that list is not in the code. -/
structure Gc where
  gcRef : Var → Nat
  staged : List (Nat × Option Var)
  temp1 : List Var
  temp2 : List Var
  unreach : List Var
  tracked : Nat → List Var
  counts : Nat → Nat
  pool : List Var
  wiped : List Var

/-- `Variable_HashMap::insert` for a map whose keys are the variables, /repo/asteria/src/llds/variable_hashmap.cpp:90-115. -/
def insertVar (v : Var) (l : List Var) : List Var := if v ∈ l then l else l ++ [v]

/-- One element is removed, variable_hashmap.cpp:185-229; `i` says which. -/
def extract {α : Type} (i : Nat) (l : List α) : Option (α × List α) :=
  match l[i % l.length]? with
  | none => none
  | some x => some (x, l.eraseIdx (i % l.length))

/-- `Value::do_collect_variables_slow`, value.cpp:145-222, and `Reference::collect_variables`, reference.cpp:60-73, for the
cells in `work`; `n` bounds the number of turns.  (Values that have no parts, such as integers, are not put into the map by
the code, value.hpp `collect_variables`; as they have no parts, that makes no difference.) -/
def visit (h : Heap) : Nat → List Nat → List (Nat × Option Var) → List Var → Option (List (Nat × Option Var) × List Var)
  | 0, _, _, _ => none
  | _ + 1, [], staged, temp => some (staged, temp)
  | n + 1, a :: work, staged, temp =>
    if a ∈ staged.map Prod.fst then visit h n work staged temp
    else match h.cell a with
      | .value kids => visit h n (kids ++ work) (staged ++ [(a, none)]) temp
      | .ptr v => visit h n work (staged ++ [(a, some v)]) (insertVar v temp)

/-- 1 or 0. -/
def one (p : Prop) [Decidable p] : Nat := if p then 1 else 0

/-- The references that the maps for generations and the pool hold; a variable has one entry in each at most. -/
def held (g : Gc) (v : Var) : Nat :=
  one (v ∈ g.tracked 0) + one (v ∈ g.tracked 1) + one (v ∈ g.tracked 2) + one (v ∈ g.pool)

/-- `var->use_count() - 1`, where `var` is one reference, that in the loop. -/
def useCount1 (h : Heap) (g : Gc) (v : Var) : Nat :=
  h.refs v + held g v + g.staged.countP (fun e => e.2 = some v) + one (v ∈ g.temp1) + one (v ∈ g.temp2) + one (v ∈ g.unreach)

/-- A change of `m_gc_ref`. -/
def setRef (g : Gc) (v : Var) (k : Nat) : Gc := { g with gcRef := fun u => if u = v then k else g.gcRef u }

/-- The first loop, garbage_collector.cpp:50-57. -/
def phase1 (h : Heap) (pick : Nat → Nat) : Nat → Gc → Option (Res Gc)
  | 0, _ => none
  | n + 1, g =>
    match extract (pick n) g.temp1 with
    | none => some (.ok g)
    | some (v, rest) =>
      let g := setRef { g with temp1 := rest } v 1
      if g.gcRef v ≤ useCount1 h g v then
        match visit h n [h.root v] g.staged g.temp1 with
        | none => none
        | some (s, t) => phase1 h pick n { g with staged := s, temp1 := t }
      else some .ub

/-- The second loop, garbage_collector.cpp:61-67. -/
def phase2 (h : Heap) (pick : Nat → Nat) : Nat → Gc → Option (Res Gc)
  | 0, _ => none
  | n + 1, g =>
    match extract (pick n) g.staged with
    | none => some (.ok g)
    | some ((_, none), rest) => phase2 h pick n { g with staged := rest }
    | some ((_, some v), rest) =>
      let g := setRef { g with staged := rest } v (g.gcRef v + 1)
      if g.gcRef v ≤ useCount1 h g v then phase2 h pick n { g with temp1 := insertVar v g.temp1 } else some .ub

/-- The third loop, garbage_collector.cpp:72-80. -/
def phase3 (h : Heap) (pick : Nat → Nat) : Nat → Gc → Option (Res Gc)
  | 0, _ => none
  | n + 1, g =>
    match extract (pick n) g.temp1 with
    | none => some (.ok g)
    | some (v, rest) =>
      let g := { g with temp1 := rest }
      if g.gcRef v = useCount1 h g v then phase3 h pick n { g with unreach := insertVar v g.unreach }
      else phase3 h pick n { g with temp2 := insertVar v g.temp2 }

/-- The move to the next generation, garbage_collector.cpp:92-101.  The exception from `insert` (out of memory) is not
modelled. -/
def promote (gen : Nat) (v : Var) (g : Gc) : Gc :=
  if gen < 2 ∧ v ∈ g.tracked gen then
    { g with
      tracked := fun i =>
        if i = gen then (g.tracked gen).erase v
        else if i = gen + 1 then insertVar v (g.tracked (gen + 1))
        else g.tracked i
      counts := fun i => if i = gen + 1 then g.counts i + 1 else g.counts i }
  else g

/-- The fourth loop, garbage_collector.cpp:84-102. -/
def phase4 (h : Heap) (pick : Nat → Nat) (gen : Nat) : Nat → Gc → Option (Res Gc)
  | 0, _ => none
  | n + 1, g =>
    match extract (pick n) g.temp2 with
    | none => some (.ok g)
    | some (v, rest) =>
      let g := setRef { g with temp2 := rest, temp1 := g.temp1.erase v, unreach := g.unreach.erase v } v 0
      match visit h n [h.root v] g.staged g.temp2 with
      | none => none
      | some (s, t) => phase4 h pick gen n (promote gen v { g with staged := s, temp2 := t })

/-- The last loop, garbage_collector.cpp:105-129.  What the destruction of the old value does (it releases references) is not
modelled; exceptions do not happen. -/
def phase5 (pick : Nat → Nat) (gen : Nat) : Nat → Gc → Option (Res Gc)
  | 0, _ => none
  | n + 1, g =>
    match extract (pick n) g.unreach with
    | none => some (.ok g)
    | some (v, rest) =>
      let g := { g with unreach := rest }
      if v ∈ g.tracked gen then
        if g.gcRef v ≠ 0 then
          phase5 pick gen n { g with
            tracked := fun i => if i = gen then (g.tracked gen).erase v else g.tracked i
            wiped := g.wiped ++ [v]
            pool := insertVar v g.pool }
        else some .ub
      else phase5 pick gen n g

/-- Sequencing. -/
def thenDo (o : Option (Res Gc)) (k : Gc → Option (Res Gc)) : Option (Res Gc) :=
  match o with
  | some (.ok g) => k g
  | o => o

/-- `Variable_HashMap::merge_into`, variable_hashmap.cpp:168-183. -/
def mergeInto (src dst : List Var) : List Var := src.foldl (fun d v => insertVar v d) dst

/-- `Garbage_Collector::do_collect_generation`, garbage_collector.cpp:24-139, when no other collection is in progress.
`n` bounds the turns of each loop. -/
def collect (h : Heap) (pick : Nat → Nat) (gen n : Nat) (g : Gc) : Option (Res Gc) :=
  thenDo (phase1 h pick n { g with
    staged := [], temp1 := mergeInto (g.tracked gen) [], temp2 := [], unreach := [], wiped := [] }) fun g =>
  thenDo (phase2 h pick n { g with temp1 := [] }) fun g =>
  thenDo (phase3 h pick n { g with staged := [], temp1 := mergeInto (g.tracked gen) g.temp1 }) fun g =>
  thenDo (phase4 h pick gen n { g with temp1 := [] }) fun g =>
  thenDo (phase5 pick gen n { g with temp2 := [] }) fun g =>
  some (.ok { g with unreach := [], counts := fun i => if i = gen then 0 else g.counts i })

end Asteria.Gc
