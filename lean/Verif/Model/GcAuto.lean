import Verif.Model.Gc

/-!
# Creating variables, automatic collection, and `std.gc`

/repo/asteria/src/runtime/garbage_collector.cpp, /repo/asteria/runtime/garbage_collector.hpp,
/repo/asteria/src/library/gc.cpp, /repo/asteria/runtime/variable.hpp
-/

namespace Asteria.Gc

/-- The collector with its thresholds (garbage_collector.hpp:17-29), and the flags of variables (`m_init` and `m_immutable`,
variable.hpp:20-21).  The arrays in the code have the oldest generation first; here the index is the generation. -/
structure Coll where
  g : Gc
  thres : Nat → Nat
  init : Var → Bool
  immut : Var → Bool

/-- The constructor, garbage_collector.cpp:10-17.  No variable exists. -/
def newColl : Coll where
  g := { gcRef := fun _ => 0, staged := [], temp1 := [], temp2 := [], unreach := [], tracked := fun _ => [],
         counts := fun _ => 0, pool := [], wiped := [] }
  thres i := if i = 2 then 100 * 5 else 100
  init _ := false
  immut _ := false

/-- What happens while a generation is collected: memory at that time, and the order in which hash maps hand out their
elements.  Memory is different in each collection, as the destruction of old values releases references; how it differs is
not modelled. -/
structure World where
  heap : Nat → Heap
  pick : Nat → Nat → Nat

/-- One turn of the loops in garbage_collector.cpp:146-148 and 170-171, for generation `gen`; `due` is the condition, and the
number is `nvars`.  The variables that are wiped are uninitialized (variable.hpp:58-63); `m_immutable` is not changed.
`n` bounds the turns of the loops in the collection. -/
def turn (w : World) (due : Coll → Nat → Bool) (n gen : Nat) (c : Coll) (nvars : Nat) : Option (Res (Coll × Nat)) :=
  if due c gen then
    match collect (w.heap gen) (w.pick gen) gen n c.g with
    | none => none
    | some (.ok g) =>
      some (.ok ({ c with g := g, init := fun v => if v ∈ g.wiped then false else c.init v }, nvars + g.wiped.length))
    | some .throw => some .throw
    | some .ub => some .ub
  else some (.ok (c, nvars))

/-- The loops in garbage_collector.cpp:146-148 and 170-171, for `k` generations. -/
def turns (w : World) (due : Coll → Nat → Bool) (n : Nat) : Nat → Coll → Option (Res (Coll × Nat))
  | 0, c => some (.ok (c, 0))
  | k + 1, c =>
    match turns w due n k c with
    | some (.ok (c, nvars)) => turn w due n k c nvars
    | o => o

/-- The condition for automatic collection, garbage_collector.cpp:147. -/
def overdue (c : Coll) (gen : Nat) : Bool := decide (c.thres gen ≤ c.g.counts gen)

/-- A variable is taken from the pool, or is allocated at the address `a` and is then as variable.hpp:19-23 says;
garbage_collector.cpp:151-154. -/
def takeVariable (p : Nat) (a : Var) (c : Coll) : Var × Coll :=
  match extract p c.g.pool with
  | some (v, rest) => (v, { c with g := { c.g with pool := rest } })
  | none => (a, { c with init := fun v => if v = a then false else c.init v,
                         immut := fun v => if v = a then false else c.immut v })

/-- garbage_collector.cpp:157-159. -/
def track (hint : Nat) (v : Var) (c : Coll) : Coll :=
  { c with g := { c.g with
      tracked := fun i => if i = hint then insertVar v (c.g.tracked i) else c.g.tracked i
      counts := fun i => if i = hint then c.g.counts i + 1 else c.g.counts i } }

/-- `Garbage_Collector::create_variable`, garbage_collector.cpp:141-162. -/
def createVariable (w : World) (n p : Nat) (a : Var) (hint : Nat) (c : Coll) : Option (Res (Var × Coll)) :=
  match turns w overdue n 3 c with
  | none => none
  | some (.ok (c, _)) =>
    let x := takeVariable p a c
    some (.ok (x.1, track hint x.1 x.2))
  | some .throw => some .throw
  | some .ub => some .ub

/-- `Garbage_Collector::collect_variables`, garbage_collector.cpp:164-178; `limit` is 0, 1 or 2. -/
def collectVariables (w : World) (n limit : Nat) (c : Coll) : Option (Res (Coll × Nat)) :=
  match turns w (fun _ _ => true) n (limit + 1) c with
  | none => none
  | some (.ok (c, nvars)) => some (.ok ({ c with g := { c.g with pool := [] } }, nvars))
  | some .throw => some .throw
  | some .ub => some .ub

/-- `Garbage_Collector::finalize`, garbage_collector.cpp:179-209, when no collection is in progress.  The loops that extract
variables take every element; the order makes no difference. -/
def finalize (c : Coll) : Coll × Nat :=
  ({ c with
      init := fun v => if v ∈ c.g.tracked 0 ∨ v ∈ c.g.tracked 1 ∨ v ∈ c.g.tracked 2 then false else c.init v
      g := { c.g with staged := [], temp1 := [], temp2 := [], unreach := [], tracked := fun _ => [], pool := [] } },
   (c.g.tracked 0).length + (c.g.tracked 1).length + (c.g.tracked 2).length + c.g.pool.length)

/-- What a script does with a variable that it has just declared: `var` and `const` with or without an initializer,
air_node.cpp:892-913, 4162, 4219, 4267-4269. -/
def define (immutable : Bool) (v : Var) (c : Coll) : Coll :=
  { c with
    init := fun u => if u = v then true else c.init u
    immut := fun u => if u = v then immutable else c.immut u }

/-- `Variable::initialize`, variable.hpp:49-55, which is what a host program does with the variable from
`Simple_Script::open_global_variable`, /repo/asteria/src/simple_script.cpp:31-44, for a name that does not exist. -/
def initVar (v : Var) (c : Coll) : Coll := { c with init := fun u => if u = v then true else c.init u }

/-- The checks in `Reference::dereference_mutable`, /repo/asteria/src/runtime/reference.cpp:200-207. -/
def modify (v : Var) (c : Coll) : Res Unit :=
  if c.init v = false then .throw else if c.immut v then .throw else .ok ()

/-- `clamp_cast` to 0, 1 or 2 and the comparison, gc.cpp:15-17, 28-30, 41-43, 57-59. -/
def generation (x : Int) : Res Nat :=
  if (max 0 (min x 2)) ≠ x then .throw else .ok (max 0 (min x 2)).toNat

/-- `std_gc_count_variables`, gc.cpp:12-23. -/
def stdCount (x : Int) (c : Coll) : Res Nat :=
  match generation x with
  | .ok gen => .ok (c.g.tracked gen).length
  | .throw => .throw
  | .ub => .ub

/-- `std_gc_get_threshold`, gc.cpp:25-36. -/
def stdGet (x : Int) (c : Coll) : Res Nat :=
  match generation x with
  | .ok gen => .ok (c.thres gen)
  | .throw => .throw
  | .ub => .ub

/-- `PTRDIFF_MAX`. -/
def ptrdiffMax : Nat := 2 ^ 63 - 1

/-- `std_gc_set_threshold`, gc.cpp:38-50. -/
def stdSet (x t : Int) (c : Coll) : Res (Nat × Coll) :=
  match generation x with
  | .ok gen =>
    .ok (c.thres gen, { c with thres := fun i => if i = gen then (max 0 (min t ptrdiffMax)).toNat else c.thres i })
  | .throw => .throw
  | .ub => .ub

/-- `std_gc_collect`, gc.cpp:52-66. -/
def stdCollect (w : World) (n : Nat) (x : Option Int) (c : Coll) : Option (Res (Coll × Nat)) :=
  match x with
  | none => collectVariables w n 2 c
  | some x =>
    match generation x with
    | .ok limit => collectVariables w n limit c
    | .throw => some .throw
    | .ub => some .ub

end Asteria.Gc
