import Verif.Model.GcAuto
import Verif.Proof.GcCollect

/-!
# Specification for C139–C143
-/

namespace Asteria.Gc.Spec

/-- What is kept about the maps of generations, the pool, and the counters. -/
structure Sizes (g : Gc) : Prop where
  nodup : ∀ i, (g.tracked i).Nodup
  pool : g.pool.Nodup
  small : ∀ i, i < 2 → (g.tracked i).length ≤ g.counts i

/-- What is assumed about memory, and kept: every variable is held by the collector once, if it is tracked or referred to. -/
structure Held (w : World) (g : Gc) : Prop where
  tracked : ∀ i v, i ≤ 2 → v ∈ g.tracked i → held g v = 1
  cells : ∀ i v a, i ≤ 2 → (w.heap i).cell a = .ptr v → held g v = 1

/-- The variables that are tracked, `std.gc.count_variables` for all generations. -/
def total (c : Coll) : Nat := (c.g.tracked 0).length + (c.g.tracked 1).length + (c.g.tracked 2).length

/-- The variable is tracked. -/
def Tracked (c : Coll) (v : Var) : Prop := ∃ i, i ≤ 2 ∧ v ∈ c.g.tracked i

/-- Every reference in memory is in the value of a variable that is looked at when the variables in `T` are collected, or in
something that the program can get at. -/
def NoStray (h : Heap) (m : Memory h) (ext : List Nat) (T : List Var) : Prop :=
  ∀ a v, h.cell a = .ptr v → (∃ u, Known h T u ∧ Inside h (h.root u) a) ∨
    (∃ u, Live h m ext u ∧ Inside h (h.root u) a) ∨ ∃ x ∈ ext, Inside h x a

/-- The states that a collector gets into.  Programs may set the flags of variables at any time. -/
inductive Reached : Coll → Prop
  | new : Reached newColl
  | create {c c' : Coll} {w : World} {n p : Nat} {a v : Var} : Reached c → (∀ i, Nonempty (Memory (w.heap i))) → Held w c.g →
      createVariable w n p a 0 c = some (.ok (v, c')) → Reached c'
  | collect {c c' : Coll} {w : World} {n k : Nat} {x : Option Int} : Reached c → (∀ i, Nonempty (Memory (w.heap i))) → Held w c.g →
      stdCollect w n x c = some (.ok (c', k)) → Reached c'
  | threshold {c c' : Coll} {x t : Int} {k : Nat} : Reached c → stdSet x t c = .ok (k, c') → Reached c'
  | flags {c : Coll} (i m : Var → Bool) : Reached c → Reached { c with init := i, immut := m }
  | finalize {c : Coll} : Reached c → Reached (Gc.finalize c).1

end Asteria.Gc.Spec
