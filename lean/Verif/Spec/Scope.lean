import Verif.Model.Exec

/-!
# What it means that local references find their names

An execution is repeated with a test before each step.
-/

namespace Asteria.Exec

variable {P : Type}

/-- What is demanded of a step, air_node.cpp:1772-1826, 463-487: a local reference finds a context at its depth which
has its name; where references are captured for a function or a deferred expression, no context is missing. -/
def LocalsFound (t : Task P) (st : State P) : Prop :=
  match t with
  | .node (.pushLocal d n) => ∃ s, st.scopes[d]? = some s ∧ n ∈ s.names.map Prod.fst
  | .node (.defineFunc _ _ b) => rebindAll (none :: contexts st) b ≠ .ub
  | .node (.deferE b) => rebindAll (contexts st) b ≠ .ub
  | _ => True

open Classical in
/-- The execution of a piece in which each step is tested before it is taken; `bad` is the outcome of a step for which
the test fails. -/
noncomputable def guarded (sem : Sem P) (test : Task P → State P → Prop) (bad : Option (Out P)) :
    Nat → Task P → State P → Option (Out P)
  | 0, _, _ => none
  | n + 1, t, st => if test t st then step sem (guarded sem test bad n) t st else bad

end Asteria.Exec
