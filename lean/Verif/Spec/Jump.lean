import Verif.Model.Exec

/-!
# What it means that no jump leaves its function

An execution is repeated with a test at the end of each function.
-/

namespace Asteria.Exec

variable {P : Type}

/-- The status that a `break` or `continue` statement leaves, as long as no statement around it has taken it. -/
def Status.jump : Status → Bool
  | .brk | .brkSwitch | .brkWhile | .brkFor | .cont | .contWhile | .contFor => true
  | .next | .retVoid | .ret => false

/-- One step of an execution; if the body of a function ends with a jump, which is an error in
instantiated_function.cpp:86-94, then the outcome is `bad`. -/
def stepJump (sem : Sem P) (bad : Option (Out P)) (rec : Task P → State P → Option (Out P)) (t : Task P) (st : State P) :
    Option (Out P) :=
  match t with
  | .call names body => andThen (rec (.within names (.rod body)) st) fun st =>
      if st.status.jump then bad else functionResult st
  | t => step sem rec t st

/-- The execution of a piece with that test. -/
def jumpTested (sem : Sem P) (bad : Option (Out P)) : Nat → Task P → State P → Option (Out P)
  | 0, _, _ => none
  | n + 1, t, st => stepJump sem bad (jumpTested sem bad n) t st

end Asteria.Exec
