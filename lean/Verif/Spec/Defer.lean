import Verif.Model.Exec

/-!
# What should happen to deferred expressions

A machine that reads a record of events and accepts it only if each scope ends with nothing left to do, and what is
run is always what was registered last in the innermost scope, after the body of that scope has ended.  It knows nothing of the program.
-/

namespace Asteria.Exec.Spec

/-- The deferred expressions that have not been run: of each open scope, innermost scope first and latest expression
first, and of the pending tail calls.  The flag of a scope says that its body has ended. -/
structure Todo where
  scopes : List (Bool × List Nat)
  parked : Nat → List Nat

/-- One event.  Nothing is run before the body of its scope has ended, and a scope is not left before everything has
been run. -/
def Todo.event (c : Todo) : Event → Option Todo
  | .enter => some { c with scopes := (false, []) :: c.scopes }
  | .done => match c.scopes with
    | (false, h) :: l => some { c with scopes := (true, h) :: l }
    | _ => none
  | .leave => match c.scopes with
    | (true, []) :: l => some { c with scopes := l }
    | _ => none
  | .register id => match c.scopes with
    | (b, h) :: l => some { c with scopes := (b, id :: h) :: l }
    | [] => none
  | .run id => match c.scopes with
    | (true, i :: h) :: l => if i = id then some { c with scopes := (true, h) :: l } else none
    | _ => none
  | .handoff p => match c.scopes with
    | (true, h) :: l =>
      some { scopes := (true, []) :: l, parked := fun q => if q = p then h ++ c.parked p else c.parked q }
    | _ => none
  | .resume p => some { scopes := (true, c.parked p) :: c.scopes, parked := fun q => if q = p then [] else c.parked q }

/-- A record of events; `none` if it is not accepted. -/
def Todo.events (c : Todo) : List Event → Option Todo
  | [] => some c
  | e :: es => (c.event e).bind fun c => c.events es

/-- One event, where the deferred expressions that several scopes leave to the same tail call are to be run in the order
in which they would have been run without the tail call: those of inner scopes, which are left first, before those of
outer scopes. -/
def Todo.eventOuterLast (c : Todo) : Event → Option Todo
  | .handoff p => match c.scopes with
    | (true, h) :: l =>
      some { scopes := (true, []) :: l, parked := fun q => if q = p then c.parked p ++ h else c.parked q }
    | _ => none
  | e => c.event e

/-- A record of events. -/
def Todo.eventsOuterLast (c : Todo) : List Event → Option Todo
  | [] => some c
  | e :: es => (c.eventOuterLast e).bind fun c => c.eventsOuterLast es

/-- The state at the start of a record. -/
def Todo.empty : Todo := ⟨[], fun _ => []⟩

end Asteria.Exec.Spec
