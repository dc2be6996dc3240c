import Verif.Model.Exec

/-! A small language for the examples: nodes that write a number and that compare what has been written. -/

namespace Asteria.Exec.Demo

/-- The nodes: write a number; push whether fewer than `n` numbers have been written; push the count of them; drop the
top of the stack. -/
inductive Prim where
  | say (n : Nat)
  | fewer (n : Nat)
  | count
  | drop
deriving DecidableEq

/-- Their meaning. -/
def sem : Sem Prim where
  prim p w l := match p with
    | .say n => .ok { w with out := w.out ++ [.int n] } l
    | .fewer n => .ok w (.temp (.bool (decide (w.out.length < n))) [] :: l)
    | .count => .ok w (.temp (.int w.out.length) [] :: l)
    | .drop => .ok w l.tail
  native p w _ _ := match p with
    | .say n => .ok { w with out := w.out ++ [.int n] } (.temp (.int n) [])
    | _ => .throw (.int 7) w
  lim := 100

/-- A state at the start of a function: one context with the given names. -/
def start (funcs : List (Func Prim) := []) (names : List (Name × Ref) := []) : State Prim where
  world := ⟨fun _ => ⟨none, false⟩, 0, []⟩
  funcs := funcs
  ptcs := []
  scopes := [⟨names, [], false⟩]
  stk0 := []
  stk1 := []
  status := .next
  result := .void
  trace := []

/-- A state outside of functions. -/
def outside (funcs : List (Func Prim)) : State Prim := { start funcs with scopes := [] }

/-- What can be seen of an outcome: the numbers that have been written, and how it ended. -/
inductive Seen where
  | ok (said : List Int) (status : Status)
  | exc (said : List Int) (e : Option Int)
  | ub
  | unknown
deriving DecidableEq

/-- Values that are integers. -/
def int? : Value → Option Int
  | .int i => some i
  | _ => none

/-- What can be seen of an outcome. -/
def see : Option (Out Prim) → Seen
  | some (.ok st) => .ok (st.world.out.filterMap int?) st.status
  | some (.exc e st) => .exc (st.world.out.filterMap int?) (int? e)
  | some .ub => .ub
  | none => .unknown

/-- The record of an outcome. -/
def record : Option (Out Prim) → List Event
  | some (.ok st) => st.trace
  | some (.exc _ st) => st.trace
  | _ => []

/-- The number that a function returned. -/
def returned : Option (Out Prim) → Option (Option Int)
  | some (.ok st) => match st.result with
    | .temp v _ => some (int? v)
    | .void => some none
    | _ => none
  | _ => none

/-- Short forms. -/
abbrev say (n : Nat) : Node Prim := .prim (.say n)
/-- Short forms. -/
abbrev fewer (n : Nat) : List (Node Prim) := [.clearStack, .prim (.fewer n)]

end Asteria.Exec.Demo
