import Verif.Model.Exec

/-!
# Questions about code that is not executed

/repo/asteria/src/runtime/air_node.cpp
-/

namespace Asteria.Exec

variable {P : Type}

mutual
/-- `AIR_Node::is_terminator`, air_node.cpp:223-305.  The nodes that are represented by `prim` are none. -/
def isTerminator : Node P → Bool
  | .throwS => true
  | .returnS _ _ => true
  | .returnConst _ => true
  | .simpleStatus s => s ≠ .next
  | .funcCall _ ptc => ptc ≠ .none
  | .altCall ptc => ptc ≠ .none
  | .block b => endsInTerminator b
  | .ifS _ t f => endsInTerminator t && endsInTerminator f
  | .branchE t f _ => endsInTerminator t && endsInTerminator f
  | _ => false

/-- `!code.empty() && code.back().is_terminator()`, air_node.cpp:285, 291-292, 298-299. -/
def endsInTerminator : List (Node P) → Bool
  | [] => false
  | [n] => isTerminator n
  | _ :: ns => endsInTerminator ns
end

/-- `generate_code` for a list of statements: a statement adds its code to what is there, unless that ends in a
terminator, /repo/asteria/src/compiler/statement.cpp:75-88, 118-119, expression_unit.cpp:92-93.  The code that each
statement would add is given; in the source, it may depend on the position of the statement. -/
def generate (stmts : List (List (Node P))) : List (Node P) :=
  stmts.foldl (fun code s => if endsInTerminator code then code else code ++ s) []

/-! ### Collection of variables -/

/-- The variables of a reference, `Reference::collect_variables`, /repo/asteria/src/runtime/reference.cpp:59-73; what a value
contributes (`Value::collect_variables`) is a parameter. -/
def refVars (vals : Value → List Nat) : Ref → List Nat
  | .temp v _ => vals v
  | .var id _ => [id]
  | _ => []

mutual
/-- `AIR_Node::collect_variables`, air_node.cpp:575-766: the variables that are reported for a node. -/
def collect (vals : Value → List Nat) : Node P → List Nat
  | .block b => collectAll vals b
  | .ifS _ t f => collectAll vals t ++ collectAll vals f
  | .switchS cs => collectLabels vals cs ++ collectBodies vals cs
  | .doWhile b _ c k => collectAll vals b ++ collectAll vals c ++ collectAll vals k
  | .whileS _ c b k => collectAll vals c ++ collectAll vals b ++ collectAll vals k
  | .forEach _ _ i b k => collectAll vals i ++ collectAll vals b ++ collectAll vals k
  | .forS i c s _ k => collectAll vals i ++ collectAll vals c ++ collectAll vals s ++ collectAll vals k
  | .tryS b _ h => collectAll vals b ++ collectAll vals h
  | .pushBound r => refVars vals r
  | .defineFunc _ _ b => collectAll vals b
  | .branchE t f _ => collectAll vals t ++ collectAll vals f
  | .deferE b => collectAll vals b
  | .catchE b => collectAll vals b
  | .pushConst v => vals v
  | .coalesceE c _ => collectAll vals c
  | _ => []

/-- `do_collect_variables_for_each`, air_node.cpp:51-58. -/
def collectAll (vals : Value → List Nat) : List (Node P) → List Nat
  | [] => []
  | n :: ns => collect vals n ++ collectAll vals ns

/-- The loop over the labels, air_node.cpp:636-637. -/
def collectLabels (vals : Value → List Nat) : List (Clause P) → List Nat
  | [] => []
  | .mk _ l _ _ :: cs => collectAll vals l ++ collectLabels vals cs

/-- The loop over the bodies, air_node.cpp:638-639. -/
def collectBodies (vals : Value → List Nat) : List (Clause P) → List Nat
  | [] => []
  | .mk _ _ b _ :: cs => collectAll vals b ++ collectBodies vals cs
end

mutual
/-- The collectors of solidified nodes, which are used for the bodies of functions that have been instantiated: the lambda
`Collector` of each `case` of `AIR_Node::solidify`, for example air_node.cpp:1477-1486 for a `for` statement.  Only
`defineFunc` (1908-1913) and `deferE` (4450-4455) keep code that has not been solidified. -/
def collectRod (vals : Value → List Nat) : Node P → List Nat
  | .block b => collectRodAll vals b
  | .ifS _ t f => collectRodAll vals t ++ collectRodAll vals f
  | .switchS cs => collectRodClauses vals cs
  | .doWhile b _ c k => collectRodAll vals b ++ collectRodAll vals c ++ collectRodAll vals k
  | .whileS _ c b k => collectRodAll vals c ++ collectRodAll vals b ++ collectRodAll vals k
  | .forEach _ _ i b k => collectRodAll vals i ++ collectRodAll vals b ++ collectRodAll vals k
  | .forS i c s b k => collectRodAll vals i ++ collectRodAll vals c ++ collectRodAll vals s ++ collectRodAll vals b ++
      collectRodAll vals k
  | .tryS b _ h => collectRodAll vals b ++ collectRodAll vals h
  | .pushBound r => refVars vals r
  | .defineFunc _ _ b => collectAll vals b
  | .branchE t f _ => collectRodAll vals t ++ collectRodAll vals f
  | .deferE b => collectAll vals b
  | .catchE b => collectRodAll vals b
  | .pushConst v => vals v
  | .coalesceE c _ => collectRodAll vals c
  | _ => []

/-- `AVM_Rod::collect_variables`, /repo/asteria/src/llds/avm_rod.cpp:180-196. -/
def collectRodAll (vals : Value → List Nat) : List (Node P) → List Nat
  | [] => []
  | n :: ns => collectRod vals n ++ collectRodAll vals ns

/-- The collector of a `switch` statement, air_node.cpp:1084-1092. -/
def collectRodClauses (vals : Value → List Nat) : List (Clause P) → List Nat
  | [] => []
  | .mk _ l b _ :: cs => collectRodAll vals l ++ collectRodAll vals b ++ collectRodClauses vals cs
end

end Asteria.Exec
