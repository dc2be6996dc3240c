import Verif.Model.Exec

/-!
# Operators that evaluate only some of their operands

/repo/asteria/src/compiler/infix_element.cpp, expression_unit.cpp
-/

namespace Asteria.Exec

variable {P : Type}

/-- The short-circuit operators among `Infix_Element::Storage`, /repo/asteria/compiler/infix_element.hpp:18-44.  Their
operands are given as the code that is generated for them. -/
inductive ShortOp (P : Type) where
  | ternary (t f : List (Node P))
  | logicalAnd (t : List (Node P))
  | logicalOr (f : List (Node P))
  | coalescence (n : List (Node P))

/-- `Expression_Unit::branch_type`, /repo/asteria/compiler/expression_unit.hpp:34-39. -/
inductive BranchType where
  | true
  | false
  | null
deriving DecidableEq

/-- `Infix_Element::extract`, infix_element.cpp:122-186: the branches of `S_branch`. -/
def ShortOp.branches : ShortOp P → List (BranchType × List (Node P))
  | .ternary t f => [(.true, t), (.false, f)]
  | .logicalAnd t => [(.true, t)]
  | .logicalOr f => [(.false, f)]
  | .coalescence n => [(.null, n)]

/-- The loop over the branches, expression_unit.cpp:191-197; the last one of each type stays.  A branch for null is an
invalid type here. -/
def branchNode (assign : Bool) : List (Node P) → List (Node P) → List (BranchType × List (Node P)) → Option (Node P)
  | t, f, [] => some (.branchE t f assign)
  | _, f, (.true, c) :: bs => branchNode assign c f bs
  | t, _, (.false, c) :: bs => branchNode assign t c bs
  | _, _, (.null, _) :: _ => none

/-- `Expression_Unit::generate_code` for `S_branch`, expression_unit.cpp:168-201: the node for the branches. -/
def generateBranch (branches : List (BranchType × List (Node P))) (assign : Bool) : Option (Node P) :=
  match branches with
  | [(.null, c)] => some (.coalesceE c assign)
  | bs => branchNode assign [] [] bs

/-- The code of an expression: the left operand, then the node of the operator (infix_element.cpp:107-186). -/
def shortCode (a : List (Node P)) (op : ShortOp P) (assign : Bool) : Option (List (Node P)) :=
  (generateBranch op.branches assign).map fun n => a ++ [n]

end Asteria.Exec
