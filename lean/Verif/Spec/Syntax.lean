import Verif.Spec.Safe
import Verif.Model.Syntax

/-!
# What is expected of the parser

Expressions have their operands, see `WfSs`; jumps have a place to go to.
-/

namespace Asteria.Syntax

open Compile
open _root_.Asteria.Parser (Xop)

/-- The numbers of operands of operators. -/
def arity : Xop → Nat
  | .inc | .dec | .pos | .neg | .notb | .notl | .unset | .countof | .typeof | .sqrt | .isnan | .isinf | .abs | .sign
  | .round | .floor | .ceil | .trunc | .iround | .ifloor | .iceil | .itrunc | .head | .tail | .lzcnt | .tzcnt | .popcnt
  | .random | .isvoid => 1
  | .fma => 3
  | _ => 2

/-- The statements around a statement in the same function, as far as jumps are concerned. -/
inductive Around where
  | switch | while | for
deriving DecidableEq

/-- A `break` statement leaves the innermost of the statements around it, or that of a kind. -/
def CanBreak (l : List Around) : Target → Prop
  | .none => l ≠ []
  | .switch => .switch ∈ l
  | .while => .while ∈ l
  | .for => .for ∈ l

/-- A `continue` statement goes on with the innermost loop around it, or that of a kind. -/
def CanContinue (l : List Around) : Target → Prop
  | .none => .while ∈ l ∨ .for ∈ l
  | .switch => False
  | .while => .while ∈ l
  | .for => .for ∈ l

section
variable {X : Type}

mutual
/-- Jumps have a place to go to, within functions in expressions. -/
def JumpU : XUnit X → Prop
  | .closure _ _ b => JumpSs [] b
  | .branch bs _ => JumpBs bs
  | .call as => JumpAs as
  | .catchE us => JumpUs us
  | _ => True
termination_by structural x => x

/-- The same for a list. -/
def JumpUs : List (XUnit X) → Prop
  | [] => True
  | u :: us => JumpU u ∧ JumpUs us
termination_by structural x => x

/-- The same for branches. -/
def JumpBs : List (Branch X) → Prop
  | [] => True
  | .mk _ us :: bs => JumpUs us ∧ JumpBs bs
termination_by structural x => x

/-- The same for arguments. -/
def JumpAs : List (Arg X) → Prop
  | [] => True
  | .mk us :: as => JumpUs us ∧ JumpAs as
termination_by structural x => x

/-- Jumps have a place to go to, in a statement that is within some others. -/
def JumpS (l : List Around) : Stmt X → Prop
  | .expr us => JumpUs us
  | .block b => JumpSs l b
  | .vars _ ds => JumpDs ds
  | .func _ _ _ b => JumpSs [] b
  | .ifS _ c t f => JumpUs c ∧ JumpSs l t ∧ JumpSs l f
  | .switchS c cs => JumpUs c ∧ JumpCs (.switch :: l) cs
  | .doWhile b _ c k => JumpSs (.while :: l) b ∧ JumpUs c ∧ JumpSs l k
  | .whileS _ c b k => JumpUs c ∧ JumpSs (.while :: l) b ∧ JumpSs l k
  | .forEach _ _ i b k => JumpUs i ∧ JumpSs (.for :: l) b ∧ JumpSs l k
  | .forS i c s b k => JumpSs [] i ∧ JumpUs c ∧ JumpUs s ∧ JumpSs (.for :: l) b ∧ JumpSs l k
  | .tryS b _ h => JumpSs l b ∧ JumpSs l h
  | .breakS t => CanBreak l t
  | .contS t => CanContinue l t
  | .throwS us => JumpUs us
  | .returnS _ us => JumpUs us
  | .assertS us => JumpUs us
  | .deferS us => JumpUs us
  | .refs ds => JumpRs ds
termination_by structural x => x

/-- The same for a list. -/
def JumpSs (l : List Around) : List (Stmt X) → Prop
  | [] => True
  | s :: ss => JumpS l s ∧ JumpSs l ss
termination_by structural x => x

/-- The same for clauses. -/
def JumpCs (l : List Around) : List (SClause X) → Prop
  | [] => True
  | .mk _ lo up b :: cs => (JumpUs lo ∧ JumpUs up ∧ JumpSs l b) ∧ JumpCs l cs
termination_by structural x => x

/-- The same for declarations. -/
def JumpDs : List (Decl X) → Prop
  | [] => True
  | .scalar _ us :: ds => JumpUs us ∧ JumpDs ds
  | .array _ us :: ds => JumpUs us ∧ JumpDs ds
  | .object _ us :: ds => JumpUs us ∧ JumpDs ds
termination_by structural x => x

/-- The same for declarations of references. -/
def JumpRs : List (RefDecl X) → Prop
  | [] => True
  | .mk _ us :: ds => JumpUs us ∧ JumpRs ds
termination_by structural x => x
end
end

section
variable {X : Type}

mutual
/-- No function is called within an operand of `catch`, see C79. -/
def QuietU : XUnit X → Prop
  | .closure _ _ b => QuietSs b
  | .branch bs _ => QuietBs bs
  | .call as => QuietAs as
  | .catchE us => QuietUs us ∧ callFreeU us
  | _ => True
termination_by structural x => x

/-- The same for a list. -/
def QuietUs : List (XUnit X) → Prop
  | [] => True
  | u :: us => QuietU u ∧ QuietUs us
termination_by structural x => x

/-- The same for branches. -/
def QuietBs : List (Branch X) → Prop
  | [] => True
  | .mk _ us :: bs => QuietUs us ∧ QuietBs bs
termination_by structural x => x

/-- The same for arguments. -/
def QuietAs : List (Arg X) → Prop
  | [] => True
  | .mk us :: as => QuietUs us ∧ QuietAs as
termination_by structural x => x

/-- The same for statements. -/
def QuietS : Stmt X → Prop
  | .expr us => QuietUs us
  | .block b => QuietSs b
  | .vars _ ds => QuietDs ds
  | .func _ _ _ b => QuietSs b
  | .ifS _ c t f => QuietUs c ∧ QuietSs t ∧ QuietSs f
  | .switchS c cs => QuietUs c ∧ QuietCs cs
  | .doWhile b _ c k => QuietSs b ∧ QuietUs c ∧ QuietSs k
  | .whileS _ c b k => QuietUs c ∧ QuietSs b ∧ QuietSs k
  | .forEach _ _ i b k => QuietUs i ∧ QuietSs b ∧ QuietSs k
  | .forS i c s b k => QuietSs i ∧ QuietUs c ∧ QuietUs s ∧ QuietSs b ∧ QuietSs k
  | .tryS b _ h => QuietSs b ∧ QuietSs h
  | .throwS us => QuietUs us
  | .returnS _ us => QuietUs us
  | .assertS us => QuietUs us
  | .deferS us => QuietUs us
  | .refs ds => QuietRs ds
  | .breakS _ => True
  | .contS _ => True
termination_by structural x => x

/-- The same for a list. -/
def QuietSs : List (Stmt X) → Prop
  | [] => True
  | s :: ss => QuietS s ∧ QuietSs ss
termination_by structural x => x

/-- The same for clauses. -/
def QuietCs : List (SClause X) → Prop
  | [] => True
  | .mk _ lo up b :: cs => (QuietUs lo ∧ QuietUs up ∧ QuietSs b) ∧ QuietCs cs
termination_by structural x => x

/-- The same for declarations. -/
def QuietDs : List (Decl X) → Prop
  | [] => True
  | .scalar _ us :: ds => QuietUs us ∧ QuietDs ds
  | .array _ us :: ds => QuietUs us ∧ QuietDs ds
  | .object _ us :: ds => QuietUs us ∧ QuietDs ds
termination_by structural x => x

/-- The same for declarations of references. -/
def QuietRs : List (RefDecl X) → Prop
  | [] => True
  | .mk _ us :: ds => QuietUs us ∧ QuietRs ds
termination_by structural x => x
end
end

end Asteria.Syntax
