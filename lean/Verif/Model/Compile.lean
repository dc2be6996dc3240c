import Verif.Model.ExecCode

/-!
# Generation of code

/repo/asteria/src/compiler/statement.cpp, /repo/asteria/src/compiler/expression_unit.cpp,
/repo/asteria/src/runtime/air_optimizer.cpp, /repo/asteria/src/runtime/analytic_context.cpp

Syntax trees are turned into nodes.  Not represented: source locations, the predefined names (`__this`, `__func`,
`__varg`, `__backtrace`), variadic calls and import calls.  The operators are a parameter, as the nodes that only
act on the stack are in `Exec`.
-/

namespace Asteria.Compile

open Exec

/-- `branch_type`, /repo/asteria/compiler/enums.hpp. -/
inductive BranchKind where
  | true | false | null
deriving DecidableEq

/-- `Jump_Target`, /repo/asteria/compiler/enums.hpp. -/
inductive Target where
  | none | switch | while | for
deriving DecidableEq

mutual
/-- `Expression_Unit`, /repo/asteria/compiler/expression_unit.hpp:13-147.  `X` is the type of operators, `K` that of the
keys of objects. -/
inductive XUnit (X : Type) where
  | literal (v : Value)
  | localRef (name : Name)
  | closure (params : List Name) (variadic : Bool) (body : List (Stmt X))
  | branch (branches : List (Branch X)) (assign : Bool)
  | call (args : List (Arg X))
  | op (x : X) (assign : Bool)
  | array (n : Nat)
  | object (keys : List Bytes)
  | globalRef (name : Name)
  | checkArg (byRef : Bool)
  | catchE (operand : List (XUnit X))

/-- `Expression_Unit::branch`, expression_unit.hpp:41-45. -/
inductive Branch (X : Type) where
  | mk (kind : BranchKind) (units : List (XUnit X))

/-- `Expression_Unit::argument`, expression_unit.hpp:54-57. -/
inductive Arg (X : Type) where
  | mk (units : List (XUnit X))

/-- `Statement`, /repo/asteria/compiler/statement.hpp:13-207.  An expression is the list of its units. -/
inductive Stmt (X : Type) where
  | expr (e : List (XUnit X))
  | block (b : List (Stmt X))
  | vars (immutable : Bool) (decls : List (Decl X))
  | func (name : Name) (params : List Name) (variadic : Bool) (body : List (Stmt X))
  | ifS (negative : Bool) (cond : List (XUnit X)) (t f : List (Stmt X))
  | switchS (ctrl : List (XUnit X)) (clauses : List (SClause X))
  | doWhile (body : List (Stmt X)) (negative : Bool) (cond : List (XUnit X)) (complete : List (Stmt X))
  | whileS (negative : Bool) (cond : List (XUnit X)) (body complete : List (Stmt X))
  | forEach (key : Option Name) (mapped : Name) (init : List (XUnit X)) (body complete : List (Stmt X))
  | forS (init : List (Stmt X)) (cond step : List (XUnit X)) (body complete : List (Stmt X))
  | tryS (body : List (Stmt X)) (name : Name) (handler : List (Stmt X))
  | breakS (target : Target)
  | contS (target : Target)
  | throwS (e : List (XUnit X))
  | returnS (byRef : Bool) (e : List (XUnit X))
  | assertS (e : List (XUnit X))
  | deferS (e : List (XUnit X))
  | refs (decls : List (RefDecl X))

/-- `Statement::switch_clause`, statement.hpp:54-62. -/
inductive SClause (X : Type) where
  | mk (kind : ClauseKind) (lower upper : List (XUnit X)) (body : List (Stmt X))

/-- `Statement::variable_declaration`, statement.hpp:25-30: one name, or the names between brackets or braces. -/
inductive Decl (X : Type) where
  | scalar (name : Name) (init : List (XUnit X))
  | array (names : List Name) (init : List (XUnit X))
  | object (names : List Name) (init : List (XUnit X))

/-- `Statement::reference_declaration`, statement.hpp:152-157. -/
inductive RefDecl (X : Type) where
  | mk (name : Name) (init : List (XUnit X))
end

/-- `Compiler_Options`, /repo/asteria/fwd.hpp:743-772, and whether a name is found in the global context. -/
structure Opts where
  tailCalls : Bool
  traps : Bool
  implicitGlobals : Bool
  level : Nat
  isGlobal : Name → Bool

/-- The nodes that are represented by `prim`, and the tests for operators in expression_unit.cpp:256-291: `xop_pos`,
`xop_index`, `xop_notb`, the comparisons with null (`some` of whether it is `!=`) and those that can be folded. -/
structure Emit (P X : Type) where
  trap : P
  global : Name → P
  apply : X → Bool → P
  checkNull : Bool → P
  member : Bytes → P
  applyConst : X → Bool → Int → P
  array : Nat → P
  object : List Bytes → P
  unpackArray : Bool → Nat → P
  unpackObject : Bool → List Name → P
  isPos : X → Bool
  isIndex : X → Bool
  isNotb : X → Bool
  nullTest : X → Option Bool
  foldable : X → Bool

variable {P X : Type}

/-- `is_empty_return`, statement.hpp:240-246. -/
def Stmt.isEmptyReturn : Stmt X → Bool
  | .returnS _ [] => true
  | _ => false

/-- `is_scopeless`, statement.hpp:248-255. -/
def Stmt.isScopeless : Stmt X → Bool
  | .vars _ _ | .refs _ | .func _ _ _ _ | .deferS _ => false
  | _ => true

/-- `get_constant_opt`, /repo/asteria/src/runtime/air_node.cpp:199-221. -/
def constant : Node P → Option Value
  | .pushConst v => some v
  | .pushBound (.temp v subs) => match Subscript.readPath subs v with
    | .ok x => some x
    | _ => none
  | _ => none

/-- `(int32_t) x == x`, expression_unit.cpp:278, statement.cpp:575. -/
def isInt32 (x : Int) : Bool := decide (x.bmod (2 ^ 32) = x)

/-- `xop_operator_rpn`, expression_unit.cpp:245-299: the operator is appended to the code, or replaces the constant at
the end of it. -/
def genOp (o : Opts) (e : Emit P X) (x : X) (assign : Bool) (code : List (Node P)) : List (Node P) :=
  let plain := code ++ [.prim (e.apply x assign)]
  if o.level ≥ 1 then
    match code.getLast?.bind constant with
    | none => plain
    | some v =>
      if e.isPos x ∧ assign = false then code
      else match v, e.nullTest x with
        | .null, some ne => code.dropLast ++ [.prim (e.checkNull ne)]
        | .str k, _ => if e.isIndex x then code.dropLast ++ [.prim (e.member k)] else plain
        | .int i, _ =>
          if e.isNotb x then code.dropLast ++ [.pushConst (.int (BitVec.ofInt 64 i ^^^ -1).toInt)]
          else if isInt32 i ∧ e.foldable x then code.dropLast ++ [.prim (e.applyConst x assign (i.bmod (2 ^ 32)))]
          else plain
        | _, _ => plain
  else plain

/-- The end of a `return` statement, statement.cpp:554-588: constants are folded if the operand has only one unit. -/
def genReturn (o : Opts) (byRef : Bool) (one : Bool) (code : List (Node P)) : List (Node P) :=
  let plain := code ++ [.returnS byRef false]
  if o.level ≥ 1 ∧ one then
    match code.getLast?.bind constant with
    | some .null => code.dropLast ++ [.returnConst .null]
    | some (.bool b) => code.dropLast ++ [.returnConst (.bool b)]
    | some (.int i) => if isInt32 i then code.dropLast ++ [.returnConst (.int (i.bmod (2 ^ 32)))] else plain
    | _ => plain
  else plain

/-- The search for a name in the contexts, expression_unit.cpp:111-152: the depth of the context which has it; `none` if
it is taken to be global. -/
def lookup (n : Name) : List (List Name) → Nat → Res (Option Nat)
  | [], _ => .ok none
  | c :: cs, d =>
    if n ∈ c then .ok (some d)
    else match cs with
      | [] => .ok none
      | c' :: cs' => if d + 1 > 0xFFFF then .throw else lookup n (c' :: cs') (d + 1)

mutual
/-- `clobbers_alt_stack`, expression_unit.cpp:16-48. -/
def clobbers : XUnit X → Bool
  | .call _ | .catchE _ => true
  | .branch bs _ => clobbersBranches bs
  | _ => false

/-- `any_of` for the units, expression_unit.cpp:42-43, 217-218. -/
def clobbersUnits : List (XUnit X) → Bool
  | [] => false
  | u :: us => clobbers u || clobbersUnits us

/-- `any_of` for the branches, expression_unit.cpp:40-44. -/
def clobbersBranches : List (Branch X) → Bool
  | [] => false
  | .mk _ us :: bs => clobbersUnits us || clobbersBranches bs
end

/-- The test for arguments, expression_unit.cpp:214-219. -/
def clobbersArgs : List (Arg X) → Bool
  | [] => false
  | .mk us :: as => clobbersUnits us || clobbersArgs as

/-- The code of the branches becomes a node, expression_unit.cpp:179-203.  There are two places for code; writing to a
third one, or an unexpected type, ends the program. -/
def genBranch (assign : Bool) (l : List (BranchKind × List (Node P))) : Res (Node P) :=
  match l with
  | [] => .ok (.branchE [] [] assign)
  | [(.null, c)] => .ok (.coalesceE c assign)
  | [(.true, c)] => .ok (.branchE c [] assign)
  | [(.false, c)] => .ok (.branchE [] c assign)
  | [(.true, _), (.true, c)] => .ok (.branchE c [] assign)
  | [(.false, _), (.false, c)] => .ok (.branchE [] c assign)
  | [(.true, c), (.false, c')] => .ok (.branchE c c' assign)
  | [(.false, c), (.true, c')] => .ok (.branchE c' c assign)
  | _ => .ub

/-- The state of the generator for statements: the code, the contexts (the current one first), and the names that are
collected for `switch` (those collected where the source passes no place for them are discarded). -/
structure Gen (P : Type) where
  code : List (Node P)
  ctx : List (List Name)
  names : List Name

/-- A name is collected: the first half of `do_user_declare`, statement.cpp:21-23. -/
def Gen.note (g : Gen P) (n : Name) : Gen P :=
  { g with names := if n ∈ g.names then g.names else g.names ++ [n] }

/-- `do_user_declare`, statement.cpp:16-26. -/
def Gen.declare (g : Gen P) (n : Name) : Gen P :=
  { g.note n with ctx := g.ctx.modifyHead fun c => if n ∈ c then c else c ++ [n] }

/-- Nodes are appended. -/
def Gen.emit (g : Gen P) (l : List (Node P)) : Gen P := { g with code := g.code ++ l }

/-- The test at statement.cpp:118-119 and expression_unit.cpp:92-93. -/
def Gen.ended (g : Gen P) : Bool := endsInTerminator g.code

/-- The single-step trap, statement.cpp:40-45. -/
def genTrap (o : Opts) (e : Emit P X) (code : List (Node P)) : List (Node P) :=
  if o.traps then code ++ [.prim e.trap] else code

/-- The beginning of `do_generate_expression`, statement.cpp:56-62. -/
def genClear (o : Opts) (e : Emit P X) (code : List (Node P)) : List (Node P) := genTrap o e (code ++ [.clearStack])

mutual
/-- The case of a block of one statement for `flat`, statement.cpp:139-141. -/
def flatOne : Stmt X → Bool
  | .block b => flat b
  | s => s.isScopeless
termination_by structural x => x

/-- Whether the innermost of blocks that contain nothing but a block, statement.cpp:139-141, has no scope,
statement.cpp:145. -/
def flat : List (Stmt X) → Bool
  | [] => true
  | [s] => flatOne s
  | s :: s' :: ss => s.isScopeless && (s' :: ss).all Stmt.isScopeless
termination_by structural x => x
end

/-- The proper tail call of a statement that is followed by others, statement.cpp:80-84. -/
def ptcOf (ptc : Ptc) : List (Stmt X) → Ptc
  | [] => ptc
  | s :: _ => if s.isEmptyReturn then .void else .none

/-- `rptc`, expression_unit.cpp:211, 339. -/
def ptcIf (o : Opts) (ptc : Ptc) : Ptc := if o.tailCalls then ptc else .none

/-- Whether arguments are evaluated on the alternative stack, expression_unit.cpp:213-219. -/
def onAlt (o : Opts) (args : List (Arg X)) : Bool := decide (o.level ≥ 1) && !clobbersArgs args

mutual
/-- `Expression_Unit::generate_code`, expression_unit.cpp:82-390. -/
def genUnit (o : Opts) (e : Emit P X) (Γ : List (List Name)) (ptc : Ptc) : XUnit X → List (Node P) → Res (List (Node P))
  | u, code => if endsInTerminator code then .ok code else
    match u with
    | .literal v => .ok (code ++ [.pushConst v])                                         -- 97-105
    | .localRef n =>                                                                     -- 107-153
      (lookup n Γ 0).bind fun d =>
        match d with
        | some d => .ok (code ++ [.pushLocal d n])
        | none => if o.implicitGlobals ∨ o.isGlobal n then .ok (code ++ [.prim (e.global n)]) else .throw
    | .closure ps va b =>                                                                -- 155-167
      (genStmts o e .void b ⟨[], ps :: Γ, []⟩).map fun g => code ++ [.defineFunc ps va g.code]
    | .branch bs assign =>                                                               -- 169-204
      (genBranches o e Γ (if assign then .none else ptc) bs).bind fun l =>
        (genBranch assign l).map fun n => code ++ [n]
    | .call args =>                                                                      -- 206-243
      if onAlt o args then
        (genArgs o e Γ args (code ++ [.altClear])).map fun code => code ++ [.altCall (ptcIf o ptc)]
      else
        (genArgs o e Γ args code).map fun code => code ++ [.funcCall args.length (ptcIf o ptc)]
    | .op x assign => .ok (genOp o e x assign code)                                      -- 245-299
    | .array n => .ok (code ++ [.prim (e.array n)])                                      -- 301-308
    | .object ks => .ok (code ++ [.prim (e.object ks)])                                  -- 310-317
    | .globalRef n => .ok (code ++ [.prim (e.global n)])                                 -- 319-327
    | .checkArg byRef => if o.level ≥ 2 then .ok code else .ok (code ++ [.checkArg byRef])  -- 346-356
    | .catchE us => (genUnits o e Γ .none us []).map fun c => code ++ [.catchE c]        -- 372-385
termination_by structural x => x

/-- The loop over units, statement.cpp:50-53, expression_unit.cpp:175-177: only the last one may be a tail call. -/
def genUnits (o : Opts) (e : Emit P X) (Γ : List (List Name)) (ptc : Ptc) :
    List (XUnit X) → List (Node P) → Res (List (Node P))
  | [], code => .ok code
  | u :: us, code => (genUnit o e Γ (if us.isEmpty then ptc else .none) u code).bind fun code => genUnits o e Γ ptc us code
termination_by structural x => x

/-- The loop over branches, expression_unit.cpp:173-177. -/
def genBranches (o : Opts) (e : Emit P X) (Γ : List (List Name)) (ptc : Ptc) :
    List (Branch X) → Res (List (BranchKind × List (Node P)))
  | [] => .ok []
  | .mk k us :: bs => (genUnits o e Γ ptc us []).bind fun c => (genBranches o e Γ ptc bs).map fun l => (k, c) :: l
termination_by structural x => x

/-- The loop over arguments, expression_unit.cpp:225-227, 236-238. -/
def genArgs (o : Opts) (e : Emit P X) (Γ : List (List Name)) : List (Arg X) → List (Node P) → Res (List (Node P))
  | [], code => .ok code
  | .mk us :: as, code => (genUnits o e Γ .none us code).bind fun code => genArgs o e Γ as code
termination_by structural x => x

/-- `Statement::generate_code`, statement.cpp:111-644. -/
def genStmt (o : Opts) (e : Emit P X) (ptc : Ptc) : Stmt X → Gen P → Res (Gen P)
  | s, g => if g.ended then .ok g else
    match s with
    | .expr us => (genUnits o e g.ctx ptc us (genClear o e g.code)).map fun c => { g with code := c }     -- 123-130
    | .block b =>                                                                        -- 132-156
      if flat b then (genFlat o e ptc b g).map fun g' => { g' with names := g.names }
      else (genStmts o e ptc b ⟨[], [] :: g.ctx, []⟩).map fun g' => g.emit [.block g'.code]
    | .vars imm ds => genDecls o e imm ds g                                              -- 158-253
    | .func n ps va b =>                                                                 -- 255-278
      let g := g.declare n
      (genStmts o e .void b ⟨[], ps :: g.ctx, []⟩).map fun g' =>
        g.emit [.declareVar n, .defineFunc ps va g'.code, .initVar true]
    | .ifS neg c t f =>                                                                  -- 280-296
      if c.isEmpty then .ub else
      (genUnits o e g.ctx .none c (genClear o e g.code)).bind fun code =>
        (genStmts o e ptc t ⟨[], [] :: g.ctx, []⟩).bind fun gt =>
          (genStmts o e ptc f ⟨[], [] :: g.ctx, []⟩).map fun gf =>
            { g with code := code ++ [.ifS neg gt.code gf.code] }
    | .switchS c cs =>                                                                   -- 298-334
      if c.isEmpty then .ub else
      (genUnits o e g.ctx .none c (genClear o e g.code)).bind fun code =>
        (genClauses o e g.ctx [] cs).map fun l => { g with code := code ++ [.switchS l] }
    | .doWhile b neg c k =>                                                              -- 336-354
      (genStmts o e .none b ⟨[], [] :: g.ctx, []⟩).bind fun gb =>
        if c.isEmpty then .ub else
        (genUnits o e g.ctx .none c (genClear o e [])).bind fun cond =>
          (genStmts o e ptc k ⟨[], [] :: g.ctx, []⟩).map fun gk =>
            g.emit [.doWhile gb.code neg cond gk.code]
    | .whileS neg c b k =>                                                               -- 356-374
      if c.isEmpty then .ub else
      (genUnits o e g.ctx .none c (genClear o e [])).bind fun cond =>
        (genStmts o e .none b ⟨[], [] :: g.ctx, []⟩).bind fun gb =>
          (genStmts o e ptc k ⟨[], [] :: g.ctx, []⟩).map fun gk =>
            g.emit [.whileS neg cond gb.code gk.code]
    | .forEach kn mn i b k =>                                                            -- 376-400
      let g₁ := ((kn.toList ++ [mn]).foldl Gen.declare { g with ctx := [] :: g.ctx })
      if i.isEmpty then .ub else
      (genUnits o e g₁.ctx .none i (genClear o e [])).bind fun init =>
        (genStmts o e .none b ⟨[], [] :: g₁.ctx, []⟩).bind fun gb =>
          (genStmts o e ptc k ⟨[], [] :: g.ctx, []⟩).map fun gk =>
            { g with code := g.code ++ [.forEach kn mn init gb.code gk.code], names := g₁.names }
    | .forS i c s b k =>                                                                 -- 402-425
      (genStmts o e .none i ⟨[], [] :: g.ctx, []⟩).bind fun gi =>
        (genUnits o e gi.ctx .none c (genClear o e [])).bind fun cond =>
          (genUnits o e gi.ctx .none s (genClear o e [])).bind fun step =>
            (genStmts o e .none b ⟨[], [] :: gi.ctx, []⟩).bind fun gb =>
              (genStmts o e ptc k ⟨[], [] :: g.ctx, []⟩).map fun gk =>
                g.emit [.forS gi.code cond step gb.code gk.code]
    | .tryS b n h =>                                                                     -- 427-448
      (genStmts o e .none b ⟨[], [] :: g.ctx, []⟩).bind fun gb =>
        let g₁ := Gen.declare { g with ctx := [] :: g.ctx } n
        (genStmts o e ptc h ⟨[], g₁.ctx, []⟩).map fun gh =>
          { g with code := g.code ++ [.tryS gb.code n gh.code], names := g₁.names }
    | .breakS t =>                                                                       -- 450-488
      .ok (g.emit [.simpleStatus (match t with
        | .none => .brk | .switch => .brkSwitch | .while => .brkWhile | .for => .brkFor)])
    | .contS t =>                                                                        -- 490-524
      match t with
      | .none => .ok (g.emit [.simpleStatus .cont])
      | .switch => .ub
      | .while => .ok (g.emit [.simpleStatus .contWhile])
      | .for => .ok (g.emit [.simpleStatus .contFor])
    | .throwS us =>                                                                      -- 526-537
      if us.isEmpty then .ub else
      (genUnits o e g.ctx .none us (genClear o e g.code)).map fun c => { g with code := c ++ [.throwS] }
    | .returnS byRef us =>                                                               -- 539-589
      if us.isEmpty then .ok (g.emit [.returnS false true])
      else (genUnits o e g.ctx (if byRef then .byRef else .byVal) us (genClear o e g.code)).map fun c =>
        { g with code := genReturn o byRef (us.length == 1) c }
    | .assertS us =>                                                                     -- 591-602
      if us.isEmpty then .ub else
      (genUnits o e g.ctx .none us (genClear o e g.code)).map fun c => { g with code := c ++ [.assertS] }
    | .deferS us =>                                                                      -- 604-615
      if us.isEmpty then .ub else
      (genUnits o e g.ctx .none us (genClear o e [])).map fun c => g.emit [.deferE c]
    | .refs ds => genRefs o e ds g                                                       -- 617-639
termination_by structural x => x

/-- `do_generate_statement_list`, statement.cpp:75-97, and `AIR_Optimizer::reload`, air_optimizer.cpp:40-45, for which
`ptc` is `void`. -/
def genStmts (o : Opts) (e : Emit P X) (ptc : Ptc) : List (Stmt X) → Gen P → Res (Gen P)
  | [], g => .ok g
  | s :: ss, g => (genStmt o e (ptcOf ptc ss) s g).bind fun g => genStmts o e ptc ss g
termination_by structural x => x

/-- The statements of the innermost of blocks that contain nothing but a block, in the current context,
statement.cpp:139-148. -/
def genFlat (o : Opts) (e : Emit P X) (ptc : Ptc) : List (Stmt X) → Gen P → Res (Gen P)
  | [], g => .ok g
  | [.block b], g => genFlat o e ptc b g
  | s :: ss, g => (genStmt o e (ptcOf ptc ss) s g).bind fun g => genStmts o e ptc ss g
termination_by structural x => x

/-- The loop over declarations of variables, statement.cpp:162-252. -/
def genDecls (o : Opts) (e : Emit P X) (imm : Bool) : List (Decl X) → Gen P → Res (Gen P)
  | [], g => .ok g
  | .scalar n us :: ds, g =>
    let g := g.declare n
    if us.isEmpty then genDecls o e imm ds (g.emit [.defineNull imm n])
    else (genUnits o e g.ctx .none us (genTrap o e (g.code ++ [.clearStack, .declareVar n]))).bind fun c =>
      genDecls o e imm ds { g with code := c ++ [.initVar imm] }
  | .array ns us :: ds, g =>
    let g := ns.foldl Gen.declare g
    if us.isEmpty then genDecls o e imm ds (g.emit (ns.map fun n => .defineNull imm n))
    else (genUnits o e g.ctx .none us (genTrap o e (g.code ++ (.clearStack :: ns.map fun n => .declareVar n)))).bind fun c =>
      genDecls o e imm ds { g with code := c ++ [.prim (e.unpackArray imm ns.length)] }
  | .object ns us :: ds, g =>
    let g := ns.foldl Gen.declare g
    if us.isEmpty then genDecls o e imm ds (g.emit (ns.map fun n => .defineNull imm n))
    else (genUnits o e g.ctx .none us (genTrap o e (g.code ++ (.clearStack :: ns.map fun n => .declareVar n)))).bind fun c =>
      genDecls o e imm ds { g with code := c ++ [.prim (e.unpackObject imm ns)] }
termination_by structural x => x

/-- The loop over declarations of references, statement.cpp:621-638. -/
def genRefs (o : Opts) (e : Emit P X) : List (RefDecl X) → Gen P → Res (Gen P)
  | [], g => .ok g
  | .mk n us :: ds, g =>
    let g := g.declare n
    (genUnits o e g.ctx .none us (genTrap o e (g.code ++ [.clearStack, .declareRef n]))).bind fun c =>
      genRefs o e ds { g with code := c ++ [.initRef n] }
termination_by structural x => x

/-- The loop over clauses, statement.cpp:308-329; `Δ` has the names of the context of the body so far. -/
def genClauses (o : Opts) (e : Emit P X) (Γ : List (List Name)) (Δ : List Name) :
    List (SClause X) → Res (List (Clause P))
  | [] => .ok []
  | .mk k lo up b :: cs =>
    (if lo.isEmpty then .ok [] else genUnits o e Γ .none lo (genClear o e [])).bind fun l =>
      (if up.isEmpty then .ok l else genUnits o e Γ .none up (genTrap o e l)).bind fun l =>
        (genStmts o e .none b ⟨[], Δ :: Γ, []⟩).bind fun g =>
          (genClauses o e Γ (g.ctx.headD []) cs).map fun cs => .mk k l g.code g.names :: cs
termination_by structural x => x
end

/-- `AIR_Optimizer::reload` for a script without outer context, air_optimizer.cpp:28-51, as in
/repo/asteria/src/simple_script.cpp. -/
def compile (o : Opts) (e : Emit P X) (params : List Name) (b : List (Stmt X)) : Res (List (Node P)) :=
  (genStmts o e .void b ⟨[], [params], []⟩).map Gen.code

end Asteria.Compile
