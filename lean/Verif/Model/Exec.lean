import Verif.Model.Subscript

/-!
# Execution of code

/repo/asteria/src/runtime/air_node.cpp, /repo/asteria/src/llds/avm_rod.cpp,
/repo/asteria/src/runtime/executive_context.cpp, /repo/asteria/src/runtime/instantiated_function.cpp,
/repo/asteria/src/runtime/reference.cpp

The nodes that only act on the evaluation stack and on variables (operators, member access, literals,
global references and so on) are represented by one node `prim`, whose meaning is a parameter.  Not
represented: source locations, backtraces, hooks, the recursion limit, and the names `__this`, `__func`,
`__varg` that are created on demand.
-/

namespace Asteria.Exec

open Subscript (Sub)

/-- Identifiers, numbered. -/
abbrev Name := Nat

/-- `AIR_Status`, /repo/asteria/runtime/enums.hpp:79-91. -/
inductive Status where
  | next | retVoid | ret | brk | brkSwitch | brkWhile | brkFor | cont | contWhile | contFor
deriving DecidableEq

/-- `PTC_Aware`, enums.hpp:93-99. -/
inductive Ptc where
  | none | byRef | byVal | void
deriving DecidableEq

/-- The states of a `Reference`, /repo/asteria/runtime/reference.hpp:13-45.  Variables and pending tail
calls (`PTC_Arguments`) are identified by number. -/
inductive Ref where
  | invalid
  | void
  | temp (v : Value) (subs : List Sub)
  | var (id : Nat) (subs : List Sub)
  | ptc (id : Nat)

/-- `Switch_Clause_Type`, enums.hpp, and the bounds of an `each` clause. -/
inductive ClauseKind where
  | case
  | default
  | each (lowerClosed upperClosed : Bool)
deriving DecidableEq

mutual
/-- The nodes of the intermediate representation, /repo/asteria/runtime/air_node.hpp:18-342. -/
inductive Node (P : Type) where
  | clearStack
  | block (body : List (Node P))
  | declareVar (name : Name)
  | initVar (immutable : Bool)
  | ifS (negative : Bool) (t f : List (Node P))
  | switchS (clauses : List (Clause P))
  | doWhile (body : List (Node P)) (negative : Bool) (cond complete : List (Node P))
  | whileS (negative : Bool) (cond body complete : List (Node P))
  | forEach (key : Option Name) (mapped : Name) (init body complete : List (Node P))
  | forS (init cond step body complete : List (Node P))
  | tryS (body : List (Node P)) (name : Name) (handler : List (Node P))
  | throwS
  | assertS
  | simpleStatus (status : Status)
  | checkArg (byRef : Bool)
  | pushLocal (depth : Nat) (name : Name)
  | pushBound (ref : Ref)
  | pushConst (v : Value)
  | defineFunc (params : List Name) (variadic : Bool) (body : List (Node P))
  | branchE (t f : List (Node P)) (assign : Bool)
  | coalesceE (code : List (Node P)) (assign : Bool)
  | funcCall (nargs : Nat) (ptc : Ptc)
  | altClear
  | altCall (ptc : Ptc)
  | deferE (body : List (Node P))
  | catchE (body : List (Node P))
  | returnS (byRef isVoid : Bool)
  | returnConst (v : Value)
  | defineNull (immutable : Bool) (name : Name)
  | declareRef (name : Name)
  | initRef (name : Name)
  | prim (p : P)

/-- `AIR_Node::switch_clause`, air_node.hpp:50-58. -/
inductive Clause (P : Type) where
  | mk (kind : ClauseKind) (labels body : List (Node P)) (names : List Name)
end

/-- The members of a clause. -/
def Clause.kind {P : Type} : Clause P → ClauseKind
  | .mk k _ _ _ => k

/-- The members of a clause. -/
def Clause.labels {P : Type} : Clause P → List (Node P)
  | .mk _ l _ _ => l

/-- The members of a clause. -/
def Clause.body {P : Type} : Clause P → List (Node P)
  | .mk _ _ b _ => b

/-- The members of a clause. -/
def Clause.names {P : Type} : Clause P → List Name
  | .mk _ _ _ n => n

/-- What happens to deferred expressions; this record is not in the code, it only makes observable when each
of them is registered and run (/repo/asteria/src/runtime/air_node.cpp:4437, executive_context.cpp:107, 118, 147), and
when a context is made, its body has ended, and it is left (air_node.cpp:97-105).
Each registration gets a number. -/
inductive Event where
  | enter
  | done
  | leave
  | register (id : Nat)
  | run (id : Nat)
  | handoff (ptc : Nat)
  | resume (ptc : Nat)
deriving DecidableEq

/-- `Executive_Context`, /repo/asteria/runtime/executive_context.hpp:11-32: the names and the deferred
expressions, and whether the pointers to the two stacks have been swapped.  The deferred expressions are
numbered (see `Event`). -/
structure Scope (P : Type) where
  names : List (Name × Ref)
  defers : List (Nat × List (Node P))
  swapped : Bool

/-- `PTC_Arguments`, /repo/asteria/runtime/ptc_arguments.hpp:12-30. -/
structure PtcArgs (P : Type) where
  aware : Ptc
  target : Nat
  self : Ref
  args : List Ref
  defers : List (Nat × List (Node P))

/-- The targets of function values: native functions, whose meaning is a parameter, and
`Instantiated_Function`, /repo/asteria/runtime/instantiated_function.hpp. -/
inductive Func (P : Type) where
  | native (p : P)
  | inst (params : List Name) (variadic : Bool) (body : List (Node P))

/-- Variables, and what native functions have written. -/
structure World where
  env : Nat → Subscript.Var
  nvars : Nat
  out : List Value

/-- The result of a node that acts on the stack only. -/
inductive PrimOut where
  | ok (w : World) (stack : List Ref)
  | throw (e : Value) (w : World) (stack : List Ref)
  | ub

/-- The result of a native function. -/
inductive NativeOut where
  | ok (w : World) (result : Ref)
  | throw (e : Value) (w : World)
  | ub

/-- The parameters of the model: the meaning of the nodes and functions that are not represented, and the
greatest size of an array. -/
structure Sem (P : Type) where
  prim : P → World → List Ref → PrimOut
  native : P → World → Ref → List Ref → NativeOut
  lim : Nat

/-- The state of a program.  The current context is the first one in `scopes`; it is followed by its parents.
`stk0` and `stk1` are the two stacks of the current function, with the top first.  `result` is the reference
`self` after a call. -/
structure State (P : Type) where
  world : World
  funcs : List (Func P)
  ptcs : List (PtcArgs P)
  scopes : List (Scope P)
  stk0 : List Ref
  stk1 : List Ref
  status : Status
  result : Ref
  trace : List Event

namespace State
variable {P : Type}

/-- `m_stack` and `m_alt_stack` of the current context: whether they are swapped. -/
def swapped (st : State P) : Bool :=
  match st.scopes with
  | [] => false
  | s :: _ => s.swapped

/-- `stack()`, executive_context.hpp:98-101. -/
def stack (st : State P) : List Ref := if st.swapped then st.stk1 else st.stk0

/-- `alt_stack()`, executive_context.hpp:103-106. -/
def alt (st : State P) : List Ref := if st.swapped then st.stk0 else st.stk1

/-- A change of `stack()`. -/
def setStack (st : State P) (l : List Ref) : State P :=
  if st.swapped then { st with stk1 := l } else { st with stk0 := l }

/-- A change of `alt_stack()`. -/
def setAlt (st : State P) (l : List Ref) : State P :=
  if st.swapped then { st with stk0 := l } else { st with stk1 := l }

/-- `stack().push()`. -/
def push (st : State P) (r : Ref) : State P := st.setStack (r :: st.stack)

/-- A change of the status. -/
def setStatus (st : State P) (s : Status) : State P := { st with status := s }

/-- A change of the current context. -/
def modScope (st : State P) (f : Scope P → Scope P) : State P :=
  match st.scopes with
  | [] => st
  | s :: ss => { st with scopes := f s :: ss }

/-- A note in the record. -/
def log (st : State P) (e : Event) : State P := { st with trace := st.trace ++ [e] }

end State

/-- A name in a context: `get_named_reference_opt`, /repo/asteria/runtime/abstract_context.hpp. -/
def lookupName (n : Name) : List (Name × Ref) → Option Ref
  | [] => none
  | (m, r) :: l => if m = n then some r else lookupName n l

/-- An assignment to a name: `insert_named_reference(name) = ref`, abstract_context.hpp. -/
def setName (n : Name) (r : Ref) : List (Name × Ref) → List (Name × Ref)
  | [] => [(n, r)]
  | (m, r') :: l => if m = n then (m, r) :: l else (m, r') :: setName n r l

/-- The addition of a name that is not there yet: `insert_named_reference(name)`, abstract_context.hpp. -/
def addName (n : Name) (l : List (Name × Ref)) : List (Name × Ref) :=
  match lookupName n l with
  | some _ => l
  | none => l ++ [(n, .invalid)]

/-- The references that can be dereferenced. -/
def Ref.toSub : Ref → Subscript.Ref
  | .temp v subs => .temp v subs
  | .var id subs => .var id subs
  | _ => .bad

/-- `dereference_readonly`, /repo/asteria/src/runtime/reference.cpp:75-124. -/
def deref (w : World) (r : Ref) : Res Value := r.toSub.readonly w.env

/-- `dereference_copy`, reference.cpp:126-184. -/
def derefCopy (w : World) (r : Ref) : Res Value := r.toSub.copy w.env

/-- `Value::test`, /repo/asteria/value.hpp:353-380. -/
def test : Value → Bool
  | .null => false
  | .bool b => b
  | .int i => i ≠ 0
  | .real d => match d with
    | .nan => true
    | .inf _ => true
    | .fin q => q ≠ 0
  | .str s => s.length ≠ 0
  | .arr l => l.length ≠ 0
  | _ => true

/-- The value of an exception that the runtime throws; messages are not represented. -/
def message : Value := .str []

/-- The outcome of an execution. -/
inductive Out (P : Type) where
  | ok (st : State P)
  | exc (e : Value) (st : State P)
  | ub

/-! ### Capture of references -/

/-- One step of `rebind_opt` for a local reference, air_node.cpp:463-487.  A context that is `none` is an
analytic one. -/
def rebindLocal {P : Type} (ctx : List (Option (List (Name × Ref)))) (depth : Nat) (name : Name) : Res (Node P) :=
  match ctx[depth]? with
  | none => .ub
  | some none => .ok (.pushLocal depth name)
  | some (some names) =>
    match lookupName name names with
    | none => .ok (.pushLocal depth name)
    | some .invalid => .throw
    | some r => .ok (.pushBound r)

mutual
/-- `rebind_opt`, air_node.cpp:307-573. -/
def rebind {P : Type} (ctx : List (Option (List (Name × Ref)))) : Node P → Res (Node P)
  | .block b => (rebindAll (none :: ctx) b).map .block
  | .ifS n t f => (rebindAll (none :: ctx) t).bind fun t => (rebindAll (none :: ctx) f).map fun f => .ifS n t f
  | .switchS cs => (rebindClauses ctx cs).map .switchS
  | .doWhile b n c k => (rebindAll (none :: ctx) b).bind fun b => (rebindAll ctx c).bind fun c =>
      (rebindAll (none :: ctx) k).map fun k => .doWhile b n c k
  | .whileS n c b k => (rebindAll ctx c).bind fun c => (rebindAll (none :: ctx) b).bind fun b =>
      (rebindAll (none :: ctx) k).map fun k => .whileS n c b k
  | .forEach kn mn i b k => (rebindAll (none :: ctx) i).bind fun i => (rebindAll (none :: none :: ctx) b).bind fun b =>
      (rebindAll (none :: ctx) k).map fun k => .forEach kn mn i b k
  | .forS i c s b k => (rebindAll (none :: ctx) i).bind fun i => (rebindAll (none :: ctx) c).bind fun c =>
      (rebindAll (none :: ctx) s).bind fun s => (rebindAll (none :: none :: ctx) b).bind fun b =>
      (rebindAll (none :: ctx) k).map fun k => .forS i c s b k
  | .tryS b n h => (rebindAll (none :: ctx) b).bind fun b => (rebindAll (none :: ctx) h).map fun h => .tryS b n h
  | .pushLocal d n => rebindLocal ctx d n
  | .defineFunc ps v b => (rebindAll (none :: ctx) b).map fun b => .defineFunc ps v b
  | .branchE t f a => (rebindAll ctx t).bind fun t => (rebindAll ctx f).map fun f => .branchE t f a
  | .deferE b => (rebindAll ctx b).map .deferE
  | .catchE b => (rebindAll ctx b).map .catchE
  | .coalesceE c a => (rebindAll ctx c).map fun c => .coalesceE c a
  | n => .ok n

/-- `do_rebind_nodes`, air_node.cpp:34-40. -/
def rebindAll {P : Type} (ctx : List (Option (List (Name × Ref)))) : List (Node P) → Res (List (Node P))
  | [] => .ok []
  | n :: ns => (rebind ctx n).bind fun n => (rebindAll ctx ns).map fun ns => n :: ns

/-- The loop over the clauses of a `switch` statement in `rebind_opt`, air_node.cpp:369-380: labels are bound in the
context itself, bodies in an inner one. -/
def rebindClauses {P : Type} (ctx : List (Option (List (Name × Ref)))) : List (Clause P) → Res (List (Clause P))
  | [] => .ok []
  | .mk k l b ns :: cs => (rebindAll ctx l).bind fun l => (rebindAll (none :: ctx) b).bind fun b =>
      (rebindClauses ctx cs).map fun cs => .mk k l b ns :: cs
end

/-- The names of the current context and its parents. -/
def contexts {P : Type} (st : State P) : List (Option (List (Name × Ref))) := st.scopes.map fun s => some s.names

/-! ### Execution -/

/-- The pieces of an execution. -/
inductive Task (P : Type) where
  | rod (code : List (Node P))
  | seq (code : List (Node P))
  | node (n : Node P)
  | within (names : List (Name × Ref)) (t : Task P)
  | exit
  | exitN (saved : Ref) (status : Status)
  | exitE (e : Value)
  | find (cond : Value) (rest : List (Clause P)) (k : Nat) (target : Option Nat) (all : List (Clause P))
  | clauses (cs : List (Clause P))
  | doL (body : List (Node P)) (negative : Bool) (cond complete : List (Node P))
  | whileL (negative : Bool) (cond body complete : List (Node P))
  | eachInit (key : Option Name) (mapped : Name) (init body complete : List (Node P))
  | eachL (keys : List (Value × Sub)) (key : Option Name) (mapped : Name) (range : Ref) (body complete : List (Node P))
  | forInit (init cond step body complete : List (Node P))
  | forL (cond step body complete : List (Node P))
  | sub (assign : Bool) (code : List (Node P))
  | tailOrCall (ptc : Ptc) (target : Nat)
  | call (names : List (Name × Ref)) (body : List (Node P))
  | enter (target : Nat) (self : Ref) (args : List Ref)
  | check (self : Ref)
  | unpack (self : Ref) (frames : List Nat)
  | framesN (frames : List Nat) (value : Option Value)
  | framesE (frames : List Nat) (e : Value)

section
variable {P : Type}

/-- Continues after a piece that has returned or thrown. -/
def onOut (o : Option (Out P)) (k : State P → Option (Out P)) (h : Value → State P → Option (Out P)) : Option (Out P) :=
  match o with
  | some (.ok st) => k st
  | some (.exc e st) => h e st
  | o => o

/-- Continues after a piece that has returned. -/
def andThen (o : Option (Out P)) (k : State P → Option (Out P)) : Option (Out P) :=
  onOut o k fun e st => some (.exc e st)

/-- Continues after a piece that has thrown. -/
def handle (o : Option (Out P)) (h : Value → State P → Option (Out P)) : Option (Out P) :=
  onOut o (fun st => some (.ok st)) h

/-- Changes the state in the end. -/
def finish (o : Option (Out P)) (k : State P → State P) : Option (Out P) :=
  onOut o (fun st => some (.ok (k st))) fun e st => some (.exc e (k st))

/-- Continues with a value that has been read; an exception of the runtime if it cannot be read. -/
def withValue (st : State P) (r : Res Value) (k : Value → Option (Out P)) : Option (Out P) :=
  match r with
  | .ok v => k v
  | .throw => some (.exc message st)
  | .ub => some .ub

/-- Continues with the top of the stack; there must be one (`ASTERIA_ASSERT` in `Reference_Stack::top`,
/repo/asteria/llds/reference_stack.hpp). -/
def withTop (st : State P) (k : Ref → List Ref → Option (Out P)) : Option (Out P) :=
  match st.stack with
  | [] => some .ub
  | r :: l => k r l

/-- `ASTERIA_ASSERT(ctx.status() == air_status_next)`. -/
def expectNext (st : State P) (k : Option (Out P)) : Option (Out P) :=
  if st.status = .next then k else some .ub

/-- Executes a piece in the parent of the current context; the current context is kept. -/
def aside (rec : Task P → State P → Option (Out P)) (t : Task P) (st : State P) : Option (Out P) :=
  match st.scopes with
  | [] => some .ub
  | s :: ss => finish (rec t { st with scopes := ss }) fun st' => { st' with scopes := s :: st'.scopes }

/-- The tests of the status after the body of a loop, for example air_node.cpp:1131-1137: whether the loop goes on,
and the status. -/
def afterBody (s c b : Status) : Bool × Status :=
  if s = .cont ∨ s = c then (true, .next)
  else if s = .next then (true, .next)
  else if s = .brk ∨ s = b then (false, .next)
  else (false, s)

/-- `do_execute_block`, air_node.cpp:94-106. -/
def block (code : List (Node P)) : Task P := .within [] (.rod code)

/-- A new variable that is not initialized: `create_variable`, garbage_collector.cpp. -/
def newVar (st : State P) : Nat × State P :=
  (st.world.nvars, { st with world := { st.world with
    env := fun i => if i = st.world.nvars then ⟨none, false⟩ else st.world.env i, nvars := st.world.nvars + 1 } })

/-- `initialize` and `set_immutable`, /repo/asteria/runtime/variable.hpp. -/
def initVar (st : State P) (id : Nat) (v : Value) (immutable : Bool) : State P :=
  { st with world := { st.world with env := fun i => if i = id then ⟨some v, immutable⟩ else st.world.env i } }

/-- `unphase_variable_opt`, reference.hpp:221-228. -/
def Ref.var? : Ref → Option Nat
  | .var id _ => some id
  | _ => none

/-- `pop_subscript`, reference.hpp:199-216. -/
def Ref.popSub : Ref → Ref
  | .temp v subs => if subs.length ≥ 1 then .temp v subs.dropLast else .void
  | .var id subs => if subs.length ≥ 1 then .var id subs.dropLast else .void
  | r => r

/-- `push_subscript`, reference.hpp:181-197. -/
def Ref.pushSub (s : Sub) : Ref → Ref
  | .temp v subs => .temp v (subs ++ [s])
  | .var id subs => .var id (subs ++ [s])
  | r => r

/-- The keys and subscripts of the elements of a container, in order; `none` if the value is no container,
air_node.cpp:1284-1368. -/
def elements : Value → Option (List (Value × Sub))
  | .arr l => some ((List.range l.length).map fun (i : Nat) => (.int (i : Int), .index (i : Int)))
  | .obj l => some (l.map fun p => (.str p.1, .key p.1))
  | _ => none

/-- The key variable of a `for each` loop, air_node.cpp:1296-1303: the variable is made in the first turn. -/
def setKey (st : State P) (n : Name) (v : Value) : State P :=
  match (st.scopes.head?.bind fun s => lookupName n s.names).bind Ref.var? with
  | some id => initVar st id v true
  | none =>
    let p := newVar st
    initVar (p.2.modScope fun s => { s with names := setName n (.var p.1 []) s.names }) p.1 v true

/-- The key and the mapped element of a turn of a `for each` loop, air_node.cpp:1294-1309, 1333-1349. -/
def bindElement (kn : Option Name) (mn : Name) (r : Ref) (e : Value × Sub) (st : State P) : State P :=
  (match kn with
    | some n => setKey st n e.1
    | none => st).modScope fun s => { s with names := setName mn (r.pushSub e.2) s.names }

/-- Binding of arguments, the constructor at executive_context.cpp:35-52: `none` if there are too many.  The
arguments are listed from left to right. -/
def bindArgs (variadic : Bool) (names : List (Name × Ref)) : List Name → List Ref → Option (List (Name × Ref))
  | [], [] => some names
  | [], _ :: _ => if variadic then some names else none
  | p :: ps, [] => bindArgs variadic (setName p (.temp .null []) names) ps []
  | p :: ps, a :: as => bindArgs variadic (setName p a names) ps as

/-- The result of a function, instantiated_function.cpp:73-97. -/
def functionResult (st : State P) : Option (Out P) :=
  match st.status with
  | .next | .retVoid => some (.ok { st with result := .void })
  | .ret => withTop st fun r _ => some (.ok { st with result := r })
  | _ => some (.exc message st)

/-- Restores what belongs to the caller. -/
def restore (st₀ st : State P) : State P :=
  { st with scopes := st₀.scopes, stk0 := st₀.stk0, stk1 := st₀.stk1, status := st₀.status }

/-- The kinds of references that a function may return, reference.hpp:252-255. -/
def Ref.plain : Ref → Bool
  | .void => true
  | .temp _ _ => true
  | .var _ _ => true
  | _ => false

/-- Whether a clause of a `switch` statement matches, air_node.cpp:1019-1047: the comparison with the values of
the labels on the stack.  `none` means that the labels are not there. -/
def clauseMatches (st : State P) (cond : Value) (k : ClauseKind) : Option (Res Bool) :=
  match k with
  | .default => none
  | .case => match st.stack with
    | r :: _ => some ((deref st.world r).map fun v => decide (Value.comparePartial cond v = .equal))
    | _ => none
  | .each lc uc => match st.stack with
    | u :: l :: _ => some ((deref st.world l).bind fun lv => (deref st.world u).map fun uv =>
        (decide (Value.comparePartial cond lv = .greater) ||
          decide (Value.comparePartial cond lv = if lc then .equal else .greater)) &&
        (decide (Value.comparePartial cond uv = .less) ||
          decide (Value.comparePartial cond uv = if uc then .equal else .less)))
    | _ => none

/-- The execution of one node, air_node.cpp:770-5968 (`solidify`; the lines are given at each case). -/
def runNode (sem : Sem P) (rec : Task P → State P → Option (Out P)) (n : Node P) (st : State P) : Option (Out P) :=
  match n with
  | .clearStack => some (.ok (st.setStack []))                                   -- 775-801
  | .block b => rec (block b) st                                                  -- 803-843
  | .declareVar n =>                                                              -- 845-888
    let p := newVar st
    some (.ok ((p.2.modScope fun s => { s with names := setName n (.var p.1 []) s.names }).push (.var p.1 [])))
  | .initVar imm =>                                                               -- 890-924
    match st.stack with
    | r :: r1 :: l => withValue st (deref st.world r) fun v =>
        match r1.var? with
        | none => some .ub
        | some id => if (st.world.env id).value = none then some (.ok ((initVar st id v imm).setStack l)) else some .ub
    | _ => some .ub
  | .ifS neg t f =>                                                               -- 926-975
    withTop st fun r _ => withValue st (deref st.world r) fun v =>
      if test v ≠ neg then rec (block t) st else rec (block f) st
  | .switchS cs =>                                                                -- 977-1098
    withTop st fun r _ => withValue st (deref st.world r) fun v => rec (.find v cs 0 none cs) st
  | .doWhile b neg c k => rec (.doL b neg c k) st                                 -- 1100-1167
  | .whileS neg c b k => rec (.whileL neg c b k) st                               -- 1169-1236
  | .forEach kn mn i b k =>                                                       -- 1238-1400
    rec (.within ((match kn with | some n => [(n, .invalid)] | none => []) ++ [(mn, .invalid)]) (.eachInit kn mn i b k)) st
  | .forS i c s b k => rec (.within [] (.forInit i c s b k)) st                   -- 1402-1492
  | .tryS b n h =>                                                                -- 1494-1581
    handle (andThen (rec (block b) st) fun st =>
        if st.status = .ret then withTop st fun r _ => andThen (rec (.check r) st) fun st =>
          some (.ok (st.setStack (st.result :: st.stack.tail)))
        else some (.ok st)) fun e st =>
      rec (.within [(n, .temp e [])] (.rod h)) st
  | .throwS =>                                                                    -- 1583-1625
    withTop st fun r l => withValue st (derefCopy st.world r) fun v =>
      match v with
      | .null => some (.exc message st)
      | v => some (.exc v (st.setStack l))
  | .assertS =>                                                                   -- 1627-1666
    withTop st fun r _ => withValue st (deref st.world r) fun v =>
      if test v then some (.ok st) else some (.exc message st)
  | .simpleStatus s => some (.ok (st.setStatus s))                                -- 1668-1691
  | .checkArg byRef =>                                                            -- 1693-1723
    withTop st fun r l =>
      if byRef then withValue st (deref st.world r) fun _ => some (.ok st)
      else withValue st (derefCopy st.world r) fun v => some (.ok (st.setStack (.temp v [] :: l)))
  | .pushLocal d n =>                                                             -- 1772-1826
    match st.scopes[d]? with
    | none => some .ub
    | some s => match lookupName n s.names with
      | none => some (.exc message st)
      | some .invalid => some (.exc message st)
      | some r => some (.ok (st.push r))
  | .pushBound r => some (.ok (st.push r))                                        -- 1828-1867
  | .pushConst v => some (.ok (st.push (.temp v [])))                             -- 4721-4760
  | .defineFunc ps va b =>                                                        -- 1869-1919, air_optimizer.cpp:47-68
    match rebindAll (none :: contexts st) b with
    | .ok b' => some (.ok (({ st with funcs := st.funcs ++ [.inst ps va b'] } : State P).push (.temp (.func st.funcs.length) [])))
    | .throw => some (.exc message st)
    | .ub => some .ub
  | .branchE t f a =>                                                             -- 1921-1970
    withTop st fun r _ => withValue st (deref st.world r) fun v => rec (.sub a (if test v then t else f)) st
  | .coalesceE c a =>                                                             -- 4825-4869
    withTop st fun r _ => withValue st (deref st.world r) fun v =>
      match v with
      | .null => rec (.sub a c) st
      | _ => some (.ok st)
  | .funcCall n ptc =>                                                            -- 1972-2010
    if st.stack.length ≤ n then some .ub
    else
      let st := (st.setAlt (st.stack.take n)).setStack (st.stack.drop n)
      withTop st fun r l => withValue st (deref st.world r) fun v =>
        match v with
        | .func f => rec (.tailOrCall ptc f) (st.setStack (r.popSub :: l))
        | _ => some (.exc message st)
  | .altClear =>                                                                  -- 4762-4789
    some (.ok ((st.modScope fun s => { s with swapped := !s.swapped }).setStack []))
  | .altCall ptc =>                                                               -- 4791-4823
    let st := st.modScope fun s => { s with swapped := !s.swapped }
    withTop st fun r l => withValue st (deref st.world r) fun v =>
      match v with
      | .func f => rec (.tailOrCall ptc f) (st.setStack (r.popSub :: l))
      | _ => some (.exc message st)
  | .deferE b =>                                                                  -- 4414-4461
    match rebindAll (contexts st) b with
    | .ok b' => some (.ok ((st.modScope fun s => { s with defers := s.defers ++ [(st.trace.length, b')] }).log
        (.register st.trace.length)))
    | .throw => some (.exc message st)
    | .ub => some .ub
  | .catchE b =>                                                                  -- 4623-4679
    let back (v : Value) (st' : State P) : Option (Out P) :=
      some (.ok ((st'.setStack (.temp v [] :: st.stack)).setStatus .next))
    onOut (rec (.rod b) (st.setStack [])) (fun st' => expectNext st' (back .null st')) back
  | .returnS byRef isVoid =>                                                      -- 4681-4719
    if isVoid then some (.ok (st.setStatus .retVoid))
    else withTop st fun r l =>
      match r with
      | .void => some (.ok (st.setStatus .ret))
      | r =>
        if byRef then withValue st (deref st.world r) fun _ => some (.ok (st.setStatus .ret))
        else withValue st (derefCopy st.world r) fun v => some (.ok ((st.setStack (.temp v [] :: l)).setStatus .ret))
  | .returnConst v => some (.ok ((st.push (.temp v [])).setStatus .ret))          -- 5897-5934
  | .defineNull imm n =>                                                          -- 4238-4286
    let p := newVar st
    some (.ok (initVar (p.2.modScope fun s => { s with names := setName n (.var p.1 []) s.names }) p.1 .null imm))
  | .declareRef n =>                                                              -- 4548-4583
    some (.ok (st.modScope fun s => { s with names := setName n .invalid s.names }))
  | .initRef n =>                                                                 -- 4585-4621
    withTop st fun r l => some (.ok ((st.modScope fun s => { s with names := setName n r s.names }).setStack l))
  | .prim p =>
    match sem.prim p st.world st.stack with
    | .ok w l => some (.ok ({ st with world := w }.setStack l))
    | .throw e w l => some (.exc e ({ st with world := w }.setStack l))
    | .ub => some .ub

/-- One step of the execution of a piece. -/
def step (sem : Sem P) (rec : Task P → State P → Option (Out P)) (t : Task P) (st : State P) : Option (Out P) :=
  match t with
  -- `AVM_Rod::execute`, avm_rod.cpp:149-180
  | .rod code => rec (.seq code) (st.setStatus .next)
  | .seq [] => some (.ok st)
  | .seq (n :: ns) => andThen (rec (.node n) st) fun st => if st.status = .next then rec (.seq ns) st else some (.ok st)
  | .node n => runNode sem rec n st
  -- a new context, executed and left: `do_execute_block`, air_node.cpp:94-106, and the same pattern at 1053-1078,
  -- 1265-1381, 1433-1466, 1535-1562; `on_scope_exit_normal` and `on_scope_exit_exceptional`,
  -- executive_context.hpp:127-140, executive_context.cpp:97-160
  | .within names t =>
    let st₁ := { st with scopes := ⟨names, [], st.swapped⟩ :: st.scopes }.log .enter
    let leave (st : State P) : State P := { st with scopes := st.scopes.tail }.log .leave
    onOut (rec t st₁) (fun st => finish (rec .exit (st.log .done)) leave)
      fun e st => finish (rec (.exitE e) (st.log .done)) leave
  -- `on_scope_exit_normal`, executive_context.hpp:127-132, executive_context.cpp:97-115
  | .exit =>
    match st.scopes with
    | [] => some .ub
    | s :: ss =>
      if s.defers.length = 0 then some (.ok st)
      else if st.status = .ret then
        withTop st fun r l =>
          match r with
          | .ptc id =>
            if id < st.ptcs.length then
              some (.ok (({ st with
                ptcs := st.ptcs.modify id fun p => { p with defers := p.defers ++ s.defers },
                scopes := { s with defers := [] } :: ss } : State P).log (.handoff id)))
            else some .ub
          | .invalid => some .ub
          | r => rec (.exitN r st.status) (st.setStack (.invalid :: l))
      else rec (.exitN .invalid st.status) st
  -- the loop in `do_on_scope_exit_normal_slow`, executive_context.cpp:117-137
  | .exitN saved status =>
    match st.scopes with
    | [] => some .ub
    | s :: ss =>
      match s.defers.getLast? with
      | none =>
        some (.ok ((match saved with | .invalid => st | r => st.push r).setStatus status))
      | some d =>
        onOut (rec (.rod d.2) ({ st with scopes := { s with defers := s.defers.dropLast } :: ss }.log (.run d.1)))
          (fun st => expectNext st (rec (.exitN saved status) st))
          fun e st => rec (.exitE e) st
  -- the loop in `do_on_scope_exit_exceptional_slow`, executive_context.cpp:146-158; the exception in the end is
  -- thrown again by the caller
  | .exitE e =>
    match st.scopes with
    | [] => some .ub
    | s :: ss =>
      match s.defers.getLast? with
      | none => some (.exc e st)
      | some d =>
        onOut (rec (.rod d.2) ({ st with scopes := { s with defers := s.defers.dropLast } :: ss }.log (.run d.1)))
          (fun st => expectNext st (rec (.exitE e) st))
          fun e' st => rec (.exitE e') st
  -- the loop that finds the target clause, air_node.cpp:1015-1051
  | .find _ [] _ target all =>
    match target with
    | none => some (.ok st)
    | some k => rec (.within (((all.take k).flatMap Clause.names).foldl (fun l n => addName n l) [])
        (.clauses (all.drop k))) st
  | .find cond (c :: cs) k target all =>
    match c.kind with
    | .default => rec (.find cond cs (k + 1) (some k) all) st
    | kind => andThen (rec (.rod c.labels) st) fun st => expectNext st <|
        match clauseMatches st cond kind with
        | none => some .ub
        | some .ub => some .ub
        | some .throw => some (.exc message st)
        | some (.ok true) => rec (.find cond [] k (some k) all) st
        | some (.ok false) => rec (.find cond cs (k + 1) target all) st
  -- the bodies from the target clause on, air_node.cpp:1062-1069
  | .clauses [] => some (.ok st)
  | .clauses (c :: cs) => andThen (rec (.rod c.body) st) fun st =>
      if st.status = .next then rec (.clauses cs) st
      else some (.ok (if st.status = .brk ∨ st.status = .brkSwitch then st.setStatus .next else st))
  -- the loop of a `do` statement, air_node.cpp:1129-1146
  | .doL b neg c k => andThen (rec (block b) st) fun st =>
      let p := afterBody st.status .contWhile .brkWhile
      let st := st.setStatus p.2
      if p.1 then andThen (rec (.rod c) st) fun st => expectNext st <|
        withTop st fun r _ => withValue st (deref st.world r) fun v =>
          if test v = neg then rec (block k) st else rec (.doL b neg c k) st
      else some (.ok st)
  -- the loop of a `while` statement, air_node.cpp:1198-1215
  | .whileL neg c b k => andThen (rec (.rod c) st) fun st => expectNext st <|
      withTop st fun r _ => withValue st (deref st.world r) fun v =>
        if test v = neg then rec (block k) st
        else andThen (rec (block b) st) fun st =>
          let p := afterBody st.status .contWhile .brkWhile
          let st := st.setStatus p.2
          if p.1 then rec (.whileL neg c b k) st else some (.ok st)
  -- a `for each` statement, air_node.cpp:1267-1287, 1366-1368
  | .eachInit kn mn i b k => andThen (rec (.rod i) st) fun st => expectNext st <|
      withTop st fun r l =>
        let st := (st.modScope fun s => { s with names := setName mn r s.names }).setStack (.invalid :: l)
        withValue st (deref st.world r) fun v =>
          match v with
          | .null => some (.ok st)
          | v => match elements v with
            | none => some (.exc message st)
            | some es => rec (.eachL es kn mn r b k) st
  -- the loops over an array and over an object, air_node.cpp:1288-1324, 1326-1364
  | .eachL [] _ _ _ _ k => aside rec (block k) st
  | .eachL (e :: es) kn mn r b k =>
      let st := bindElement kn mn r e st
      withValue st (deref st.world (r.pushSub e.2)) fun _ =>
        andThen (rec (block b) st) fun st =>
          let p := afterBody st.status .contFor .brkFor
          let st := st.setStatus p.2
          if p.1 then rec (.eachL es kn mn r b k) st else some (.ok st)
  -- a `for` statement, air_node.cpp:1433-1438
  | .forInit i c s b k => andThen (rec (.rod i) st) fun st => expectNext st (rec (.forL c s b k) st)
  -- the loop of a `for` statement, air_node.cpp:1440-1461
  | .forL c s b k => andThen (rec (.rod c) st) fun st => expectNext st <|
      let body (st : State P) : Option (Out P) :=
        andThen (rec (block b) st) fun st =>
          let p := afterBody st.status .contFor .brkFor
          let st := st.setStatus p.2
          if p.1 then andThen (rec (.rod s) st) fun st => expectNext st (rec (.forL c s b k) st)
          else some (.ok st)
      match st.stack with
      | [] => body st
      | r :: _ => withValue st (deref st.world r) fun v => if test v then body st else aside rec (block k) st
  -- `do_evaluate_subexpression`, air_node.cpp:108-134
  | .sub assign code =>
    match code with
    | [] => expectNext st (some (.ok st))
    | code =>
      if assign then andThen (rec (.rod code) st) fun st => expectNext st <|
        withTop st fun r l => withValue st (derefCopy st.world r) fun v =>
          match l with
          | [] => some .ub
          | r1 :: _ =>
            let q := r1.toSub.assign sem.lim st.world.env v
            let st' := { st with world := { st.world with env := q.1 } }
            match q.2 with
            | .ok _ => some (.ok (st'.setStack l))
            | .throw => some (.exc message st')
            | .ub => some .ub
      else withTop st fun _ l => rec (.rod code) (st.setStack l)
  -- `do_invoke_partial`, air_node.cpp:150-168; the function and the target have been read, the reference at
  -- the top is `self`
  | .tailOrCall ptc f => withTop st fun r l =>
      if ptc = .none then
        andThen (rec (.enter f r st.alt.reverse) st) fun st' =>
          andThen (rec (.check st'.result) st') fun st' => expectNext st' (some (.ok ((st'.setStack (st'.result :: l)).setAlt [])))
      else
        some (.ok ((({ st with ptcs := st.ptcs ++ [⟨ptc, f, r, st.alt.reverse, []⟩] } : State P).setStack
          (.ptc st.ptcs.length :: l)).setAlt [] |>.setStatus .ret))
  -- `cow_function::invoke_ptc_aware`, /repo/asteria/src/fwd.cpp:46-71, `Instantiated_Function::invoke_ptc_aware`,
  -- instantiated_function.cpp:48-98; the state of the caller is kept apart
  | .enter f self args =>
    match st.funcs[f]? with
    | none => some .ub
    | some (.native p) =>
      match sem.native p st.world self args with
      | .ok w r => some (.ok { st with world := w, result := r })
      | .throw e w => some (.exc e { st with world := w })
      | .ub => some .ub
    | some (.inst ps va body) =>
      match bindArgs va [] ps args with
      | none => some (.exc message st)
      | some names =>
        onOut (rec (.call names body) { st with scopes := [], stk0 := args.map fun _ => .invalid, stk1 := [], status := .next })
          (fun st' => some (.ok (restore st st')))
          fun e st' => some (.exc e (restore st st'))
  | .call names body => andThen (rec (.within names (.rod body)) st) functionResult
  -- `check_function_result`, reference.hpp:246-256
  | .check self =>
    match self with
    | .ptc _ => andThen (rec (.unpack self []) st) fun st' =>
        if st'.result.plain then some (.ok st') else some (.exc message st')
    | r => if r.plain then some (.ok { st with result := r }) else some (.exc message st)
  -- `do_use_function_result_slow`, reference.cpp:268-346: the loop that unpacks
  | .unpack self frames =>
    match self with
    | .ptc id =>
      match st.ptcs[id]? with
      | none => some .ub
      | some p =>
        onOut (rec (.enter p.target p.self p.args) st)
          (fun st' => rec (.unpack st'.result (id :: frames)) st')
          fun e st' => rec (.framesE (id :: frames) e) st'
    | r =>
      match frames with
      | [] => some .ub
      | id :: _ =>
        match st.ptcs[id]? with
        | none => some .ub
        | some p =>
          if p.aware = .void then rec (.framesN frames none) { st with result := .void }
          else match r with
            | .void => rec (.framesN frames none) { st with result := .void }
            | r => match deref st.world r with
              | .ok v => rec (.framesN frames (some v)) { st with result := r }
              | .throw => rec (.framesE frames message) st
              | .ub => some .ub
  -- the normal path, reference.cpp:298-318: each frame has its deferred expressions run in a context of its own
  | .framesN frames value =>
    match frames with
    | [] => some (.ok st)
    | id :: frames =>
      match st.ptcs[id]? with
      | none => some .ub
      | some p =>
        let st := match p.aware, value with
          | .byVal, some v => { st with result := .temp v [] }
          | _, _ => st
        let r := st.result
        let st₁ := ({ st with
          ptcs := st.ptcs.modify id fun p => { p with defers := [] },
          scopes := [⟨[], p.defers, false⟩], stk0 := [], stk1 := [], status := .next } : State P).log (.resume id)
        onOut (rec (.exitN .invalid .next) st₁)
          (fun st' => rec (.framesN frames none) ({ restore st st' with result := r }.log .leave))
          fun e st' => rec (.framesE frames e) ((restore st st').log .leave)
  -- the exceptional path, reference.cpp:320-345
  | .framesE frames e =>
    match frames with
    | [] => some (.exc e st)
    | id :: frames =>
      match st.ptcs[id]? with
      | none => some .ub
      | some p =>
        let st₁ := ({ st with
          ptcs := st.ptcs.modify id fun p => { p with defers := [] },
          scopes := [⟨[], p.defers, false⟩], stk0 := [], stk1 := [], status := .next } : State P).log (.resume id)
        onOut (rec (.exitE e) st₁) (fun _ => some .ub)
          fun e' st' => rec (.framesE frames e') ((restore st st').log .leave)

/-- The execution of a piece with at most `n` nested steps; `none` means that they were not enough. -/
def exec (sem : Sem P) : Nat → Task P → State P → Option (Out P)
  | 0, _, _ => none
  | n + 1, t, st => step sem (exec sem n) t st

/-- An execution that ends. -/
def Runs (sem : Sem P) (t : Task P) (st : State P) (o : Out P) : Prop := ∃ n, exec sem n t st = some o

end

end Asteria.Exec
