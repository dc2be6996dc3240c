import Verif.Model.Compile

/-!
# What it means that compiled code does not fail an assertion

An execution is undefined in the model where the source has an assertion, or an access that is out of range: the top of an
empty stack, a variable that is initialized twice, a status that is not expected, a context that does not exist.  The
statement needs to know what the nodes that are parameters do to the stack, and which source is accepted.
-/

namespace Asteria.Exec

variable {P : Type}

/-- Variables which have been declared and not been initialized are at some distance from the top of the stack. -/
def Slots (k : Nat) (ids : List Nat) (w : World) (l : List Ref) : Prop :=
  (∃ top fr rest, l = top ++ (fr ++ rest) ∧ top.length = k ∧ fr.map Ref.var? = ids.map some) ∧ ids.Nodup ∧
    ∀ i ∈ ids, i < w.nvars ∧ (w.env i).value = none

/-- Only the given variables may be initialized; variables may be made, none is lost. -/
structure Kept (ids : List Nat) (w w' : World) : Prop where
  nvars : w.nvars ≤ w'.nvars
  same : ∀ i, i < w.nvars → i ∉ ids → ((w'.env i).value = none ↔ (w.env i).value = none)
  clean : (∀ i, w.nvars ≤ i → (w.env i).value = none) → ∀ i, w'.nvars ≤ i → (w'.env i).value = none

/-- What a node that is a parameter does to the stack: the operands that it removes, the variables below them that it
initializes and removes, and what it pushes. -/
structure Sig where
  pops : Nat
  fresh : Nat
  pushes : Nat

/-- Reading and writing through a reference is defined.  This is not so for some subscripts, see C41. -/
def Ref.Defined (sem : Sem P) (w : World) (r : Ref) : Prop :=
  deref w r ≠ .ub ∧ ∀ x, (r.toSub.assign sem.lim w.env x).2 ≠ .ub

/-- The nodes and functions that are parameters do what is expected of them. -/
structure SafeSem (sem : Sem P) (sig : P → Sig) : Prop where
  prim : ∀ p w l ids, (sig p).fresh = ids.length → Slots (sig p).pops ids w l →
    (∀ r ∈ l, r.Defined sem w) →
    match sem.prim p w l with
    | .ok w' l' => Kept ids w w' ∧ ∃ top, top.length = (sig p).pushes ∧ l' = top ++ l.drop ((sig p).pops + (sig p).fresh)
    | .throw _ w' _ => Kept ids w w'
    | .ub => False
  native : ∀ p w self args,
    match sem.native p w self args with
    | .ok w' _ => Kept [] w w'
    | .throw _ w' => Kept [] w w'
    | .ub => False

/-- The references that are about to be used can be read and written. -/
def State.Defined (sem : Sem P) (st : State P) : Prop :=
  ∀ r, r ∈ st.stk0 ∨ r ∈ st.stk1 → r.Defined sem st.world

/-- What the source has by construction: a function value refers to a function, a tail call has its arguments; and the
references that a piece keeps apart from the stack can be read. -/
def Task.Defined (t : Task P) (st : State P) : Prop :=
  match t with
  | .eachL (x :: _) kn mn r _ _ => deref (bindElement kn mn r x st).world (r.pushSub x.2) ≠ .ub
  | .enter f _ _ => f < st.funcs.length
  | .unpack r frames => (∀ id, r = .ptc id → id < st.ptcs.length) ∧ deref st.world r ≠ .ub ∧
      ∀ id ∈ frames, id < st.ptcs.length
  | .framesN frames _ => ∀ id ∈ frames, id < st.ptcs.length
  | .framesE frames _ => ∀ id ∈ frames, id < st.ptcs.length
  | .exit => ∀ id, .ptc id ∈ st.stack → id < st.ptcs.length
  | _ => True

/-- The state of an outcome. -/
def Out.state? : Out P → Option (State P)
  | .ok st => some st
  | .exc _ st => some st
  | .ub => none

open Classical in
/-- The execution of a piece that is abandoned where it comes to a state or an outcome that does not meet a condition. -/
noncomputable def watched (sem : Sem P) (pre : Task P → State P → Prop) (post : State P → Prop) :
    Nat → Task P → State P → Option (Out P)
  | 0, _, _ => none
  | n + 1, t, st =>
    if pre t st then
      (step sem (watched sem pre post n) t st).filter fun o => decide (∀ st', o.state? = some st' → post st')
    else none

/-- The execution of a piece that is abandoned where a reference cannot be read or written, so that everything else that
is undefined remains. -/
noncomputable def attempt (sem : Sem P) : Nat → Task P → State P → Option (Out P) :=
  watched sem (fun t st => st.Defined sem ∧ t.Defined st) fun st => st.Defined sem

end Asteria.Exec

namespace Asteria.Compile

open Exec

variable {P X : Type}

/-- The nodes that the code generator emits are what it takes them for; `ar` has the numbers of operands. -/
structure Arity (e : Emit P X) (sig : P → Sig) (ar : X → Nat) : Prop where
  trap : sig e.trap = ⟨0, 0, 0⟩
  global : ∀ n, sig (e.global n) = ⟨0, 0, 1⟩
  apply : ∀ x a, sig (e.apply x a) = ⟨ar x, 0, 1⟩
  pos : ∀ x, e.isPos x → ar x = 1
  checkNull : ∀ b, sig (e.checkNull b) = ⟨1, 0, 1⟩
  nullTest : ∀ x b, e.nullTest x = some b → ar x = 2
  member : ∀ k, sig (e.member k) = ⟨1, 0, 1⟩
  index : ∀ x, e.isIndex x → ar x = 2
  notb : ∀ x, e.isNotb x → ar x = 1
  applyConst : ∀ x a i, e.foldable x → ar x ≥ 1 ∧ sig (e.applyConst x a i) = ⟨ar x - 1, 0, 1⟩
  array : ∀ n, sig (e.array n) = ⟨n, 0, 1⟩
  object : ∀ ks, sig (e.object ks) = ⟨ks.length, 0, 1⟩
  unpackArray : ∀ b n, sig (e.unpackArray b n) = ⟨1, n, 0⟩
  unpackObject : ∀ b ns, sig (e.unpackObject b ns) = ⟨1, ns.length, 0⟩

/-- The number of operands after a unit of an expression in reverse Polish notation. -/
def effect (ar : X → Nat) (u : XUnit X) (n : Nat) : Option Nat :=
  match u with
  | .literal _ | .localRef _ | .closure _ _ _ | .globalRef _ | .catchE _ => some (n + 1)
  | .branch _ _ | .call _ | .checkArg _ => if 1 ≤ n then some n else none
  | .op x _ => if 1 ≤ ar x ∧ ar x ≤ n then some (n - ar x + 1) else none
  | .array k => if k ≤ n then some (n - k + 1) else none
  | .object ks => if ks.length ≤ n then some (n - ks.length + 1) else none

/-- The number of operands after an expression. -/
def effects (ar : X → Nat) : List (XUnit X) → Nat → Option Nat
  | [], n => some n
  | u :: us, n => (effect ar u n).bind (effects ar us)

mutual
/-- No function is called, outside functions that are made. -/
def callFree : XUnit X → Bool
  | .call _ => false
  | .branch bs _ => callFreeB bs
  | .catchE us => callFreeU us
  | _ => true
termination_by structural x => x

/-- The same for a list. -/
def callFreeU : List (XUnit X) → Bool
  | [] => true
  | u :: us => callFree u && callFreeU us
termination_by structural x => x

/-- The same for branches. -/
def callFreeB : List (Branch X) → Bool
  | [] => true
  | .mk _ us :: bs => callFreeU us && callFreeB bs
termination_by structural x => x
end

/-- An expression with one result. -/
def one (ar : X → Nat) (us : List (XUnit X)) : Prop := effects ar us 0 = some 1

/-- What may be the first part of a `for` statement: a semicolon on its own is an empty block. -/
def isInit : Stmt X → Bool
  | .expr _ | .vars _ _ | .refs _ | .block [] => true
  | _ => false

mutual
/-- Expressions that the parser makes: the operators have their operands, and the branches and the arguments have one
result each.  The operand of `catch` has no function calls unless optimization is turned off (see C79). -/
def WfU (o : Opts) (ar : X → Nat) : XUnit X → Prop
  | .closure _ _ b => WfSs o ar b
  | .branch bs _ => WfBs o ar bs
  | .call as => WfAs o ar as
  | .catchE us => WfUs o ar us ∧ (effects ar us 0).isSome ∧ (o.level = 0 ∨ callFreeU us)
  | _ => True
termination_by structural x => x

/-- The same for a list. -/
def WfUs (o : Opts) (ar : X → Nat) : List (XUnit X) → Prop
  | [] => True
  | u :: us => WfU o ar u ∧ WfUs o ar us
termination_by structural x => x

/-- The same for branches. -/
def WfBs (o : Opts) (ar : X → Nat) : List (Branch X) → Prop
  | [] => True
  | .mk _ us :: bs => (WfUs o ar us ∧ (us = [] ∨ one ar us)) ∧ WfBs o ar bs
termination_by structural x => x

/-- The same for arguments. -/
def WfAs (o : Opts) (ar : X → Nat) : List (Arg X) → Prop
  | [] => True
  | .mk us :: as => (WfUs o ar us ∧ one ar us) ∧ WfAs o ar as
termination_by structural x => x

/-- Statements that the parser makes. -/
def WfS (o : Opts) (ar : X → Nat) : Stmt X → Prop
  | .expr us => WfUs o ar us ∧ (effects ar us 0).isSome
  | .block b => WfSs o ar b
  | .vars _ ds => WfDs o ar ds
  | .func _ _ _ b => WfSs o ar b
  | .ifS _ c t f => (WfUs o ar c ∧ one ar c) ∧ WfSs o ar t ∧ WfSs o ar f
  | .switchS c cs => (WfUs o ar c ∧ one ar c) ∧ WfCs o ar cs
  | .doWhile b _ c k => WfSs o ar b ∧ (WfUs o ar c ∧ one ar c) ∧ WfSs o ar k
  | .whileS _ c b k => (WfUs o ar c ∧ one ar c) ∧ WfSs o ar b ∧ WfSs o ar k
  | .forEach _ _ i b k => (WfUs o ar i ∧ one ar i) ∧ WfSs o ar b ∧ WfSs o ar k
  | .forS i c s b k => (WfSs o ar i ∧ i.all isInit) ∧ (WfUs o ar c ∧ (effects ar c 0).isSome) ∧
      (WfUs o ar s ∧ (effects ar s 0).isSome) ∧ WfSs o ar b ∧ WfSs o ar k
  | .tryS b _ h => WfSs o ar b ∧ WfSs o ar h
  | .throwS us => WfUs o ar us ∧ one ar us
  | .returnS _ us => WfUs o ar us ∧ (us = [] ∨ one ar us)
  | .assertS us => WfUs o ar us ∧ one ar us
  | .deferS us => WfUs o ar us ∧ (effects ar us 0).isSome
  | .refs ds => WfRs o ar ds
  | .breakS _ => True
  | .contS _ => True
termination_by structural x => x

/-- The same for a list. -/
def WfSs (o : Opts) (ar : X → Nat) : List (Stmt X) → Prop
  | [] => True
  | s :: ss => WfS o ar s ∧ WfSs o ar ss
termination_by structural x => x

/-- The same for the clauses of a `switch` statement. -/
def WfCs (o : Opts) (ar : X → Nat) : List (SClause X) → Prop
  | [] => True
  | .mk k lo up b :: cs => ((WfUs o ar lo ∧ WfUs o ar up) ∧ (match k with
      | .default => lo = [] ∧ up = []
      | .case => one ar lo ∧ up = []
      | .each _ _ => one ar lo ∧ one ar up) ∧ WfSs o ar b) ∧ WfCs o ar cs
termination_by structural x => x

/-- The same for declarations. -/
def WfDs (o : Opts) (ar : X → Nat) : List (Decl X) → Prop
  | [] => True
  | .scalar _ us :: ds => (WfUs o ar us ∧ (us = [] ∨ one ar us)) ∧ WfDs o ar ds
  | .array _ us :: ds => (WfUs o ar us ∧ (us = [] ∨ one ar us)) ∧ WfDs o ar ds
  | .object _ us :: ds => (WfUs o ar us ∧ (us = [] ∨ one ar us)) ∧ WfDs o ar ds
termination_by structural x => x

/-- The same for declarations of references. -/
def WfRs (o : Opts) (ar : X → Nat) : List (RefDecl X) → Prop
  | [] => True
  | .mk _ us :: ds => (WfUs o ar us ∧ one ar us) ∧ WfRs o ar ds
termination_by structural x => x
end

end Asteria.Compile
