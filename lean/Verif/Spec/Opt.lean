import Verif.Spec.Safe

/-!
# What it means that optimization makes no difference

Folding of operators is right if the node that replaces a constant and an operator does what they do (C48 and C93 are about
the operators themselves).  What can be seen of an execution are the variables, what native functions have written, and
what is returned or thrown.
-/

namespace Asteria.Exec

variable {P : Type}

/-- What nodes which only act on the stack do, one after another. -/
def den (sem : Sem P) : List (Node P) → World → List Ref → PrimOut
  | [], w, l => .ok w l
  | .pushConst v :: ns, w, l => den sem ns w (.temp v [] :: l)
  | .prim p :: ns, w, l =>
    match sem.prim p w l with
    | .ok w' l' => den sem ns w' l'
    | .throw e w' l' => .throw e w' l'
    | .ub => .ub
  | _ :: _, _, _ => .ub

/-- The nodes which only act on the stack. -/
def isPure : Node P → Bool
  | .pushConst _ | .prim _ => true
  | _ => false

/-- Two results of nodes which only act on the stack are the same: `k` operands have been pushed on whatever there was, or
the same exception has been thrown. -/
def PrimOut.Same (k : Nat) (B B' : List Ref) : PrimOut → PrimOut → Prop
  | .ok w l, .ok w' l' => w = w' ∧ ∃ Y : List Ref, Y.length = k ∧ l = Y ++ B ∧ l' = Y ++ B'
  | .throw e w _, .throw e' w' _ => e = e' ∧ w = w'
  | .ub, .ub => True
  | _, _ => False

/-- Two pieces of code which only act on the stack do the same with `k` operands, which become `k'`, and do not touch what is
below them. -/
structure SameCode (sem : Sem P) (k k' : Nat) (a b : List (Node P)) : Prop where
  left : ∀ n ∈ a, isPure n = true
  right : ∀ n ∈ b, isPure n = true
  same : ∀ w (X B B' : List Ref), X.length = k → (den sem a w (X ++ B)).Same k' B B' (den sem b w (X ++ B'))

/-- What can be seen of the outcome of a call. -/
inductive Visible where
  | returned (w : World) (r : Ref)
  | thrown (w : World) (e : Value)
  | undefined

/-- What can be seen of the outcome of a call. -/
def Out.visible : Out P → Visible
  | .ok st => .returned st.world st.result
  | .exc e st => .thrown st.world e
  | .ub => .undefined

/-- A function is called, and so are the functions that it calls in place of itself. -/
def Calls (sem : Sem P) (f : Nat) (self : Ref) (args : List Ref) (st : State P) (o : Out P) : Prop :=
  ∃ o₁, Runs sem (.enter f self args) st o₁ ∧
    match o₁ with
    | .ok st₁ => Runs sem (.check st₁.result) st₁ o
    | o₁ => o = o₁

end Asteria.Exec

namespace Asteria.Compile

open Exec

variable {P X : Type}

/-- Two functions are the same native function, or have been compiled from the same source, which the parser accepts, without
and with optimization; there are no calls in operands of `catch`. -/
def Alike (e : Emit P X) (ar : X → Nat) : Func P → Func P → Prop
  | .native p, .native q => p = q
  | .inst ps va c, .inst qs vb d => ps = qs ∧ va = vb ∧ ∃ (o : Opts) (b : List (Stmt X)), WfSs { o with level := 1 } ar b ∧
      compile { o with level := 0 } e ps b = .ok c ∧ compile { o with level := 1 } e ps b = .ok d
  | _, _ => False

/-- The nodes that are parameters do not look at the stack below their operands, and those that replace an operator and a
constant do the same.  Where the parser never makes an operator with an assignment, `e.apply x true` is never executed and
may be taken to be `e.apply x false`. -/
structure FoldSem (sem : Sem P) (e : Emit P X) (sig : P → Sig) (ar : X → Nat) : Prop where
  frame : ∀ p, SameCode sem ((sig p).pops + (sig p).fresh) (sig p).pushes [.prim p] [.prim p]
  pos : ∀ x v, e.isPos x → SameCode sem 0 1 [.pushConst v, .prim (e.apply x false)] [.pushConst v]
  null : ∀ x a ne, e.nullTest x = some ne →
    SameCode sem 1 1 [.pushConst .null, .prim (e.apply x a)] [.prim (e.checkNull ne)]
  member : ∀ x a k, e.isIndex x → SameCode sem 1 1 [.pushConst (.str k), .prim (e.apply x a)] [.prim (e.member k)]
  notb : ∀ x a i, e.isNotb x → SameCode sem 0 1 [.pushConst (.int i), .prim (e.apply x a)]
    [.pushConst (.int (BitVec.ofInt 64 i ^^^ -1).toInt)]
  const : ∀ x a i, e.foldable x → isInt32 i →
    SameCode sem (ar x - 1) 1 [.pushConst (.int i), .prim (e.apply x a)] [.prim (e.applyConst x a i)]

end Asteria.Compile
