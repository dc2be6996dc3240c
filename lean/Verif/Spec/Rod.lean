import Verif.Model.Rod

/-!
# Rods as lists of nodes
-/

namespace Asteria.Avm.Spec

variable {R X L : Type} [DecidableEq R]

/-- A node, as its owner sees it. -/
structure Node (X L : Type) where
  exec : Fn
  user : List UInt8
  obj : Option (Obj X)
  dtor : Option Fn
  coll : Option Fn
  sloc : Option L

/-- The node that a call to `push_function` is to add.  An object that takes no space is not there. -/
def Node.of (a : Arg X L) : Node X L where
  exec := a.exec
  user := a.up.user
  obj := if a.size = 0 then none else some (match a.ctor with
    | some (some x) => .made x
    | _ => .zero)
  dtor := a.dtor
  coll := a.coll
  sloc := a.sloc

/-- The destructors that are called for some nodes. -/
def deaths (ns : List (Node X L)) : List (Death X) := ns.filterMap fun n => n.dtor.map fun d => ⟨d, n.user, n.obj⟩

/-- The collectors that are called for some nodes. -/
def visits (ns : List (Node X L)) : List (Death X) := ns.filterMap fun n => n.coll.map fun f => ⟨f, n.user, n.obj⟩

/-- Rods are lists; destructors have been called. -/
structure World (R X L : Type) where
  rods : R → List (Node X L)
  log : List (Death X)

/-- An operation, which throws or not. -/
def World.apply (w : World R X L) : Op R X L × Bool → World R X L
  | (.push r a _, false) => { w with rods := Function.update w.rods r (w.rods r ++ [.of a]) }
  | (.push _ _ _, true) => w
  | (.clear r, _) => ⟨Function.update w.rods r [], w.log ++ deaths (w.rods r)⟩
  | (.destroy r, _) => ⟨Function.update w.rods r [], w.log ++ deaths (w.rods r)⟩
  | (.swap r r', _) => { w with rods := Function.update (Function.update w.rods r (w.rods r')) r' (w.rods r) }

/-- Rods which have just been constructed. -/
def World.init (R X L : Type) : World R X L := ⟨fun _ => [], []⟩

/-- Nodes are executed one after another, until one throws or the status is no longer `air_status_next`. -/
def execute {C E : Type} (mc : Machine X L C E) : List (Node X L) → C → C × Option E
  | [], c => (c, none)
  | n :: ns, c =>
    match mc.exec n.exec n.user n.obj c with
    | .ret c => if mc.next c then execute mc ns c else (c, none)
    | .error c e => (c, some (match n.sloc with
      | some l => mc.frame l e
      | none => e))
    | .other c w => (c, some (match n.sloc with
      | some l => mc.frame l (mc.wrap w)
      | none => mc.wrap w))

/-! ### Stacks: the top is the head -/

/-- Operations that may be called. -/
def legal {V : Type} (l : List V) : StackOp V → Prop
  | .pop n => n ≤ l.length
  | .setTop i _ => i < l.length
  | _ => True

/-- What an operation does, if it throws or not. -/
def stack {V : Type} (l : List V) : StackOp V × Bool → List V
  | (.push v _, false) => v :: l
  | (.push _ _, true) => l
  | (.pop n, _) => l.drop n
  | (.clear, _) => []
  | (.destroy, _) => []
  | (.setTop i v, _) => l.set i v

/-- A stack that some operations, all of which may be called, have made of a new one, and the list for it. -/
inductive Reach {V : Type} (dbg : Bool) (sz : Nat) : Stack V → List V → Prop
  | new : Reach dbg sz (Stack.new V) []
  | step {s s' : Stack V} {l : List V} {o : StackOp V} {b : Bool} (h : Reach dbg sz s l) (hl : legal l o)
      (e : s.apply dbg sz o = .ok (s', b)) : Reach dbg sz s' (stack l (o, b))

end Asteria.Avm.Spec
