import Verif.Proof.OptGen

/-!
# C133: optimization does not change what a call does
-/

namespace Asteria.Exec

open Compile

section
variable {P X : Type} {sem : Sem P} {e : Emit P X} {sig : P → Sig} {ar : X → Nat}

theorem Opt.alike_rel (har : Arity e sig ar) (hfold : FoldSem sem e sig ar) {f g : Func P} (h : Alike e ar f g) : Opt.FuncRel sem f g := by
  cases f <;> cases g <;> simp only [Alike] at h
  · subst h; exact .native _
  · rename_i ps _ _ _ _ _
    obtain ⟨rfl, rfl, o, b, hw, h1, h2⟩ := h
    have h3 := genStmts_rel o har hfold b (ptc := .void) hw (SG.nil [ps])
    unfold compile at h1 h2
    obtain ⟨g, h4, rfl⟩ := map_ok h1
    obtain ⟨g', h5, rfl⟩ := map_ok h2
    rw [h4, h5] at h3
    exact .inst _ _ h3.body

/-- One of the two directions. -/
theorem Opt.calls {n : Nat} {s s' : State P} (hb : Opt.Bs sem n s s') {f : Nat} {self : Ref} {args : List Ref} {o : Out P}
    (h : Calls sem f self args s o) : ∃ o', Calls sem f self args s' o' ∧ o'.visible = o.visible := by
  obtain ⟨o₁, h1, h2⟩ := h
  obtain ⟨o₁', h3, h4⟩ := Opt.enter_runs hb f self args h1
  cases o₁ <;> cases o₁' <;> simp only [Opt.Post] at h4
  · rename_i t t'
    obtain ⟨i, h2⟩ := h2
    obtain ⟨o', h5, h6⟩ := ((Opt.all_sim sem i).app (.check t.result h4.bs)).app o h2
    rw [h4.bs.result] at h5
    refine ⟨o', ⟨_, h3, run_eq_some.1 h5⟩, ?_⟩
    cases o <;> cases o' <;> simp only [Opt.Post] at h6
    · simp only [Out.visible, h6.bs.world, h6.bs.result]
    · simp only [Out.visible, h6.1, h6.2.bs.world]
    · rfl
  · obtain rfl := h2
    exact ⟨_, ⟨_, h3, rfl⟩, by simp only [Out.visible, h4.1, h4.2.bs.world]⟩
  · obtain rfl := h2
    exact ⟨_, ⟨_, h3, rfl⟩, rfl⟩

/-- **C133.**  The functions of a state are replaced with those that are compiled from the same source with optimization: a
call does what it did.  It returns the same, throws the same, and leaves the same in variables and in what has been written,
or does not return either.  Missing are catch expressions whose operands call functions, for which it does not hold;
optimization level 2, which does not check arguments; and the variadic and import calls, which are not in the model. -/
theorem C133_optimization_is_transparent_partial (har : Arity e sig ar) (hfold : FoldSem sem e sig ar) (st : State P)
    (funcs : List (Func P)) (hf : List.Forall₂ (Alike e ar) st.funcs funcs) (hs : st.scopes = []) (hp : st.ptcs = [])
    (f : Nat) (self : Ref) (args : List Ref) (x : Visible) :
    (∃ o, Calls sem f self args st o ∧ o.visible = x) ↔
    ∃ o, Calls sem f self args { st with funcs := funcs } o ∧ o.visible = x := by
  have hb : Opt.Bs sem 0 st { st with funcs := funcs } := by
    refine ⟨rfl, hf.imp fun _ _ h => Opt.alike_rel har hfold h, ?_, ?_, by simp [hs], by simp [hs], by simp [hs], rfl, rfl⟩
    · show List.Forall₂ _ st.ptcs st.ptcs; rw [hp]; exact .nil
    · show List.Forall₂ _ st.scopes st.scopes; rw [hs]; exact .nil
  constructor
  · rintro ⟨o, h, rfl⟩
    exact Opt.calls hb h
  · rintro ⟨o, h, rfl⟩
    exact Opt.calls hb.symm h

/-- **C133**, for compilation: optimization makes no difference to whether source is accepted. -/
theorem C133_same_sources_compile (har : Arity e sig ar) (hfold : FoldSem sem e sig ar) (o : Opts) (ps : List Name)
    (b : List (Stmt X)) (hw : WfSs { o with level := 1 } ar b) :
    ((∃ c, compile { o with level := 0 } e ps b = .ok c) ↔ ∃ d, compile { o with level := 1 } e ps b = .ok d) ∧
    (compile { o with level := 0 } e ps b = .throw ↔ compile { o with level := 1 } e ps b = .throw) := by
  have h := genStmts_rel o har hfold b (ptc := .void) hw (SG.nil [ps])
  unfold compile
  revert h
  show Opt.RR _ (genStmts { o with level := 0 } e .void b _) (genStmts { o with level := 1 } e .void b _) → _
  cases genStmts { o with level := 0 } e .void b ⟨[], [ps], []⟩ <;>
    cases genStmts { o with level := 1 } e .void b ⟨[], [ps], []⟩ <;> simp [Opt.RR, Res.map]

end

/-! ## A concrete case -/

namespace OptExample

/-- Operators: addition, bitwise not, unary plus, comparison with `==`, and one that throws. -/
inductive Op
  | add | notb | pos | eq | boom
deriving DecidableEq

/-- The numbers of operands. -/
def ar : Op → Nat
  | .add | .eq => 2
  | .notb | .pos | .boom => 1

/-- The nodes: an operator, one with a constant, a comparison with null, and one that replaces operands with nulls. -/
inductive Nd
  | apply (x : Op)
  | addConst (i : Int)
  | checkNull (ne : Bool)
  | fill (pops fresh pushes : Nat)

def sig : Nd → Sig
  | .apply x => ⟨ar x, 0, 1⟩
  | .addConst _ => ⟨1, 0, 1⟩
  | .checkNull _ => ⟨1, 0, 1⟩
  | .fill a b c => ⟨a, b, c⟩

def isNull : Value → Bool
  | .null => true
  | _ => false

/-- The operators; the operand on the right comes first. -/
def op : Op → List Value → Option Value
  | .add, [.int i, .int j] => some (.int (i + j))
  | .notb, [.int i] => some (.int (BitVec.ofInt 64 i ^^^ -1).toInt)
  | .pos, [v] => some v
  | .eq, [.null, v] => some (.bool (isNull v))
  | .eq, [v, _] => some v
  | _, _ => none

def read (w : World) (r : Ref) : Option Value :=
  match deref w r with
  | .ok v => some v
  | _ => none

/-- What is pushed in place of operands. -/
def f (w : World) : Nd → List Ref → Option (List Ref)
  | .apply x, rs => (rs.mapM (read w)).bind (op x) |>.map fun v => [.temp v []]
  | .addConst i, rs => (rs.mapM (read w)).bind (fun vs => op .add (.int i :: vs)) |>.map fun v => [.temp v []]
  | .checkNull _, rs => (rs.mapM (read w)).bind (fun vs => op .eq (.null :: vs)) |>.map fun v => [.temp v []]
  | .fill _ _ c, _ => some (List.replicate c (.temp .null []))

/-- The nodes act on their operands; a native function returns null. -/
def sem : Sem Nd :=
  { prim := fun p w l =>
      let n := (sig p).pops + (sig p).fresh
      if l.length < n then .ub else
      match f w p (l.take n) with
      | some out => .ok w (out ++ l.drop n)
      | none => .throw (.int 7) w l
    native := fun _ w _ _ => .ok { w with out := w.out ++ [.int 42] } (.temp .null [])
    lim := 100 }

def emit : Emit Nd Op :=
  ⟨.fill 0 0 0, fun _ => .fill 0 0 1, fun x _ => .apply x, fun ne => .checkNull ne, fun _ => .fill 1 0 1, fun _ _ i => .addConst i,
    fun n => .fill n 0 1, fun ks => .fill ks.length 0 1, fun _ n => .fill 1 n 0, fun _ ns => .fill 1 ns.length 0,
    fun x => x == .pos, fun _ => false, fun x => x == .notb, fun x => if x = .eq then some false else none, fun x => x == .add⟩

theorem arity : Arity emit sig ar := by
  refine ⟨rfl, fun _ => rfl, fun _ _ => rfl, ?_, fun _ => rfl, ?_, fun _ => rfl, nofun, ?_, ?_, fun _ => rfl,
    fun _ => rfl, fun _ _ => rfl, fun _ _ => rfl⟩
  · intro x h; cases x <;> first | rfl | cases h
  · intro x b h; cases x <;> first | rfl | cases h
  · intro x h; cases x <;> first | rfl | cases h
  · intro x a i h; cases x <;> first | exact ⟨by decide, rfl⟩ | cases h

theorem pushes (w : World) (p : Nd) (rs out : List Ref) (h : f w p rs = some out) : out.length = (sig p).pushes := by
  cases p <;> simp only [f, Option.map_eq_some_iff, Option.some.injEq] at h
  all_goals first | (obtain ⟨v, _, rfl⟩ := h; rfl) | (subst h; simp [sig])

/-- What a node does with its operands. -/
theorem den_prim (p : Nd) (w : World) (X B : List Ref) (hX : X.length = (sig p).pops + (sig p).fresh) (ns : List (Node Nd)) :
    den sem (.prim p :: ns) w (X ++ B) = match f w p X with
      | some out => den sem ns w (out ++ B)
      | none => .throw (.int 7) w (X ++ B) := by
  simp only [den, sem]
  rw [if_neg (by simp; omega), List.take_left' hX, List.drop_left' hX]
  cases f w p X <;> rfl

theorem same (k : Nat) (p q : List (Node Nd)) (hp : ∀ n ∈ p, isPure n = true) (hq : ∀ n ∈ q, isPure n = true)
    (h : ∀ w (X : List Ref), X.length = k → ∃ out : Option (List Ref), (∀ y, out = some y → y.length = 1) ∧
      ∀ B, (∃ l, den sem p w (X ++ B) = match out with
          | some y => .ok w (y ++ B)
          | none => .throw (.int 7) w l) ∧
        ∃ l, den sem q w (X ++ B) = match out with
          | some y => .ok w (y ++ B)
          | none => .throw (.int 7) w l) : SameCode sem k 1 p q := by
  refine ⟨hp, hq, fun w X B B' hX => ?_⟩
  obtain ⟨out, h1, h2⟩ := h w X hX
  obtain ⟨⟨l, h3⟩, _⟩ := h2 B
  obtain ⟨_, ⟨l', h4⟩⟩ := h2 B'
  rw [h3, h4]
  cases out with
  | none => exact ⟨rfl, rfl⟩
  | some y => exact ⟨rfl, y, h1 y rfl, rfl, rfl⟩

/-- A constant and an operator become a node. -/
theorem foldOp (x : Op) (v : Value) (p : Nd) (k : Nat) (hk : ar x = k + 1) (hp : sig p = ⟨k, 0, 1⟩)
    (h : ∀ w X, f w (.apply x) (.temp v [] :: X) = f w p X) :
    SameCode sem k 1 [.pushConst v, .prim (.apply x)] [.prim p] := by
  refine same _ _ _ (by simp [isPure]) (by simp [isPure]) fun w X hX => ⟨f w p X, fun y hy => ?_, fun B => ?_⟩
  · rw [pushes w p X y hy, hp]
  · have h1 := den_prim (.apply x) w (.temp v [] :: X) B (by simp [sig, hk, hX]) []
    have h2 := den_prim p w X B (by simp [hp, hX]) []
    rw [h] at h1
    refine ⟨⟨.temp v [] :: X ++ B, ?_⟩, ⟨X ++ B, ?_⟩⟩
    · show den sem (.prim (.apply x) :: []) w (.temp v [] :: X ++ B) = _
      rw [h1]; cases f w p X <;> rfl
    · rw [h2]; cases f w p X <;> rfl

/-- A constant and an operator become a constant. -/
theorem foldConst (x : Op) (v u : Value) (hk : ar x = 1) (h : op x [v] = some u) :
    SameCode sem 0 1 [.pushConst v, .prim (.apply x)] [.pushConst u] := by
  refine same _ _ _ (by simp [isPure]) (by simp [isPure]) fun w X hX => ⟨some [.temp u []], by simp, fun B => ?_⟩
  obtain rfl := List.length_eq_zero_iff.1 hX
  have h1 := den_prim (.apply x) w [.temp v []] B (by simp [sig, hk]) []
  have h2 : f w (.apply x) [.temp v []] = some [.temp u []] := by
    simp [f, read, deref, Ref.toSub, Subscript.Ref.readonly, Subscript.readPath, h]
  rw [h2] at h1
  exact ⟨⟨[], h1⟩, ⟨[], rfl⟩⟩

theorem read_temp (w : World) (v : Value) : read w (.temp v []) = some v := by
  simp [read, deref, Ref.toSub, Subscript.Ref.readonly, Subscript.readPath]

theorem folds : FoldSem sem emit sig ar := by
  refine ⟨fun p => ?_, ?_, ?_, nofun, ?_, ?_⟩
  · refine ⟨by simp [isPure], by simp [isPure], fun w X B B' hX => ?_⟩
    rw [den_prim p w X B hX, den_prim p w X B' hX]
    cases h : f w p X with
    | none => exact ⟨rfl, rfl⟩
    | some y => exact ⟨rfl, y, pushes w p X y h, rfl, rfl⟩
  · intro x v h
    cases x <;> first | (exact foldConst .pos v v rfl rfl) | cases h
  · intro x a ne h
    cases x <;> try cases h
    refine foldOp .eq .null (.checkNull false) 1 rfl rfl fun w X => ?_
    simp only [f, List.mapM_cons, read_temp]
    cases X.mapM (read w) <;> rfl
  · intro x a i h
    cases x <;> first | (exact foldConst .notb _ _ rfl rfl) | cases h
  · intro x a i h _
    cases x <;> try cases h
    refine foldOp .add (.int i) (.addConst i) 1 rfl rfl fun w X => ?_
    simp only [f, List.mapM_cons, read_temp]
    cases X.mapM (read w) <;> rfl

def opts : Opts := ⟨true, true, false, 0, fun _ => false⟩

/-- `func(p, q) { var a = catch(+p); while(p == null) { defer a + 1; if(p && q) return q(a + 3, ~7); } return 5; }` -/
def body : List (Stmt Op) :=
  [.vars false [.scalar 3 [.catchE [.localRef 1, .op .pos false]]],
   .whileS false [.localRef 1, .literal .null, .op .eq false]
     [.deferS [.localRef 3, .literal (.int 1), .op .add false],
      .ifS false [.localRef 1, .branch [.mk .true [.localRef 2]] false]
        [.returnS false [.localRef 2, .call [.mk [.localRef 3, .literal (.int 3), .op .add false], .mk [.literal (.int 7), .op .notb false]]]]
        []] [],
   .returnS false [.literal (.int 5)]]

theorem wf : WfSs { opts with level := 1 } ar body := by
  simp [body, WfSs, WfS, WfDs, WfUs, WfU, WfBs, WfAs, one, effects, effect, callFreeU, callFree, ar]

/-- It can be compiled. -/
theorem compiled : ∃ c, compile { opts with level := 0 } emit [1, 2] body = .ok c := ⟨_, rfl⟩

def world : World := ⟨fun _ => ⟨none, false⟩, 0, []⟩

/-- A state outside of functions. -/
def outside (funcs : List (Func Nd)) : State Nd :=
  { world := world, funcs := funcs, ptcs := [], scopes := [], stk0 := [], stk1 := [], status := .next, result := .invalid, trace := [] }

/-- The function is called with two arguments. -/
example (c d : List (Node Nd)) (hc : compile { opts with level := 0 } emit [1, 2] body = .ok c)
    (hd : compile { opts with level := 1 } emit [1, 2] body = .ok d) (x : Visible) :
    (∃ o, Calls sem 1 .void [.temp (.int 1) [], .temp (.func 0) []] (outside [.native (.apply .boom), .inst [1, 2] false c]) o ∧ o.visible = x) ↔
    ∃ o, Calls sem 1 .void [.temp (.int 1) [], .temp (.func 0) []] (outside [.native (.apply .boom), .inst [1, 2] false d]) o ∧ o.visible = x :=
  C133_optimization_is_transparent_partial (sem := sem) arity folds (outside [.native (.apply .boom), .inst [1, 2] false c])
    [.native (.apply .boom), .inst [1, 2] false d] (.cons rfl (.cons ⟨rfl, rfl, opts, body, wf, hc, hd⟩ .nil)) rfl rfl 1 .void _ x

/-- The code is not the same: with optimization there are fewer nodes, and arguments are on the alternative stack. -/
example : (match compile { opts with level := 0 } emit [1] [.returnS false [.localRef 1, .call [.mk [.literal (.int 7), .op .notb false]]]],
      compile { opts with level := 1 } emit [1] [.returnS false [.localRef 1, .call [.mk [.literal (.int 7), .op .notb false]]]] with
    | .ok [.clearStack, .prim (.fill 0 0 0), .pushLocal 0 1, .pushConst (.int 7), .prim (.apply .notb), .funcCall 1 .byVal, .returnS false false],
      .ok [.clearStack, .prim (.fill 0 0 0), .pushLocal 0 1, .altClear, .pushConst (.int (-8)), .altCall .byVal, .returnS false false] => true
    | _, _ => false) = true := by decide +kernel

/-! ## What is missing -/

/-- `func() { catch( g(boom(7)) ); return 5; }` -/
def bad : List (Stmt Op) :=
  [.expr [.catchE [.literal (.func 0), .call [.mk [.literal (.int 7), .op .boom false]]]], .returnS false [.literal (.int 5)]]

/-- The code of it. -/
def code (l : Nat) : List (Node Nd) :=
  match compile { opts with level := l } emit [] bad with
  | .ok c => c
  | _ => []

/-- **C133 is false** for all that the parser accepts (which is what is accepted without optimization): the function returns
5, but with optimization it returns the function `g`. -/
theorem C133_false : Arity emit sig ar ∧ FoldSem sem emit sig ar ∧ WfSs { opts with level := 0 } ar bad ∧
    compile { opts with level := 0 } emit [] bad = .ok (code 0) ∧ compile { opts with level := 1 } emit [] bad = .ok (code 1) ∧
    (∃ o, Calls sem 1 .void [] (outside [.native (.apply .boom), .inst [] false (code 0)]) o ∧
      o.visible = .returned world (.temp (.int 5) [])) ∧
    ∃ o, Calls sem 1 .void [] (outside [.native (.apply .boom), .inst [] false (code 1)]) o ∧
      o.visible = .returned world (.temp (.func 0) []) := by
  refine ⟨arity, folds, ?_, rfl, rfl, ⟨_, ⟨_, ⟨40, rfl⟩, ⟨40, rfl⟩⟩, rfl⟩, ⟨_, ⟨_, ⟨40, rfl⟩, ⟨40, rfl⟩⟩, rfl⟩⟩
  simp [bad, WfSs, WfS, WfUs, WfU, WfAs, one, effects, effect, ar]

end OptExample

end Asteria.Exec
