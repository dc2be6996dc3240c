import Verif.Proof.ScopeRun
import Verif.Proof.Compile

/-!
# Local references of compiled functions

C97: the code generator resolves a name to a depth and a name; when the code is run, there always is a context at that
depth and it has that name, however the code gets there: through jumps out of nested blocks, exceptions, `switch` clauses
that are entered in the middle, functions that outlive their contexts, and deferred expressions that are run by someone
else.
-/

namespace Asteria.Exec

variable {P X : Type}

/-- A function as `AIR_Optimizer` makes it from source, with any options and any operators, or a native one. -/
def FromSource (X : Type) (f : Func P) : Prop :=
  match f with
  | .native _ => True
  | .inst ps _ code => ∃ (o : Compile.Opts) (e : Compile.Emit P X) (b : List (Compile.Stmt X)),
      Compile.compile o e ps b = .ok code

theorem Scope.inv_of_source {st : State P} (hf : ∀ f ∈ st.funcs, FromSource X f) (hs : st.scopes = []) (hp : st.ptcs = []) :
    Scope.Inv st := by
  refine ⟨fun f h ps va b hb => ?_, by simp [hs], by simp [hp]⟩
  have h1 := hf f h
  rw [hb] at h1
  obtain ⟨o, e, ss, h2⟩ := h1
  unfold Compile.compile at h2
  obtain ⟨g, h3, rfl⟩ := Compile.map_ok h2
  exact (Compile.genStmts_good o e ss (Compile.GoodG.nil [ps]) h3).1.good.1

/-- **C97.** The host calls a function in a state whose functions have been compiled from source. If each step is tested
for whether local references find their names, then no test fails: whatever a failed test is made to do, the execution is
the same, with any amount of fuel. -/
theorem C97_locals_found (sem : Sem P) (bad : Option (Out P)) (n : Nat) (f : Nat) (st : State P)
    (hf : ∀ f ∈ st.funcs, FromSource X f) (hs : st.scopes = []) (hp : st.ptcs = []) :
    guarded sem LocalsFound bad n (.tailOrCall .none f) st = exec sem n (.tailOrCall .none f) st :=
  (Scope.guarded_rec sem bad n (.tailOrCall .none f) st trivial (Scope.inv_of_source hf hs hp)).1

/-- **C97**, for a call whose result is left as it is, possibly a tail call that has not been made yet, and for the
unpacking of such a result. -/
theorem C97_locals_found_ptc (sem : Sem P) (bad : Option (Out P)) (n m : Nat) (f : Nat) (self : Ref) (args : List Ref)
    (st : State P) (hf : ∀ f ∈ st.funcs, FromSource X f) (hs : st.scopes = []) (hp : st.ptcs = []) :
    guarded sem LocalsFound bad n (.enter f self args) st = exec sem n (.enter f self args) st ∧
    ∀ st', exec sem n (.enter f self args) st = some (.ok st') →
      guarded sem LocalsFound bad m (.check st'.result) st' = exec sem m (.check st'.result) st' := by
  have h := Scope.guarded_rec sem bad n (.enter f self args) st trivial (Scope.inv_of_source hf hs hp)
  refine ⟨h.1, fun st' h' => ?_⟩
  have h2 := h.2 _ h'
  exact (Scope.guarded_rec sem bad m (.check st'.result) st' trivial h2.1.inv).1

/-! ## A concrete case -/

namespace ScopeExample
open Compile

def opts : Opts := ⟨true, false, false, 1, fun _ => false⟩

def emit : Emit Nat Nat :=
  ⟨0, fun _ => 1, fun x _ => 10 + x, fun _ => 2, fun _ => 3, fun _ _ _ => 4, fun _ => 5, fun _ => 6, fun _ _ => 7,
    fun _ _ => 8, fun _ => false, fun _ => false, fun _ => false, fun _ => none, fun _ => true⟩

/-- `func(p) { var a = p; while(a) { var b = a; if(b) break; { defer b; a; } } return func(q) { return a; }; }` -/
def body : List (Stmt Nat) :=
  [.vars false [.scalar 2 [.localRef 1]],
   .whileS false [.localRef 2]
     [.vars false [.scalar 3 [.localRef 2]], .ifS false [.localRef 3] [.breakS .none] [],
      .block [.deferS [.localRef 3], .expr [.localRef 2]]] [],
   .returnS false [.closure [4] false [.returnS false [.localRef 2]]]]

def code : List (Node Nat) :=
  [.clearStack, .declareVar 2, .pushLocal 0 1, .initVar false,
   .whileS false [.clearStack, .pushLocal 0 2]
     [.clearStack, .declareVar 3, .pushLocal 1 2, .initVar false, .clearStack, .pushLocal 0 3,
      .ifS false [.simpleStatus .brk] [],
      .block [.deferE [.clearStack, .pushLocal 1 3], .clearStack, .pushLocal 2 2]] [],
   .clearStack, .defineFunc [4] false [.clearStack, .pushLocal 1 2, .returnS false false], .returnS false false]

/-- It can be compiled. References to `a` from within the loop are to the contexts one and two levels up. -/
theorem compiled : compile opts emit [1] body = .ok code := rfl

/-- A state in which it has been compiled. -/
example (st : State Nat) (h : st.funcs = [.native 0, .inst [1] false code]) : ∀ f ∈ st.funcs, FromSource Nat f := by
  rw [h]
  simp only [List.mem_cons, List.not_mem_nil, or_false, forall_eq_or_imp, forall_eq]
  exact ⟨trivial, opts, emit, body, compiled⟩

/-- The test can fail: it does for a reference to a name that does not exist. -/
example (st : State Nat) (h : st.scopes = []) : ¬ LocalsFound (.node (.pushLocal 0 1)) st := by
  simp [LocalsFound, h]

/-- If it does, the outcome shows. -/
example (sem : Sem Nat) (st : State Nat) (h : st.scopes = []) (bad : Option (Out Nat)) :
    guarded sem LocalsFound bad 1 (.node (.pushLocal 0 1)) st = bad := by
  simp [guarded, LocalsFound, h]

end ScopeExample

end Asteria.Exec
