import Verif.Proof.JumpRun
import Verif.Props.Syntax

/-!
# Jumps when code is run

C103: `break` and `continue` statements of a script that has been parsed and compiled never leave the function that
they are in, so the errors for stray statements are never thrown.
-/

namespace Asteria.Exec

open Syntax
open _root_.Asteria.Parser (Xop)

section
variable {P X : Type}

/-- A function that the code generator makes of source in which jumps have a place to go to. -/
def FromJumps (X : Type) (f : Func P) : Prop :=
  match f with
  | .native _ => True
  | .inst ps _ code => ∃ (o : Compile.Opts) (e : Compile.Emit P X) (b : List (Compile.Stmt X)),
      JumpSs [] b ∧ Compile.compile o e ps b = .ok code

theorem Jump.inv_of_jumps {st : State P} (hf : ∀ f ∈ st.funcs, FromJumps X f) (hs : st.scopes = []) (hp : st.ptcs = []) :
    Jump.Inv st := by
  refine ⟨fun f h ps va b hb => ?_, by simp [hs], by simp [hp]⟩
  have h1 := hf f h
  rw [hb] at h1
  obtain ⟨o, e, ss, hj, h2⟩ := h1
  unfold Compile.compile at h2
  obtain ⟨g, h3, rfl⟩ := Compile.map_ok h2
  exact Compile.genStmts_ok o e ss hj (Compile.okNil []) h3

/-- **C103.** The host calls a function. If it is tested, at the end of each function that is run, whether a jump is
left, then no test fails: whatever a failed test is made to do, the execution is the same. -/
theorem C103_no_stray_jumps (sem : Sem P) (bad : Option (Out P)) (n f : Nat) (st : State P)
    (hf : ∀ f ∈ st.funcs, FromJumps X f) (hs : st.scopes = []) (hp : st.ptcs = []) (hst : st.status = .next) :
    jumpTested sem bad n (.tailOrCall .none f) st = exec sem n (.tailOrCall .none f) st :=
  (Jump.tested_rec sem bad n [] (.tailOrCall .none f) st trivial (Jump.inv_of_jumps hf hs hp) fun _ => by
    rw [hst]; trivial).1

/-- **C103**, for a call whose result is left as it is, possibly a tail call that has not been made yet, and for the
unpacking of such a result. -/
theorem C103_no_stray_jumps_ptc (sem : Sem P) (bad : Option (Out P)) (n m f : Nat) (self : Ref) (args : List Ref)
    (st : State P) (hf : ∀ f ∈ st.funcs, FromJumps X f) (hs : st.scopes = []) (hp : st.ptcs = []) (hst : st.status = .next) :
    jumpTested sem bad n (.enter f self args) st = exec sem n (.enter f self args) st ∧
    ∀ st', exec sem n (.enter f self args) st = some (.ok st') →
      jumpTested sem bad m (.check st'.result) st' = exec sem m (.check st'.result) st' := by
  have h := Jump.tested_rec sem bad n [] (.enter f self args) st trivial (Jump.inv_of_jumps hf hs hp) fun _ => by
    rw [hst]; trivial
  refine ⟨h.1, fun st' h' => ?_⟩
  have h2 : Jump.G [] st' := h.2 _ h'
  exact (Jump.tested_rec sem bad m [] (.check st'.result) st' trivial h2.inv fun _ => h2.ok).1

/-- A function that the code generator makes of a script, with any options and any operators. -/
def FromAnyScript (f : Func P) : Prop :=
  match f with
  | .native _ => True
  | .inst ps _ code => ∃ (c : Cfg) (m : Nat) (ts r : List Tok) (b : List S) (o : Compile.Opts) (e : Compile.Emit P Xop),
      reload c m ts = .yes b r ∧ Compile.compile o e ps b = .ok code

/-- **C103** together with C101: this holds for all scripts that are parsed and compiled. -/
theorem C103_scripts (sem : Sem P) (bad : Option (Out P)) (n f : Nat) (st : State P)
    (hf : ∀ f ∈ st.funcs, FromAnyScript f) (hs : st.scopes = []) (hp : st.ptcs = []) (hst : st.status = .next) :
    jumpTested sem bad n (.tailOrCall .none f) st = exec sem n (.tailOrCall .none f) st := by
  refine C103_no_stray_jumps (X := Xop) sem bad n f st (fun f h => ?_) hs hp hst
  have h1 := hf f h
  cases f with
  | native _ => trivial
  | inst ps va code =>
    obtain ⟨c, m, ts, r, b, o, e, h2, h3⟩ := h1
    exact ⟨o, e, b, C101_jumps_have_targets h2, h3⟩

end

/-! ## Concrete cases -/

namespace JumpExample

open Syntax.Example

/-- The script of C100's example, which has a loop with `break`, is one. -/
example (code : List (Node SafeExample.Nd)) (h : Compile.compile SafeExample.opts emit [0x66, 0x78] parsed = .ok code) :
    FromAnyScript (.inst [0x66, 0x78] false code) :=
  ⟨cfg, 400, script, [], parsed, SafeExample.opts, emit, script_parsed, h⟩

def state (code : List (Node Nat)) : State Nat :=
  { world := ⟨fun _ => ⟨none, false⟩, 0, []⟩, funcs := [.inst [] false code], ptcs := [], scopes := []
    stk0 := [.temp .null []], stk1 := [], status := .next, result := .invalid, trace := [] }

/-- The test can fail: it does for code that breaks out of its function, which no script has. -/
example (sem : Sem Nat) (bad : Option (Out Nat)) :
    jumpTested sem bad 12 (.call [] [.simpleStatus .brk]) (state []) = bad := by
  cases bad with
  | none => rfl
  | some o => rfl

/-- That is an exception otherwise. -/
example (sem : Sem Nat) : ∃ st, exec sem 12 (.call [] [.simpleStatus .brk]) (state []) = some (.exc message st) :=
  ⟨_, rfl⟩

/-- Within a loop it is well: `for(;;) { switch(1) { default: continue for; } }` does not end, and
`for(;;) { switch(1) { default: break for; } }` returns. -/
example : Jump.OkNs [] ([.forS [] [] [] [.pushConst (.int 1), .switchS [.mk .default [] [.simpleStatus .brkFor] []]] []] :
    List (Node Nat)) := by
  simp [Jump.OkNs, Jump.OkN, Jump.OkCs, Jump.Allowed]

example (sem : Sem Nat) (bad : Option (Out Nat)) : ∃ st, jumpTested sem bad 20 (.call []
    [.forS [] [] [] [.pushConst (.int 1), .switchS [.mk .default [] [.simpleStatus .brkFor] []]] []]) (state []) =
      some (.ok st) ∧ st.result = .void := ⟨_, rfl, rfl⟩

end JumpExample

end Asteria.Exec
