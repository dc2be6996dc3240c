import Verif.Proof.SafeInd
import Verif.Proof.SafeGen
import Verif.Props.Scope

/-!
# Compiled functions do not fail assertions

C99: whatever is compiled from what the parser accepts never takes an operand from an empty stack, never initializes a
variable that is not there or is initialized already, never leaves a block with a status that nobody expects, and never
uses a context or a result that does not exist.  What remains is the undefined behaviour of reading and writing through
references (C41), where this execution is abandoned, and catch expressions whose operands call functions in optimized code
(C79), which are not accepted.
-/

namespace Asteria.Exec

open Safe

section
variable {P X : Type} {sem : Sem P} {sig : P → Sig} {ar : X → Nat}

/-- A function as `AIR_Optimizer` makes it from source that the parser accepts, or a native one. -/
def FromParser (X : Type) (sig : P → Sig) (f : Func P) : Prop :=
  match f with
  | .native _ => True
  | .inst ps _ code => ∃ (o : Compile.Opts) (e : Compile.Emit P X) (ar : X → Nat) (b : List (Compile.Stmt X)),
      Compile.Arity e sig ar ∧ Compile.WfSs o ar b ∧ Compile.compile o e ps b = .ok code

theorem FromParser.source {f : Func P} (h : FromParser X sig f) : FromSource X f := by
  cases f with
  | native _ => trivial
  | inst ps va code => obtain ⟨o, e, ar, b, _, _, h⟩ := h; exact ⟨o, e, b, h⟩

theorem Safe.inv_of_parser {st : State P} (hf : ∀ f ∈ st.funcs, FromParser X sig f) (hs : st.scopes = []) (hp : st.ptcs = [])
    (hw : ∀ i, st.world.nvars ≤ i → (st.world.env i).value = none) : Safe.Inv sig st := by
  refine ⟨fun f h ps va b hb => ?_, by simp [hs], by simp [hp], hw⟩
  have h1 := hf f h
  rw [hb] at h1
  obtain ⟨o, e, ar, ss, h2, h3, h4⟩ := h1
  exact Compile.compile_body h2 h3 h4

/-- The execution that is abandoned where a reference cannot be used is otherwise the execution. -/
theorem attempt_exec (n : Nat) (t : Task P) (st : State P) (o : Out P) (h : attempt sem n t st = some o) :
    exec sem n t st = some o := (watched_le _ _ n t st).app o h

/-- It goes on while references can be used. -/
theorem attempt_step {n : Nat} {t : Task P} {st st' : State P} (h1 : st.Defined sem) (h2 : t.Defined st) (h3 : st'.Defined sem)
    (h : step sem (attempt sem n) t st = some (.ok st')) : attempt sem (n + 1) t st = some (.ok st') := by
  unfold attempt watched
  rw [if_pos ⟨h1, h2⟩, Option.filter_eq_some_iff]
  exact ⟨h, @decide_eq_true _ (_) (fun s hs => by cases hs; exact h3)⟩

/-- **C99.** The host pushes `this` and arguments and calls a function in a state whose functions have been compiled from
source: it is not undefined, as far as references can be used.  Missing are catch expressions with calls in optimized code,
for which it does not hold, and the variadic and import calls, which are not in the model. -/
theorem C99_no_assertion_fails_partial (hsem : SafeSem sem sig) (n f : Nat) (st : State P)
    (hf : ∀ f ∈ st.funcs, FromParser X sig f) (hs : st.scopes = []) (hp : st.ptcs = [])
    (hw : ∀ i, st.world.nvars ≤ i → (st.world.env i).value = none) (hst : st.status = .next) (hk : st.stk0 ≠ []) :
    attempt sem n (.tailOrCall .none f) st ≠ some .ub := by
  have hi := Safe.inv_of_parser hf hs hp hw
  obtain ⟨r, l, hk⟩ := List.exists_cons_of_ne_nil hk
  have hk' : st.stack = r :: l := by simp [State.stack, State.swapped, hs, hk]
  have h := attempt_safe hsem (Claim.call (f := f) hi hst hk') trivial
    (Scope.inv_of_source (fun f h => (hf f h).source) hs hp) n
  exact fun hu => h.app _ hu

/-- **C99**: the effect of a call. If it returns, `this` has been replaced with the result and nothing else on the stack has
changed, and no context is left behind. In any case no variable has lost its value and none has been initialized that had
been there. -/
theorem C99_calls_balanced_partial (hsem : SafeSem sem sig) (n f : Nat) (st : State P)
    (hf : ∀ f ∈ st.funcs, FromParser X sig f) (hs : st.scopes = []) (hp : st.ptcs = [])
    (hw : ∀ i, st.world.nvars ≤ i → (st.world.env i).value = none) (hst : st.status = .next)
    (self : Ref) (below : List Ref) (hk : st.stk0 = self :: below) :
    (∀ st', attempt sem n (.tailOrCall .none f) st = some (.ok st') →
      (∃ r, st'.stk0 = r :: below) ∧ st'.scopes = [] ∧ st'.status = .next ∧
      ∀ i, i < st.world.nvars → ((st'.world.env i).value = none ↔ (st.world.env i).value = none)) ∧
    ∀ e st', attempt sem n (.tailOrCall .none f) st = some (.exc e st') →
      st'.scopes = [] ∧ ∀ i, i < st.world.nvars → ((st'.world.env i).value = none ↔ (st.world.env i).value = none) := by
  have hi := Safe.inv_of_parser hf hs hp hw
  have hk' : st.stack = self :: below := by simp [State.stack, State.swapped, hs, hk]
  have h := attempt_safe hsem (Claim.call (f := f) hi hst hk') trivial
    (Scope.inv_of_source (fun f h => (hf f h).source) hs hp) n
  refine ⟨fun st' h' => ?_, fun e st' h' => ?_⟩
  · obtain ⟨_, h2, h3, h4, r, h5⟩ := h.app _ h'
    have h6 : st'.scopes = [] := by rw [h3, hs]
    refine ⟨⟨r, ?_⟩, h6, h4, fun i hi => h2.same i hi (by simp)⟩
    simpa [State.stack, State.swapped, h6] using h5
  · obtain ⟨_, h2, h3⟩ := h.app _ h'
    exact ⟨by rw [h3, hs], fun i hi => h2.same i hi (by simp)⟩

/-- **C99**, for a call whose result may be a tail call that has not been made yet. -/
theorem C99_enter_no_assertion_fails_partial (hsem : SafeSem sem sig) (n f : Nat) (self : Ref) (args : List Ref) (st : State P)
    (hf : ∀ f ∈ st.funcs, FromParser X sig f) (hs : st.scopes = []) (hp : st.ptcs = [])
    (hw : ∀ i, st.world.nvars ≤ i → (st.world.env i).value = none) :
    attempt sem n (.enter f self args) st ≠ some .ub ∧
    ∀ st', attempt sem n (.enter f self args) st = some (.ok st') → st'.stk0 = st.stk0 ∧ st'.stk1 = st.stk1 := by
  have hi := Safe.inv_of_parser hf hs hp hw
  have h := attempt_safe hsem (Claim.enter (f := f) (self := self) (args := args) hi) trivial
    (Scope.inv_of_source (fun f h => (hf f h).source) hs hp) n
  exact ⟨fun hu => h.app _ hu, fun st' h' => ⟨(h.app _ h').2.2.1, (h.app _ h').2.2.2.1⟩⟩

/-- **C99**: wherever the execution is undefined, it is abandoned because of a reference. -/
theorem C99_undefined_is_a_reference_partial (hsem : SafeSem sem sig) (n f : Nat) (st : State P)
    (hf : ∀ f ∈ st.funcs, FromParser X sig f) (hs : st.scopes = []) (hp : st.ptcs = [])
    (hw : ∀ i, st.world.nvars ≤ i → (st.world.env i).value = none) (hst : st.status = .next) (hk : st.stk0 ≠ [])
    (hu : exec sem n (.tailOrCall .none f) st = some .ub) : attempt sem n (.tailOrCall .none f) st = none := by
  cases h : attempt sem n (.tailOrCall .none f) st with
  | none => rfl
  | some o =>
    have := attempt_exec n _ st o h
    rw [hu] at this
    cases this
    exact absurd h (C99_no_assertion_fails_partial hsem n f st hf hs hp hw hst hk)

end

/-! ## A concrete case -/

namespace SafeExample
open Compile

/-- Nodes that do nothing but what they have to do to the stack. -/
inductive Nd
  | op (pops pushes : Nat)
  | unpack (n : Nat)

def sig : Nd → Sig
  | .op a c => ⟨a, 0, c⟩
  | .unpack n => ⟨1, n, 0⟩

/-- `unpack` initializes the variables below the operand with null; a native function returns null. -/
def sem : Sem Nd :=
  { prim := fun p w l => match p with
      | .op a c => if a ≤ l.length then .ok w (List.replicate c (.temp .null []) ++ l.drop a) else .ub
      | .unpack n =>
        let ids := ((l.drop 1).take n).map Ref.var?
        .ok { w with env := fun i => if some i ∈ ids then ⟨some .null, false⟩ else w.env i } (l.drop (1 + n))
    native := fun _ w _ _ => .ok w (.temp .null [])
    lim := 100 }

theorem safe : SafeSem sem sig := by
  refine ⟨fun p w l ids hf hsl _ => ?_, fun p w self args => ⟨Nat.le_refl _, fun _ _ _ => Iff.rfl, id⟩⟩
  obtain ⟨⟨top, fr, rest, rfl, h1, h2⟩, h3, h4⟩ := hsl
  cases p with
  | op a c =>
    have h5 : ids = [] := List.length_eq_zero_iff.1 hf.symm
    subst h5
    have h1 : top.length = a := h1
    simp only [sem, List.length_append]
    rw [if_pos (by omega)]
    exact ⟨⟨Nat.le_refl _, fun _ _ _ => Iff.rfl, id⟩, List.replicate c (.temp .null []), List.length_replicate, by simp [sig]⟩
  | unpack n =>
    have h1 : top.length = 1 := h1
    have hf : n = ids.length := hf
    have h6 : fr.length = ids.length := by simpa using congrArg List.length h2
    have h7 : (((top ++ (fr ++ rest)).drop 1).take n).map Ref.var? = ids.map some := by
      rw [← h1, List.drop_left, List.take_left' (by omega), h2]
    simp only [sem, h7]
    refine ⟨⟨Nat.le_refl _, fun i hi hn => ?_, fun hc i hi => ?_⟩, [], rfl, rfl⟩
    · simp [hn]
    · have hn : i ∉ ids := fun hm => by
        have := (h4 i hm).1
        have hi : w.nvars ≤ i := hi
        omega
      simpa [hn] using hc i hi

/-- The operators are numbers of operands. -/
def emit : Emit Nd Nat :=
  ⟨.op 0 0, fun _ => .op 0 1, fun x _ => .op x 1, fun _ => .op 1 1, fun _ => .op 1 1, fun x _ _ => .op (x - 1) 1,
    fun n => .op n 1, fun ks => .op ks.length 1, fun _ n => .unpack n, fun _ ns => .unpack ns.length,
    fun _ => false, fun _ => false, fun _ => false, fun _ => none, fun x => decide (1 ≤ x)⟩

theorem arity : Arity emit sig id := by
  refine ⟨rfl, fun _ => rfl, fun _ _ => rfl, nofun, fun _ => rfl, nofun, fun _ => rfl, nofun, nofun, ?_, fun _ => rfl,
    fun _ => rfl, fun _ _ => rfl, fun _ _ => rfl⟩
  intro x a i h
  exact ⟨by simpa [emit] using h, rfl⟩

def opts : Opts := ⟨true, false, false, 1, fun _ => false⟩

/-- `func(p) { var [a, b] = p; while(a) { defer b + b; if(a && b) return p(a, b); } try { a = catch(b); } catch(e) { } }` -/
def body : List (Stmt Nat) :=
  [.vars false [.array [2, 3] [.localRef 1]],
   .whileS false [.localRef 2]
     [.deferS [.localRef 3, .localRef 3, .op 2 false],
      .ifS false [.localRef 2, .branch [.mk .true [.localRef 3]] false]
        [.returnS false [.localRef 1, .call [.mk [.localRef 2], .mk [.localRef 3]]]] []] [],
   .tryS [.expr [.localRef 2, .catchE [.localRef 3], .op 2 true]] 4 []]

theorem wf : WfSs opts id body := by
  simp [body, WfSs, WfS, WfDs, WfUs, WfU, WfBs, WfAs, one, effects, effect, callFreeU, callFree]

/-- It can be compiled; the call is a tail call with its arguments on the alternative stack. -/
theorem compiled : ∃ code, compile opts emit [1] body = .ok code := ⟨_, rfl⟩

/-- A state that meets the hypotheses. -/
example (code : List (Node Nd)) (h : compile opts emit [1] body = .ok code) (n : Nat) :
    attempt sem n (.tailOrCall .none 1)
      { world := ⟨fun _ => ⟨none, false⟩, 0, []⟩, funcs := [.native (.op 0 0), .inst [1] false code], ptcs := [], scopes := []
        stk0 := [.temp .null []], stk1 := [.temp (.arr [.int 1, .int 2]) []], status := .next, result := .invalid
        trace := [] } ≠ some .ub := by
  refine C99_no_assertion_fails_partial (X := Nat) safe n 1 _ ?_ rfl rfl (fun _ _ => rfl) rfl (by simp)
  simp only [List.mem_cons, List.not_mem_nil, or_false, forall_eq_or_imp, forall_eq]
  exact ⟨trivial, opts, emit, id, body, arity, wf, h⟩

/-- A reference without subscripts can be used. -/
theorem defined_plain (w : World) (r : Ref) (h : (∃ v, r = .temp v []) ∨ ∃ i, r = .var i []) : r.Defined sem w := by
  rcases h with ⟨v, rfl⟩ | ⟨i, rfl⟩
  · simp [Ref.Defined, deref, Ref.toSub, Subscript.Ref.readonly, Subscript.Ref.assign, Subscript.readPath]
  · simp only [Ref.Defined, deref, Ref.toSub, Subscript.Ref.readonly, Subscript.Ref.assign]
    cases (w.env i).value with
    | none => simp
    | some v => cases (w.env i).immutable <;> simp [Subscript.readPath, Subscript.assignPath]

/-- An execution is not abandoned without a reason: an operator with two operands, one of them a variable. -/
example (w : World) : (attempt sem 1 (.node (.prim (.op 2 1)))
      { world := w, funcs := [], ptcs := [], scopes := []
        stk0 := [.temp .null [], .var 0 []], stk1 := [], status := .next, result := .invalid, trace := [] }).isSome = true := by
  have h1 : ∀ r, r ∈ [Ref.temp .null [], .var 0 []] ∨ r ∈ ([] : List Ref) → r.Defined sem w := by
    intro r hr
    refine defined_plain w r ?_
    simp at hr
    rcases hr with rfl | rfl
    · exact .inl ⟨_, rfl⟩
    · exact .inr ⟨_, rfl⟩
  have h2 : ∀ r, r ∈ [Ref.temp .null []] ∨ r ∈ ([] : List Ref) → r.Defined sem w := by
    intro r hr
    exact h1 r (by simp at hr ⊢; exact .inl hr)
  have h3 := attempt_step (sem := sem) (n := 0) (t := .node (.prim (.op 2 1)))
    (st := { world := w, funcs := [], ptcs := [], scopes := []
             stk0 := [.temp .null [], .var 0 []], stk1 := [], status := .next, result := .invalid, trace := [] })
    (st' := { world := w, funcs := [], ptcs := [], scopes := []
              stk0 := [.temp .null []], stk1 := [], status := .next, result := .invalid, trace := [] })
    h1 trivial h2 rfl
  rw [h3]; rfl

/-- Code that is not from the parser may be undefined: an operator without operands. -/
example (st : State Nd) (h : st.stk0 = []) (hs : st.scopes = []) : exec sem 1 (.node (.prim (.op 1 1))) st = some .ub := by
  simp [exec, step, runNode, sem, State.stack, State.swapped, hs, h]

end SafeExample

end Asteria.Exec
