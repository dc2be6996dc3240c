import Verif.Model.Branch
import Verif.Props.ExecFlow
import Verif.Props.ExecDefer

/-!
# C50: `try` and `throw`; C53: operators that evaluate only some of their operands
-/

namespace Asteria.Exec

variable {P : Type}

open Spec

/-! ## C50 -/

/-- **C50.**  An exception in the body of a `try` statement (which includes its deferred expressions) is caught: what
happens then is what the handler does, in a context where the name is bound to the value of the exception. -/
theorem C50_caught (sem : Sem P) (b h : List (Node P)) (n : Name) (s s' : State P) (e : Value)
    (hb : Runs sem (block b) s (.exc e s')) (o : Out P) :
    Runs sem (.node (.tryS b n h)) s o ↔ Runs sem (.within [(n, .temp e [])] (.rod h)) s' o := by
  rw [← run_eq_some] at hb
  rw [← run_eq_some, run_step, ← run_eq_some]
  simp only [step, runNode, hb, andThen, handle, onOut]

/-- The same, for an exception in a function that the body has returned a tail call of. -/
theorem C50_caught_tail_call (sem : Sem P) (b h : List (Node P)) (n : Name) (s s₁ s' : State P) (e : Value) (r : Ref) (l : List Ref)
    (hb : Runs sem (block b) s (.ok s₁)) (hr : s₁.status = .ret) (hl : s₁.stack = r :: l)
    (hc : Runs sem (.check r) s₁ (.exc e s')) (o : Out P) :
    Runs sem (.node (.tryS b n h)) s o ↔ Runs sem (.within [(n, .temp e [])] (.rod h)) s' o := by
  rw [← run_eq_some] at hb hc
  rw [← run_eq_some, run_step, ← run_eq_some]
  simp only [step, runNode, hb, andThen, handle, onOut, hr, if_true, withTop, hl, hc]

/-- The handler sees the value that was thrown. -/
theorem C50_sees (sem : Sem P) (n : Name) (e : Value) (d : List (Nat × List (Node P))) (sw : Bool) (ss : List (Scope P))
    (s : State P) (hs : s.scopes = ⟨[(n, .temp e [])], d, sw⟩ :: ss) :
    ∃ s', Runs sem (.node (.pushLocal 0 n)) s (.ok s') ∧ s'.stack = .temp e [] :: s.stack ∧
      deref s'.world (.temp e []) = .ok e := by
  refine ⟨s.push (.temp e []), ?_, ?_, rfl⟩
  · rw [← run_eq_some, run_step]
    simp [step, runNode, hs, lookupName]
  · exact stack_setStack _ _

/-- `throw` throws the value of its operand. -/
theorem C50_throw (sem : Sem P) (s : State P) (r : Ref) (l : List Ref) (v : Value) (hs : s.stack = r :: l)
    (hv : derefCopy s.world r = .ok v) (hn : v ≠ .null) : Runs sem (.node .throwS) s (.exc v (s.setStack l)) := by
  rw [← run_eq_some, run_step]
  simp only [step, runNode, withTop, hs, withValue, hv]

/-- Without an exception, a `try` statement is its body: the status, the stack, and the effects are those of the body, and
the handler does not matter. -/
theorem C50_no_exception (sem : Sem P) (b h : List (Node P)) (n : Name) (s s' : State P)
    (hb : Runs sem (block b) s (.ok s')) :
    (s'.status ≠ .ret → Runs sem (.node (.tryS b n h)) s (.ok s')) ∧
    (s'.status = .ret → ∀ r l, s'.stack = r :: l → r.plain = true → (∀ i, r ≠ .ptc i) →
      ∃ s₂, Runs sem (.node (.tryS b n h)) s (.ok s₂) ∧ s₂.status = .ret ∧ s₂.stack = r :: l ∧ s₂.world = s'.world ∧
        s₂.trace = s'.trace ∧ s₂.scopes = s'.scopes) := by
  rw [← run_eq_some] at hb
  constructor
  · intro hs
    rw [← run_eq_some, run_step]
    simp only [step, runNode, hb, andThen, handle, onOut, if_neg hs]
  · intro hs r l hl hp hptc
    have hc : run sem (.check r) s' = some (.ok { s' with result := r }) := by
      rw [run_step]
      cases r <;> simp_all [step]
    refine ⟨({ s' with result := r } : State P).setStack (r :: l), ?_, ?_, stack_setStack _ _, ?_, ?_, ?_⟩
    · rw [← run_eq_some, run_step]
      simp only [step, runNode, hb, andThen, handle, onOut, if_pos hs, withTop, hl, hc]
      have : State.stack { s' with result := r } = r :: l := hl
      simp only [this, List.tail_cons]
    · unfold State.setStack; split <;> exact hs
    all_goals (unfold State.setStack; split <;> rfl)

/-- A `try` statement leaves no name behind: the contexts are what they were. -/
theorem C50_scope (sem : Sem P) (b h : List (Node P)) (n : Name) (s : State P) (o : Out P)
    (hr : Runs sem (.node (.tryS b n h)) s o) :
    match o with
    | .ok s' => s'.scopes = s.scopes
    | .exc _ s' => s'.scopes = s.scopes
    | .ub => True := by
  obtain ⟨k, hk⟩ := hr
  rcases k with _ | k
  · cases hk
  have hg := good_exec (P := P) False sem k
  have ha : ∀ (st : State P), Agree False [] st := fun st hf => hf.elim
  have key : Sat (exec sem (k + 1) (.node (.tryS b n h)) s) (WholeOut False [] s.scopes) := by
    simp only [exec, step, runNode]
    have h1 : Sat (exec sem k (block b) s) (WholeOut False [] s.scopes) := hg.whole _ _ _ rfl (ha _)
    refine Sat.onOut (R := WholeOut False [] s.scopes) ?_ trivial (fun st hst => Sat.ok hst) ?_
    · refine Sat.onOut h1 trivial (fun st hst => ?_) (fun e st hst => Sat.exc hst)
      split
      · unfold withTop
        split
        · exact Sat.ub trivial
        · rename_i r _ _
          have h2 := hg.whole (.check r) [] st rfl (ha _)
          refine Sat.onOut h2 trivial (fun st' hst' => Sat.ok ⟨?_, ha _⟩) (fun e st' hst' => Sat.exc ⟨hst'.1.trans hst.1, ha _⟩)
          rw [← hst.1, ← hst'.1]
          unfold State.setStack
          split <;> rfl
      · exact Sat.ok hst
    · intro e st hst
      refine (hg.whole (.within [(n, .temp e [])] (.rod h)) [] st rfl (ha _)).imp ?_
      intro x hx
      cases x with
      | ok st' => exact ⟨hx.1.trans hst.1, ha _⟩
      | exc e' st' => exact ⟨hx.1.trans hst.1, ha _⟩
      | ub => trivial
  have := key.app _ hk
  cases o with
  | ok s' => exact this.1
  | exc e s' => exact this.1
  | ub => trivial

/-! ## C53 -/

theorem run_rod_one (sem : Sem P) (n : Node P) (s : State P) (hs : s.status = .next) :
    run sem (.rod [n]) s = run sem (.node n) s := by
  have h0 : s.setStatus .next = s := by cases s; simp only at hs; simp [State.setStatus, hs]
  rw [run_step]
  simp only [step, h0]
  rw [run_step]
  simp only [step, andThen, onOut]
  rcases run sem (.node n) s with _ | (s' | _ | _) <;> try rfl
  simp only
  split
  · rw [run_step]; rfl
  · rfl

theorem sub_nil (sem : Sem P) (a : Bool) (s : State P) (hs : s.status = .next) : run sem (.sub a []) s = some (.ok s) := by
  rw [run_step]
  simp [step, expectNext, hs]

theorem sub_plain (sem : Sem P) (c : List (Node P)) (hc : c ≠ []) (s : State P) (r : Ref) (l : List Ref)
    (hl : s.stack = r :: l) : run sem (.sub false c) s = run sem (.rod c) (s.setStack l) := by
  rw [run_step]
  cases c with
  | nil => exact absurd rfl hc
  | cons x c => simp [step, withTop, hl]

/-- Which operand an operator selects, given the value of its left operand; `none` is the left operand itself. -/
def selected : ShortOp P → Value → Option (List (Node P))
  | .ternary t f, v => some (if test v then t else f)
  | .logicalAnd t, v => if test v then some t else none
  | .logicalOr f, v => if test v then none else some f
  | .coalescence n, .null => some n
  | .coalescence _, _ => none

/-- The operands of an operator are not empty. -/
def ShortOp.proper : ShortOp P → Prop
  | .ternary t f => t ≠ [] ∧ f ≠ []
  | .logicalAnd t => t ≠ []
  | .logicalOr f => f ≠ []
  | .coalescence n => n ≠ []

theorem node_of (op : ShortOp P) (assign : Bool) : ∃ n, generateBranch op.branches assign = some n ∧
    ∀ (sem : Sem P) (s : State P) (r : Ref) (l : List Ref) (v : Value), s.status = .next → s.stack = r :: l →
      deref s.world r = .ok v →
      run sem (.node n) s = match selected op v with
        | some c => run sem (.sub assign c) s
        | none => some (.ok s) := by
  cases op with
  | ternary t f =>
    refine ⟨.branchE t f assign, rfl, fun sem s r l v hs hl hv => ?_⟩
    rw [run_step]
    simp only [step, runNode, withTop, hl, withValue, hv, selected]
  | logicalAnd t =>
    refine ⟨.branchE t [] assign, rfl, fun sem s r l v hs hl hv => ?_⟩
    rw [run_step]
    simp only [step, runNode, withTop, hl, withValue, hv, selected]
    cases test v
    · simp [sub_nil sem assign s hs]
    · simp
  | logicalOr f =>
    refine ⟨.branchE [] f assign, rfl, fun sem s r l v hs hl hv => ?_⟩
    rw [run_step]
    simp only [step, runNode, withTop, hl, withValue, hv, selected]
    cases test v
    · simp
    · simp [sub_nil sem assign s hs]
  | coalescence c =>
    refine ⟨.coalesceE c assign, rfl, fun sem s r l v hs hl hv => ?_⟩
    rw [run_step]
    simp only [step, runNode, withTop, hl, withValue, hv]
    cases v <;> rfl

/-- **C53.**  `a && b`, `a || b`, `a ?? b`, `a ? b : c`: after `a` has left the value `v`, exactly the operand selected by
`v` is evaluated, in place of the value of `a`; if `v` itself is selected, nothing else happens. -/
theorem C53_short_circuit (sem : Sem P) (a : List (Node P)) (op : ShortOp P) (hop : op.proper) :
    ∃ code, shortCode a op false = some code ∧
      ∀ (s s' : State P) (v : Value), Yields (Runs sem) a s s' v → ∀ o,
        Runs sem (.rod code) s o ↔ match selected op v with
          | some c => Runs sem (.rod c) (s'.setStack s'.stack.tail) o
          | none => o = .ok s' := by
  obtain ⟨n, hn, hrun⟩ := node_of op false
  refine ⟨a ++ [n], by simp [shortCode, hn], fun s s' v hy o => ?_⟩
  obtain ⟨ha, hs, r, l, hl, hv⟩ := hy
  rw [C45_then sem a [n] s s' ha hs o, ← run_eq_some, run_rod_one sem n s' hs, hrun sem s' r l v hs hl hv]
  have hne : ∀ c, selected op v = some c → c ≠ [] := by
    intro c hc
    cases op with
    | ternary t f => simp only [selected, Option.some.injEq] at hc; subst hc; split <;> simp_all [ShortOp.proper]
    | logicalAnd t => simp only [selected] at hc; split at hc <;> simp_all [ShortOp.proper]
    | logicalOr t => simp only [selected] at hc; split at hc <;> simp_all [ShortOp.proper]
    | coalescence t => cases v <;> simp_all [selected, ShortOp.proper]
  cases hsel : selected op v with
  | none => simp only [Option.some.injEq]; exact ⟨Eq.symm, Eq.symm⟩
  | some c =>
    simp only
    rw [sub_plain sem c (hne c hsel) s' r l hl, hl, ← run_eq_some]
    rfl

/-- The result is the value of the operand selected. -/
theorem C53_result (sem : Sem P) (a : List (Node P)) (op : ShortOp P) (hop : op.proper) :
    ∃ code, shortCode a op false = some code ∧
      ∀ (s s' : State P) (v : Value), Yields (Runs sem) a s s' v →
        (selected op v = none → Yields (Runs sem) code s s' v) ∧
        ∀ c s'' v', selected op v = some c → Yields (Runs sem) c (s'.setStack s'.stack.tail) s'' v' →
          Yields (Runs sem) code s s'' v' := by
  obtain ⟨code, hc, h⟩ := C53_short_circuit sem a op hop
  refine ⟨code, hc, fun s s' v hy => ⟨fun hsel => ?_, fun c s'' v' hsel hy' => ?_⟩⟩
  · have := h s s' v hy (.ok s')
    rw [hsel] at this
    exact ⟨this.2 rfl, hy.2⟩
  · have := h s s' v hy (.ok s'')
    rw [hsel] at this
    exact ⟨this.2 hy'.1, hy'.2⟩

/-- `a &&= b` and the like: if an operand other than `a` is selected, it is evaluated, and its value is assigned to the
reference that `a` has left; otherwise nothing happens. -/
theorem C53_assign (sem : Sem P) (a : List (Node P)) (op : ShortOp P) (hop : op.proper) :
    ∃ code, shortCode a op true = some code ∧
      ∀ (s s' : State P) (v : Value), Yields (Runs sem) a s s' v →
        (selected op v = none → Runs sem (.rod code) s (.ok s')) ∧
        ∀ c s'' v' rb r l, selected op v = some c → Runs sem (.rod c) s' (.ok s'') → s''.status = .next →
          s''.stack = rb :: r :: l → derefCopy s''.world rb = .ok v' →
          ∀ env x, r.toSub.assign sem.lim s''.world.env v' = (env, .ok x) →
            Runs sem (.rod code) s (.ok (({ s'' with world := { s''.world with env := env } } : State P).setStack (r :: l))) := by
  obtain ⟨n, hn, hrun⟩ := node_of op true
  refine ⟨a ++ [n], by simp [shortCode, hn], fun s s' v hy => ?_⟩
  obtain ⟨ha, hs, r₀, l₀, hl, hv⟩ := hy
  refine ⟨fun hsel => ?_, fun c s'' v' rb r l hsel hc hs'' hl'' hv' env x hasg => ?_⟩
  · rw [C45_then sem a [n] s s' ha hs, ← run_eq_some, run_rod_one sem n s' hs, hrun sem s' r₀ l₀ v hs hl hv, hsel]
  · rw [C45_then sem a [n] s s' ha hs, ← run_eq_some, run_rod_one sem n s' hs, hrun sem s' r₀ l₀ v hs hl hv, hsel]
    have hne : c ≠ [] := by
      cases op with
      | ternary t f => simp only [selected, Option.some.injEq] at hsel; subst hsel; split <;> simp_all [ShortOp.proper]
      | logicalAnd t => simp only [selected] at hsel; split at hsel <;> simp_all [ShortOp.proper]
      | logicalOr t => simp only [selected] at hsel; split at hsel <;> simp_all [ShortOp.proper]
      | coalescence t => cases v <;> simp_all [selected, ShortOp.proper]
    rw [← run_eq_some] at hc
    simp only
    rw [run_step]
    cases c with
    | nil => exact absurd rfl hne
    | cons y c => simp only [step, if_true, hc, andThen, onOut, expectNext, hs'', withTop, hl'', withValue, hv', hasg]

section examples
open Demo

/-- `try { say 1; throw 42; say 9; } catch(e) { say 2; throw e; }`. -/
example : see (exec sem 40 (.rod [.tryS [say 1, .pushConst (.int 42), .throwS, say 9] 3 [say 2, .clearStack, .pushLocal 0 3, .throwS],
      say 9]) start) = .exc [1, 2] (some 42) := by decide +kernel

/-- `try { say 1; break; } catch(e) { say 2; }`. -/
example : see (exec sem 40 (.rod [.tryS [say 1, .simpleStatus .brk] 3 [say 2], say 9]) start) = .ok [1] .brk := by decide +kernel

/-- `try { say 1; throw 42; } catch(e) { say 2; break; }`. -/
example : see (exec sem 40 (.rod [.tryS [say 1, .pushConst (.int 42), .throwS] 3 [say 2, .simpleStatus .brk], say 9]) start)
    = .ok [1, 2] .brk := by decide +kernel

/-- `(say 1, true) && (say 2, 5)` and `(say 1, true) || (say 2, 5)`. -/
example :
    ((shortCode [say 1, .pushConst (.bool true)] (.logicalAnd [say 2, .pushConst (.int 5)]) false).map fun c =>
      see (exec sem 40 (.rod c) start)) = some (.ok [1, 2] .next) ∧
    ((shortCode [say 1, .pushConst (.bool true)] (.logicalOr [say 2, .pushConst (.int 5)]) false).map fun c =>
      see (exec sem 40 (.rod c) start)) = some (.ok [1] .next) := by decide +kernel

/-- `(say 1, null) ?? (say 2, 5)` and `0 ?? (say 2, 5)`. -/
example :
    ((shortCode [say 1, .pushConst .null] (.coalescence [say 2, .pushConst (.int 5)]) false).map fun c =>
      see (exec sem 40 (.rod c) start)) = some (.ok [1, 2] .next) ∧
    ((shortCode [.pushConst (.int 0)] (.coalescence [say 2, .pushConst (.int 5)]) false).map fun c =>
      see (exec sem 40 (.rod c) start)) = some (.ok [] .next) := by decide +kernel

end examples

end Asteria.Exec
