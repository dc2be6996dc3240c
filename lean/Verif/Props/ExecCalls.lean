import Verif.Props.ExecExpr

/-!
# C78: the result of a call that is discarded; C79: `catch` expressions
-/

namespace Asteria.Exec

variable {P : Type}

/-! ## C78 -/

section
open Demo

/-- `func f() { return g(); }` and `func h() { f(); }` with proper tail calls, where `g` is a native function. -/
def discardDemo : State Prim := outside [.native (.say 42),
  .inst [] false [.clearStack, .pushConst (.func 0), .funcCall 0 .byVal],
  .inst [] false [.clearStack, .pushConst (.func 1), .funcCall 0 .void]]

/-- **C78 is false.**  The function `h` has no `return` statement, yet the value of `f()` is its result: only the last of
the tail calls is asked whether the result is to be discarded. -/
theorem C78_false : ∃ st st' : State Prim, Runs sem (.enter 2 .void []) discardDemo (.ok st) ∧
    Runs sem (.check st.result) st (.ok st') ∧ st'.result ≠ .void ∧ deref st'.world st'.result = .ok (.int 42) := by
  refine ⟨_, _, ⟨40, rfl⟩, ⟨40, rfl⟩, ?_, rfl⟩
  intro h
  cases h

/-- Without tail calls there is no result. -/
example : returned (exec sem 40 (.enter 2 .void []) (outside [.native (.say 42),
    .inst [] false [.clearStack, .pushConst (.func 0), .funcCall 0 .none, .returnS false false],
    .inst [] false [.clearStack, .pushConst (.func 1), .funcCall 0 .none]])) = some none := by decide +kernel

end

/-- What a call is to yield if its target has returned `r`. -/
def Wanted (w : World) (r : Ref) : Ptc → Ref → Prop
  | .void, r' => r' = .void
  | .byVal, r' => (r = .void ∧ r' = .void) ∨ ∃ v, r ≠ .void ∧ deref w r = .ok v ∧ r' = .temp v []
  | _, r' => (r = .void ∧ r' = .void) ∨ ∃ v, r ≠ .void ∧ deref w r = .ok v ∧ r' = r

/-- If the target of a tail call does not itself end with a tail call, then the result is discarded, or converted to a
value, or passed on as a reference, as the call asks for.  Missing for the full C78: targets that end with another tail
call. -/
theorem C78_partial (sem : Sem P) (st st₁ : State P) (id : Nat) (p : PtcArgs P) (hp : st.ptcs[id]? = some p)
    (hr : Runs sem (.enter p.target p.self p.args) st (.ok st₁)) (hp₁ : st₁.ptcs[id]? = some p) (hd : p.defers = [])
    (hn : ∀ i, st₁.result ≠ .ptc i) :
    (p.aware = .void ∨ st₁.result = .void ∨ ∃ v, deref st₁.world st₁.result = .ok v) →
    ∃ st₂, Runs sem (.unpack (.ptc id) []) st (.ok st₂) ∧ Wanted st₁.world st₁.result p.aware st₂.result ∧
      st₂.world = st₁.world := by
  intro hc
  rw [← run_eq_some] at hr
  have hframe : ∀ (s : State P) (val : Option Value), s.ptcs[id]? = some p → s.world = st₁.world →
      ∃ st₂, run sem (.framesN [id] val) s = some (.ok st₂) ∧ st₂.world = st₁.world ∧
        st₂.result = match p.aware, val with
          | .byVal, some v => .temp v []
          | _, _ => s.result := by
    intro s val hs hw
    rw [run_step]
    simp only [step, hs, hd]
    rw [run_step sem (.exitN .invalid .next)]
    simp only [step, State.log, List.getLast?_nil, onOut]
    rw [run_step]
    simp only [step]
    refine ⟨_, rfl, ?_, ?_⟩
    · cases p.aware <;> cases val <;> simpa [restore, State.setStatus] using hw
    · cases p.aware <;> cases val <;> rfl
  have h1 : run sem (.unpack (.ptc id) []) st = run sem (.unpack st₁.result [id]) st₁ := by
    rw [run_step]
    simp only [step, hp, hr, onOut]
  by_cases hv : p.aware = .void
  · obtain ⟨st₂, h2, hw, hres⟩ := hframe { st₁ with result := .void } none hp₁ rfl
    refine ⟨st₂, ?_, ?_, hw⟩
    · rw [← run_eq_some, h1, run_step]
      cases hst : st₁.result with
      | ptc i => exact absurd hst (hn i)
      | _ => simpa [step, hp₁, hv] using h2
    · rw [hres, hv]
      rfl
  · by_cases hvoid : st₁.result = .void
    · obtain ⟨st₂, h2, hw, hres⟩ := hframe { st₁ with result := .void } none hp₁ rfl
      refine ⟨st₂, ?_, ?_, hw⟩
      · rw [← run_eq_some, h1, run_step, hvoid]
        simpa [step, hp₁, hv] using h2
      · rw [hres, hvoid]
        cases hpa : p.aware <;> simp_all [Wanted]
    · obtain ⟨v, hvv⟩ : ∃ v, deref st₁.world st₁.result = .ok v := by
        rcases hc with hc | hc | hc
        · exact absurd hc hv
        · exact absurd hc hvoid
        · exact hc
      obtain ⟨st₂, h2, hw, hres⟩ := hframe { st₁ with result := st₁.result } (some v) hp₁ rfl
      refine ⟨st₂, ?_, ?_, hw⟩
      · rw [← run_eq_some, h1, run_step]
        cases hst : st₁.result with
        | ptc i => exact absurd hst (hn i)
        | void => exact absurd hst hvoid
        | _ =>
          have e : ∀ r, st₁.result = r → ({ st₁ with result := r } : State P) = st₁ := by rintro r rfl; rfl
          rw [hst] at hvv
          simp only [step, hp₁, if_neg hv, hvv, e _ hst]
          exact h2
      · rw [hres]
        cases hpa : p.aware <;> simp_all [Wanted]

/-- `func h() { g(); }` with a proper tail call of a native function. -/
example : (let st := Demo.outside [.native (.say 42), .inst [] false [.clearStack, .pushConst (.func 0), .funcCall 0 .void]]
    match exec Demo.sem 40 (.enter 1 .void []) st with
    | some (.ok st') => Demo.returned (exec Demo.sem 40 (.check st'.result) st')
    | _ => none) = some none := by decide +kernel

/-! ## C79 -/

/-- **C79** (first part).  After a `catch` expression, its value (the exception or null) is on top of the operands that
were there before. -/
theorem C79_operands (sem : Sem P) (b : List (Node P)) (s s' : State P) (h : Runs sem (.node (.catchE b)) s (.ok s')) :
    ∃ v s₁, s'.stack = .temp v [] :: s.stack ∧ s'.status = .next ∧ s'.world = s₁.world ∧
      ((v = .null ∧ Runs sem (.rod b) (s.setStack []) (.ok s₁)) ∨ Runs sem (.rod b) (s.setStack []) (.exc v s₁)) := by
  rw [← run_eq_some, run_step] at h
  simp only [step, runNode, onOut] at h
  have key : ∀ (x : Value) (t : State P), State.stack ((t.setStack (.temp x [] :: s.stack)).setStatus .next) = .temp x [] :: s.stack ∧
      ((t.setStack (.temp x [] :: s.stack)).setStatus .next).world = t.world := by
    intro x t
    constructor
    · exact stack_setStack _ _
    · unfold State.setStack State.setStatus; split <;> rfl
  rcases hb : run sem (.rod b) (s.setStack []) with _ | (t | ⟨e, t⟩ | _) <;> rw [hb] at h
  · cases h
  · simp only [expectNext] at h
    split at h
    · cases h
      exact ⟨.null, t, (key _ t).1, rfl, (key _ t).2, .inl ⟨rfl, run_eq_some.1 hb⟩⟩
    · cases h
  · cases h
    exact ⟨e, t, (key _ t).1, rfl, (key _ t).2, .inr (run_eq_some.1 hb)⟩
  · cases h

section
open Demo

/-- `func f() { catch( g(throw 7) ); return 5; }`, as it is generated with optimization: the argument is evaluated on the
alternative stack. -/
def catchDemo : State Prim := outside [.native (.say 42), .inst [] false
  [.clearStack, .catchE [.pushConst (.func 0), .altClear, .pushConst (.int 7), .throwS, .altCall .none],
   .clearStack, .returnConst (.int 5)]]

/-- **C79 is false.**  The two stacks have been swapped and stay so: the function returns what the `catch` expression has
left on the other stack, which is the function `g`, and not 5. -/
theorem C79_false : ∃ st : State Prim, Runs sem (.enter 1 .void []) catchDemo (.ok st) ∧
    deref st.world st.result = .ok (.func 0) := by
  exact ⟨_, ⟨40, rfl⟩, rfl⟩

/-- The code that is generated without optimization returns 5. -/
example : returned (exec sem 40 (.enter 1 .void []) (outside [.native (.say 42), .inst [] false
  [.clearStack, .catchE [.pushConst (.func 0), .pushConst (.int 7), .throwS, .funcCall 1 .none],
   .clearStack, .returnConst (.int 5)]])) = some (some 5) := by decide +kernel

end

/-- **C79**, for operands that leave the stacks as they were.  The stack is the one that it was before, with the value of
the `catch` expression on top; so a following `return` pushes its operand there.  Missing for the full C79: operands that
throw between `altClear` and `altCall`. -/
theorem C79_partial (sem : Sem P) (b : List (Node P)) (s s' : State P) (h : Runs sem (.node (.catchE b)) s (.ok s'))
    (hk : ∀ s₁ v, Runs sem (.rod b) (s.setStack []) (.ok s₁) ∨ Runs sem (.rod b) (s.setStack []) (.exc v s₁) →
      s₁.swapped = s.swapped) :
    ∃ v, (if s.swapped then s'.stk1 else s'.stk0) = .temp v [] :: s.stack := by
  rw [← run_eq_some, run_step] at h
  simp only [step, runNode, onOut] at h
  have key : ∀ (x : Value) (t : State P), t.swapped = s.swapped →
      (if s.swapped then ((t.setStack (.temp x [] :: s.stack)).setStatus .next).stk1
        else ((t.setStack (.temp x [] :: s.stack)).setStatus .next).stk0) = .temp x [] :: s.stack := by
    intro x t ht
    unfold State.setStack State.setStatus
    rw [ht]
    split <;> rfl
  rcases hb : run sem (.rod b) (s.setStack []) with _ | (t | ⟨e, t⟩ | _) <;> rw [hb] at h
  · cases h
  · simp only [expectNext] at h
    split at h
    · cases h
      exact ⟨.null, key _ t (hk t .null (.inl (run_eq_some.1 hb)))⟩
    · cases h
  · cases h
    exact ⟨e, key _ t (hk t e (.inr (run_eq_some.1 hb)))⟩
  · cases h

/-- The hypothesis holds of `catch(throw 7)`. -/
example : ∀ s₁ v, Runs Demo.sem (.rod [.pushConst (.int 7), .throwS]) (Demo.start.setStack []) (.ok s₁) ∨
    Runs Demo.sem (.rod [.pushConst (.int 7), .throwS]) (Demo.start.setStack []) (.exc v s₁) →
      s₁.swapped = Demo.start.swapped := by
  have h0 : ∃ s, s.swapped = false ∧ Runs Demo.sem (.rod [.pushConst (.int 7), .throwS]) (Demo.start.setStack []) (.exc (.int 7) s) :=
    ⟨_, rfl, 20, rfl⟩
  obtain ⟨s, hs, hr⟩ := h0
  rintro s₁ v (h | h)
  · cases hr.det h
  · cases hr.det h
    exact hs

end Asteria.Exec
