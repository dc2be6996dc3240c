import Verif.Proof.ExecFlow
import Verif.Proof.ExecDemo

/-!
# C45: structured control flow

The statements are related to the descriptions in `Verif/Spec/Flow.lean`.
-/

namespace Asteria.Exec

open Spec Relation

variable {P : Type}

section
variable {R R' : Task P → State P → Out P → Prop} (h : ∀ t s o, R t s o → R' t s o)
include h

theorem Spec.Yields.mono {c : List (Node P)} {s s' : State P} {v : Value} (hy : Yields R c s s' v) : Yields R' c s s' v :=
  ⟨h _ _ _ hy.1, hy.2⟩

theorem Spec.NoValue.mono {c : List (Node P)} {s : State P} {o : Out P} (hy : NoValue R c s o) : NoValue R' c s o := by
  rcases hy with ⟨h1, h2⟩ | ⟨s', h1, h2⟩
  · exact Or.inl ⟨h _ _ _ h1, h2⟩
  · exact Or.inr ⟨s', h _ _ _ h1, h2⟩

theorem Spec.GoesOn.mono {cs : List Status} {b : List (Node P)} {s s' : State P} (hy : GoesOn R cs b s s') :
    GoesOn R' cs b s s' := by
  obtain ⟨s₁, h1, h2⟩ := hy
  exact ⟨s₁, h _ _ _ h1, h2⟩

theorem Spec.BreaksOff.mono {cs bs : List Status} {b : List (Node P)} {s : State P} {o : Out P} (hy : BreaksOff R cs bs b s o) :
    BreaksOff R' cs bs b s o := by
  rcases hy with ⟨h1, h2⟩ | ⟨s', h1, h2⟩
  · exact Or.inl ⟨h _ _ _ h1, h2⟩
  · exact Or.inr ⟨s', h _ _ _ h1, h2⟩

theorem Spec.ForCond.mono {c : List (Node P)} {s s' : State P} (hy : ForCond R c s s') : ForCond R' c s s' := by
  rcases hy with ⟨v, h1, h2⟩ | ⟨h1, h2⟩
  · exact Or.inl ⟨v, h1.mono h, h2⟩
  · exact Or.inr ⟨h _ _ _ h1, h2⟩

theorem Spec.ForNoCond.mono {c : List (Node P)} {s : State P} {o : Out P} (hy : ForNoCond R c s o) : ForNoCond R' c s o := by
  rcases hy with ⟨h1, h2⟩ | ⟨s', h1, h2⟩
  · exact Or.inl ⟨h _ _ _ h1, h2⟩
  · exact Or.inr ⟨s', h _ _ _ h1, h2⟩

theorem Spec.NotPlain.mono {c : List (Node P)} {s : State P} {o : Out P} (hy : NotPlain R c s o) : NotPlain R' c s o := by
  rcases hy with ⟨h1, h2⟩ | ⟨s', h1, h2⟩
  · exact Or.inl ⟨h _ _ _ h1, h2⟩
  · exact Or.inr ⟨s', h _ _ _ h1, h2⟩

theorem Spec.Outside.mono {t : Task P} {s : State P} {o : Out P} (hy : Outside R t s o) : Outside R' t s o := by
  obtain ⟨x, xs, o', h1, h2, h3⟩ := hy
  exact ⟨x, xs, o', h1, h _ _ _ h2, h3⟩

end

/-- A `while` statement is a sequence of turns and an end. -/
theorem C45_while (sem : Sem P) (neg : Bool) (c b k : List (Node P)) (s : State P) (o : Out P) :
    Runs sem (.node (.whileS neg c b k)) s o ↔
      ∃ s', ReflTransGen (WhileTurn (Runs sem) neg c b) s s' ∧ WhileEnd (Runs sem) neg c b k s' o := by
  rw [← loop_iff sem (.whileL neg c b k) (fun R => WhileTurn R neg c b) (fun R => WhileEnd R neg c b k)
    (fun rec s o => while_step sem) ?_ ?_]
  · rw [← run_eq_some, run_step]
    simp only [step, runNode]
    exact run_eq_some
  · rintro R R' h s s' ⟨s₁, v, h1, h2, h3⟩
    exact ⟨s₁, v, h1.mono h, h2, h3.mono h⟩
  · rintro R R' h s o (⟨s₁, v, h1, h2, h3⟩ | ⟨s₁, v, h1, h2, h3⟩ | h1)
    · exact Or.inl ⟨s₁, v, h1.mono h, h2, h _ _ _ h3⟩
    · exact Or.inr (Or.inl ⟨s₁, v, h1.mono h, h2, h3.mono h⟩)
    · exact Or.inr (Or.inr (h1.mono h))

/-- A `do` statement is a sequence of turns and an end. -/
theorem C45_do (sem : Sem P) (neg : Bool) (c b k : List (Node P)) (s : State P) (o : Out P) :
    Runs sem (.node (.doWhile b neg c k)) s o ↔
      ∃ s', ReflTransGen (DoTurn (Runs sem) neg c b) s s' ∧ DoEnd (Runs sem) neg c b k s' o := by
  rw [← loop_iff sem (.doL b neg c k) (fun R => DoTurn R neg c b) (fun R => DoEnd R neg c b k)
    (fun rec s o => do_step sem) ?_ ?_]
  · rw [← run_eq_some, run_step]
    simp only [step, runNode]
    exact run_eq_some
  · rintro R R' h s s' ⟨s₁, v, h1, h2, h3⟩
    exact ⟨s₁, v, h1.mono h, h2.mono h, h3⟩
  · rintro R R' h s o (h1 | ⟨s₁, h1, h2⟩ | ⟨s₁, s₂, v, h1, h2, h3, h4⟩)
    · exact Or.inl (h1.mono h)
    · exact Or.inr (Or.inl ⟨s₁, h1.mono h, h2.mono h⟩)
    · exact Or.inr (Or.inr ⟨s₁, s₂, v, h1.mono h, h2.mono h, h3, h _ _ _ h4⟩)

/-- The loop of a `for` statement, after its initialization, is a sequence of turns and an end. -/
theorem C45_for (sem : Sem P) (c st b k : List (Node P)) (s : State P) (o : Out P) :
    Runs sem (.forL c st b k) s o ↔
      ∃ s', ReflTransGen (ForTurn (Runs sem) c st b) s s' ∧ ForEnd (Runs sem) c st b k s' o := by
  apply loop_iff sem (.forL c st b k) (fun R => ForTurn R c st b) (fun R => ForEnd R c st b k)
    (fun rec s o => for_step sem)
  · rintro R R' h s s' ⟨s₁, v, h1, h2, h3⟩
    exact ⟨s₁, v, h1.mono h, h2.mono h, h _ _ _ h3.1, h3.2⟩
  · rintro R R' h s o (h1 | ⟨s₁, v, h1, h2, h3⟩ | ⟨s₁, h1, h2⟩ | ⟨s₁, s₂, h1, h2, h3⟩)
    · exact Or.inl (h1.mono h)
    · refine Or.inr (Or.inl ⟨s₁, v, h1.mono h, h2, ?_⟩)
      exact h3.imp (fun h3 => h3.mono h) id
    · exact Or.inr (Or.inr (Or.inl ⟨s₁, h1.mono h, h2.mono h⟩))
    · exact Or.inr (Or.inr (Or.inr ⟨s₁, s₂, h1.mono h, h2.mono h, h3.mono h⟩))

/-- A `for` statement makes a context, executes its initialization in it, and then its loop. -/
theorem C45_for_init (sem : Sem P) (i c st b k : List (Node P)) (s : State P) (o : Out P) :
    (Runs sem (.node (.forS i c st b k)) s o ↔ Runs sem (.within [] (.forInit i c st b k)) s o) ∧
    (Runs sem (.forInit i c st b k) s o ↔
      (∃ s₁, Plain (Runs sem) i s s₁ ∧ Runs sem (.forL c st b k) s₁ o) ∨ NotPlain (Runs sem) i s o) := by
  constructor
  · rw [← run_eq_some, run_step]
    simp only [step, runNode]
    exact run_eq_some
  · rw [← run_eq_some, run_step]
    simp only [step]
    simp only [andThen_iff, expectNext_iff, Plain, NotPlain, run_eq_some]
    constructor
    · rintro (⟨s₁, h1, ⟨h2, h3⟩ | ⟨h2, h3⟩⟩ | h)
      · exact Or.inl ⟨s₁, ⟨h1, h2⟩, h3⟩
      · exact Or.inr (Or.inr ⟨s₁, h1, h2, h3⟩)
      · exact Or.inr (Or.inl h)
    · rintro (⟨s₁, ⟨h1, h2⟩, h3⟩ | h | ⟨s₁, h1, h2, h3⟩)
      · exact Or.inl ⟨s₁, h1, Or.inl ⟨h2, h3⟩⟩
      · exact Or.inr h
      · exact Or.inl ⟨s₁, h1, Or.inr ⟨h2, h3⟩⟩

/-- The loop of a `for each` statement takes the elements in order. -/
theorem C45_each (sem : Sem P) (kn : Option Name) (mn : Name) (r : Ref) (b k : List (Node P))
    (es : List (Value × Subscript.Sub)) (s : State P) (o : Out P) :
    Runs sem (.eachL es kn mn r b k) s o ↔ Each (Runs sem) kn mn r b k es s o :=
  each_iff sem kn mn r b k es s o

/-- A `switch` statement whose condition has the value `v` enters the first clause that matches, or the default
clause. -/
theorem C45_switch (sem : Sem P) (cs : List (Clause P)) (s : State P) (r : Ref) (l : List Ref) (v : Value)
    (hs : s.stack = r :: l) (hv : deref s.world r = .ok v) (o : Out P) :
    Runs sem (.node (.switchS cs)) s o ↔ Switch (Runs sem) v cs s o := by
  have h0 : Runs sem (.node (.switchS cs)) s o ↔ Runs sem (.find v cs 0 none cs) s o := by
    rw [← run_eq_some, run_step]
    simp only [step, runNode, withTop, hs, hv, withValue]
    exact run_eq_some
  rw [h0, find_iff]
  unfold Find Switch
  simp only [Nat.zero_add]
  have hd : (((defaultAt cs).map fun x => x).orElse fun _ => none) = defaultAt cs := by
    cases defaultAt cs <;> rfl
  rw [hd]
  exact Iff.rfl

/-- The clauses fall through, one into the next, until one ends with another status; `break` statements for the
`switch` statement end it. -/
theorem C45_clauses (sem : Sem P) (cs : List (Clause P)) (s : State P) (o : Out P) :
    Runs sem (.clauses cs) s o ↔ Bodies (Runs sem) cs s o :=
  clauses_iff sem cs s o

theorem run_seq_append (sem : Sem P) (a b : List (Node P)) (s : State P) (hs : s.status = .next) :
    run sem (.seq (a ++ b)) s =
      andThen (run sem (.seq a) s) fun s' => if s'.status = .next then run sem (.seq b) s' else some (.ok s') := by
  induction a generalizing s with
  | nil =>
    rw [List.nil_append, run_step sem (.seq [])]
    simp only [step, andThen, onOut, hs, if_true]
  | cons n ns ih =>
    rw [List.cons_append, run_step sem (.seq (n :: (ns ++ b))), run_step sem (.seq (n :: ns))]
    simp only [step]
    unfold andThen onOut
    rcases run sem (.node n) s with _ | (s' | _ | _) <;> try rfl
    simp only
    by_cases hn : s'.status = .next
    · rw [if_pos hn, if_pos hn, ih s' hn]
      rfl
    · rw [if_neg hn, if_neg hn]
      simp only
      rw [if_neg hn]

/-- Code after a transfer of control is not executed, and does not matter. -/
theorem C45_stop (sem : Sem P) (a b : List (Node P)) (s s' : State P) (h : Runs sem (.rod a) s (.ok s'))
    (hn : s'.status ≠ .next) : Runs sem (.rod (a ++ b)) s (.ok s') := by
  rw [← run_eq_some, run_step] at h ⊢
  simp only [step] at h ⊢
  rw [run_seq_append _ _ _ _ rfl, h]
  simp only [andThen, onOut]
  rw [if_neg hn]

/-- Code after an exception is not executed, and does not matter. -/
theorem C45_stop_exc (sem : Sem P) (a b : List (Node P)) (s s' : State P) (e : Value)
    (h : Runs sem (.rod a) s (.exc e s')) : Runs sem (.rod (a ++ b)) s (.exc e s') := by
  rw [← run_eq_some, run_step] at h ⊢
  simp only [step] at h ⊢
  rw [run_seq_append _ _ _ _ rfl, h]
  rfl

/-- Code that ends normally is followed by the code after it, which starts in the state that it left. -/
theorem C45_then (sem : Sem P) (a b : List (Node P)) (s s' : State P) (h : Runs sem (.rod a) s (.ok s'))
    (hn : s'.status = .next) (o : Out P) : Runs sem (.rod (a ++ b)) s o ↔ Runs sem (.rod b) s' o := by
  have hs' : s'.setStatus .next = s' := by cases s'; simp only at hn; simp [State.setStatus, hn]
  rw [← run_eq_some, run_step] at h
  rw [← run_eq_some, run_step, ← run_eq_some, run_step sem (.rod b)]
  simp only [step] at h ⊢
  rw [run_seq_append _ _ _ _ rfl, h, hs']
  simp only [andThen, onOut]
  rw [if_pos hn]

/-- An `if` statement executes one of its branches. -/
theorem C45_if (sem : Sem P) (neg : Bool) (t f : List (Node P)) (s : State P) (r : Ref) (l : List Ref) (v : Value)
    (hs : s.stack = r :: l) (hv : deref s.world r = .ok v) (o : Out P) :
    Runs sem (.node (.ifS neg t f)) s o ↔ Runs sem (block (if test v = !neg then t else f)) s o := by
  rw [← run_eq_some, run_step]
  simp only [step, runNode, withTop, hs, hv, withValue]
  cases test v <;> cases neg <;> simp [run_eq_some]

/-- A `return` statement ends the function; a `break` or `continue` statement that no statement of the function takes
is an error.  What a function returns is what was on the top of its stack. -/
theorem C45_function (sem : Sem P) (names : List (Name × Ref)) (body : List (Node P)) (s s' : State P)
    (h : Runs sem (.within names (.rod body)) s (.ok s')) :
    (s'.status = .next ∨ s'.status = .retVoid → Runs sem (.call names body) s (.ok { s' with result := .void })) ∧
    (s'.status = .ret → ∀ r l, s'.stack = r :: l → Runs sem (.call names body) s (.ok { s' with result := r })) ∧
    (s'.status ∉ [Status.next, .retVoid, .ret] → Runs sem (.call names body) s (.exc message s')) := by
  rw [← run_eq_some] at h
  have h0 : run sem (.call names body) s = functionResult s' := by
    rw [run_step]
    simp only [step, h, andThen, onOut]
  refine ⟨fun hs => ?_, fun hs r l hr => ?_, fun hs => ?_⟩
  · rw [← run_eq_some, h0, functionResult]
    rcases hs with hs | hs <;> simp only [hs]
  · rw [← run_eq_some, h0, functionResult]
    simp only [hs, withTop, hr]
  · rw [← run_eq_some, h0, functionResult]
    cases hst : s'.status <;> simp [hst] at hs ⊢

section examples
open Demo

/-- `while(fewer than 3) { say 1; if(fewer than 2) continue while; break; say 9; } complete { say 5 }`: the loop goes on
once and is left by `break`, so that the completion clause is not executed. -/
example : see (exec sem 40 (.rod [.whileS false (fewer 3)
      [say 1, .clearStack, .prim (.fewer 2), .ifS false [.simpleStatus .contWhile] [], .simpleStatus .brk, say 9] [say 5],
      say 7]) start)
    = .ok [1, 1, 7] .next := by decide +kernel

/-- The same with `break for`, which a `while` loop does not take: it leaves the `for` loop around it. -/
example : see (exec sem 60 (.rod [.forS [] [] [say 3]
      [.whileS false (fewer 3) [say 1, .simpleStatus .brkFor] [say 5], say 9] [say 6], say 7]) start)
    = .ok [1, 7] .next := by decide +kernel

/-- `for` with a step and a completion clause. -/
example : see (exec sem 60 (.rod [.forS [say 0] (fewer 5) [say 3] [say 1, .simpleStatus .cont, say 9] [say 6], say 7]) start)
    = .ok [0, 1, 3, 1, 3, 6, 7] .next := by decide +kernel

/-- `do` executes its body before the condition. -/
example : see (exec sem 60 (.rod [.doWhile [say 1] false (fewer 1) [say 6]]) start)
    = .ok [1, 6] .next := by decide +kernel

/-- `for(each v -> [10, 20, 30])` with a `break` for the second element. -/
example : see (exec sem 60 (.rod [.forEach none 4 [.pushConst (.arr [.int 10, .int 20, .int 30])]
      [say 1, .clearStack, .prim (.fewer 2), .ifS false [] [.simpleStatus .brk]] [say 6], say 7]) start)
    = .ok [1, 1, 7] .next := by decide +kernel

/-- `switch(1) { default: say 8;  case 1: say 1;  case 2: say 2; break;  case 3: say 3 }`. -/
example : see (exec sem 60 (.rod [.pushConst (.int 1), .switchS
      [.mk .default [] [say 8] [], .mk .case [.clearStack, .pushConst (.int 1)] [say 1] [],
       .mk .case [.clearStack, .pushConst (.int 2)] [say 2, .simpleStatus .brk] [],
       .mk .case [.clearStack, .pushConst (.int 3)] [say 3] []], say 7]) start)
    = .ok [1, 2, 7] .next := by decide +kernel

/-- No clause matches: the default clause, and the ones after it. -/
example : see (exec sem 60 (.rod [.pushConst (.int 9), .switchS
      [.mk .case [.clearStack, .pushConst (.int 1)] [say 1] [], .mk .default [] [say 8] [],
       .mk (.each true false) [.clearStack, .pushConst (.int 2), .pushConst (.int 9)] [say 2, .simpleStatus .brkSwitch] [],
       .mk .case [.clearStack, .pushConst (.int 3)] [say 3] []], say 7]) start)
    = .ok [8, 2, 7] .next := by decide +kernel

/-- A `return` statement inside loops; a stray `continue` statement. -/
example : returned (exec sem 60 (.enter 0 .void []) (outside [.inst [] false
      [.whileS false (fewer 3) [.forS [] [] [] [say 1, .returnConst (.int 42)] []] [], say 9]])) = some (some 42)
    ∧ see (exec sem 60 (.enter 0 .void []) (outside [.inst [] false [say 1, .simpleStatus .cont, say 9]]))
      = .exc [1] none := by decide +kernel

end examples

end Asteria.Exec
