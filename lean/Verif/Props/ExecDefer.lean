import Verif.Proof.ExecTrace
import Verif.Proof.DeferSpec
import Verif.Proof.ExecDemo
import Mathlib.Data.List.Induction

/-!
# C46, C47: deferred expressions

The record of an execution is compared with the machines in `Verif/Spec/Defer.lean`.
-/

namespace Asteria.Exec

open Spec (Todo)

variable {P : Type}

/-- An execution starts: nothing has been recorded, and there is no pending tail call with deferred expressions. -/
def Fresh (st : State P) : Prop := st.trace = [] ∧ ∀ p ∈ st.ptcs, p.defers = []

/-- The record of an outcome. -/
def Out.trace? : Out P → Option (List Event)
  | .ok st => some st.trace
  | .exc _ st => some st.trace
  | .ub => none

theorem Fresh.agree {st : State P} (h : Fresh st) : Agree True [] st := by
  intro _
  have hp : parked st.ptcs = fun _ => [] := by
    funext p
    unfold parked
    split
    · rfl
    · rename_i a ha
      rw [h.2 a (List.mem_of_getElem? ha)]
      rfl
  rw [h.1, hp]
  exact ⟨rfl, fun i id hi => by simp at hi⟩

theorem accepted_whole {sem : Sem P} {t : Task P} (ht : t.whole = true) {st : State P} {X : List (Bool × List Nat)}
    (hs : Agree True X st) {o : Out P} (h : Runs sem t st o) : WholeOut True X st.scopes o := by
  obtain ⟨n, hn⟩ := h
  exact ((good_exec True sem n).whole t X st ht hs).app o hn

theorem accepted_of_whole {sem : Sem P} {t : Task P} (ht : t.whole = true) {st : State P} (hs : Fresh st) {o : Out P}
    (h : Runs sem t st o) {es : List Event} (he : o.trace? = some es) :
    (∃ c, Todo.empty.events es = some c ∧ c.scopes = []) ∧ Numbered es := by
  have := accepted_whole ht hs.agree h
  cases o with
  | ok st' => cases he; exact ⟨⟨_, (this.2 trivial).1, rfl⟩, (this.2 trivial).2⟩
  | exc e st' => cases he; exact ⟨⟨_, (this.2 trivial).1, rfl⟩, (this.2 trivial).2⟩
  | ub => cases he

/-- **C46.**  The record of any call that returns or throws is accepted: each scope runs what was registered in it, last
registered first, after its body and before it is left; and all scopes have been left. -/
theorem C46_accepted (sem : Sem P) (f : Nat) (self : Ref) (args : List Ref) (st : State P) (hs : Fresh st) (o : Out P)
    (h : Runs sem (.enter f self args) st o) (es : List Event) (he : o.trace? = some es) :
    ∃ c, Todo.empty.events es = some c ∧ c.scopes = [] :=
  (accepted_of_whole rfl hs h he).1

/-- The same for a block, inside of anything: whatever is pending in the scopes around it (`X`) is still pending when it
has been left, and these scopes are not changed. -/
theorem C46_block (sem : Sem P) (names : List (Name × Ref)) (code : List (Node P)) (st : State P)
    (X : List (Bool × List Nat)) (hs : Agree True X st) (o : Out P) (h : Runs sem (.within names (.rod code)) st o) :
    match o with
    | .ok st' => st'.scopes = st.scopes ∧ ∃ c, Todo.empty.events st'.trace = some c ∧ c.scopes = X
    | .exc _ st' => st'.scopes = st.scopes ∧ ∃ c, Todo.empty.events st'.trace = some c ∧ c.scopes = X
    | .ub => True := by
  have := accepted_whole (t := .within names (.rod code)) rfl hs h
  cases o with
  | ok st' => exact ⟨this.1, _, (this.2 trivial).1, rfl⟩
  | exc e st' => exact ⟨this.1, _, (this.2 trivial).1, rfl⟩
  | ub => trivial

theorem count_register_le {es : List Event} (h : Numbered es) (id : Nat) : es.count (.register id) ≤ 1 := by
  induction es using List.reverseRecOn with
  | nil => simp
  | append_singleton es e ih =>
    have hn : Numbered es := by
      intro i j hij
      refine h i j ?_
      rw [List.getElem?_append_left]
      · exact hij
      · exact (List.getElem?_eq_some_iff.1 hij).1
    rw [List.count_append]
    by_cases he : e = .register id
    · subst he
      have h1 : id = es.length := h es.length id (by simp)
      have h0 : es.count (.register id) = 0 := by
        rw [List.count_eq_zero]
        intro hm
        obtain ⟨i, hi⟩ := List.mem_iff_getElem?.1 hm
        have h2 := hn i id hi
        have := (List.getElem?_eq_some_iff.1 hi).1
        omega
      rw [h0]
      simp
    · rw [List.count_singleton, if_neg (by simpa using he)]
      have := ih hn
      omega

/-- Each deferred expression is registered under a number of its own, and without tail calls it is run exactly once. -/
theorem C46_once (sem : Sem P) (f : Nat) (self : Ref) (args : List Ref) (st : State P) (hs : Fresh st) (o : Out P)
    (h : Runs sem (.enter f self args) st o) (es : List Event) (he : o.trace? = some es)
    (hn : ∀ p, Event.handoff p ∉ es) (id : Nat) :
    es.count (.run id) = es.count (.register id) ∧ es.count (.register id) ≤ 1 := by
  obtain ⟨⟨c, hc, hcs⟩, hnum⟩ := accepted_of_whole rfl hs h he
  obtain ⟨N, hN⟩ := Spec.exists_below es
  have h1 := Spec.events_left hc hN id
  have h2 := Spec.events_parked hc (fun _ => rfl) hn
  refine ⟨?_, count_register_le hnum id⟩
  have hl : c.left N id = 0 := by
    unfold Todo.left
    rw [hcs]
    simp [h2]
  have h0 : Todo.empty.left N id = 0 := by simp [Todo.left, Todo.empty]
  omega

/-- With tail calls, none is run more than once, and none that is not left to a tail call is omitted. -/
theorem C46_at_most_once (sem : Sem P) (f : Nat) (self : Ref) (args : List Ref) (st : State P) (hs : Fresh st) (o : Out P)
    (h : Runs sem (.enter f self args) st o) (es : List Event) (he : o.trace? = some es) (id : Nat) :
    es.count (.run id) ≤ es.count (.register id) ∧ es.count (.register id) ≤ 1 ∧
    (es.count (.run id) < es.count (.register id) →
      ∃ c p, Todo.empty.events es = some c ∧ id ∈ c.parked p) := by
  obtain ⟨⟨c, hc, hcs⟩, hnum⟩ := accepted_of_whole rfl hs h he
  obtain ⟨N, hN⟩ := Spec.exists_below es
  have h1 := Spec.events_left hc hN id
  have h0 : Todo.empty.left N id = 0 := by simp [Todo.left, Todo.empty]
  refine ⟨by omega, count_register_le hnum id, fun hlt => ?_⟩
  have hl : c.left N id ≠ 0 := by omega
  unfold Todo.left at hl
  rw [hcs] at hl
  simp only [List.flatMap_nil, List.count_nil, Nat.zero_add] at hl
  have : ∃ x ∈ (List.range N).map (fun p => (c.parked p).count id), x ≠ 0 := by
    by_contra hall
    push Not at hall
    exact hl (List.sum_eq_zero hall)
  obtain ⟨x, hx, hx0⟩ := this
  obtain ⟨p, _, rfl⟩ := List.mem_map.1 hx
  exact ⟨c, p, hc, List.count_pos_iff.1 (by omega)⟩

/-- A deferred expression is run only after it has been registered; its number is the position of the registration. -/
theorem C46_after_registration (sem : Sem P) (f : Nat) (self : Ref) (args : List Ref) (st : State P) (hs : Fresh st)
    (o : Out P) (h : Runs sem (.enter f self args) st o) (es : List Event) (he : o.trace? = some es) (i id : Nat)
    (hi : es[i]? = some (.run id)) : id < i ∧ es[id]? = some (.register id) := by
  obtain ⟨⟨c, hc, hcs⟩, hnum⟩ := accepted_of_whole rfl hs h he
  rw [← List.take_append_drop (i + 1) es] at hc
  obtain ⟨d, hd, -⟩ := Spec.events_prefix hc
  obtain ⟨N, hN⟩ := Spec.exists_below (es.take (i + 1))
  have h1 := Spec.events_left hd hN id
  have h0 : Todo.empty.left N id = 0 := by simp [Todo.left, Todo.empty]
  have hm : Event.run id ∈ es.take (i + 1) := by
    refine List.mem_iff_getElem?.2 ⟨i, ?_⟩
    rw [List.getElem?_take, if_pos (by omega), hi]
  have h2 : 0 < (es.take (i + 1)).count (.run id) := List.count_pos_iff.2 hm
  have h3 : Event.register id ∈ es.take (i + 1) := List.count_pos_iff.1 (by omega)
  obtain ⟨j, hj⟩ := List.mem_iff_getElem?.1 h3
  rw [List.getElem?_take] at hj
  split at hj
  · have := hnum j id hj
    subst this
    refine ⟨?_, hj⟩
    by_cases hji : id = i
    · subst hji
      rw [hi] at hj
      cases hj
    · omega
  · cases hj

/-! What is returned is not changed. -/

@[simp] theorem swapped_setStack (st : State P) (l : List Ref) : (st.setStack l).swapped = st.swapped := by
  unfold State.setStack
  split <;> rfl

@[simp] theorem stack_setStack (st : State P) (l : List Ref) : (st.setStack l).stack = l := by
  unfold State.stack
  rw [swapped_setStack]
  unfold State.setStack
  split <;> rfl

theorem stack_setStatus (st : State P) (s : Status) : (st.setStatus s).stack = st.stack := rfl

theorem exitE_not_ok (sem : Sem P) (n : Nat) (e : Value) (st st' : State P) : exec sem n (.exitE e) st ≠ some (.ok st') := by
  induction n generalizing e st with
  | zero => simp [exec]
  | succ n ih =>
    simp only [exec, step]
    split
    · simp
    · rename_i s ss hs
      cases s.defers.getLast? with
      | none => simp
      | some d =>
        simp only [onOut]
        split
        · unfold expectNext
          split
          · exact ih _ _
          · simp
        · exact ih _ _
        · rename_i o h1 h2
          exact h1 st'

theorem exitN_ok (sem : Sem P) (n : Nat) (saved : Ref) (status : Status) (st st' : State P)
    (h : exec sem n (.exitN saved status) st = some (.ok st')) :
    st'.status = status ∧ (saved ≠ .invalid → ∃ l, st'.stack = saved :: l) := by
  induction n generalizing st with
  | zero => simp [exec] at h
  | succ n ih =>
    simp only [exec, step] at h
    split at h
    · cases h
    · rename_i s ss hs
      cases hd : s.defers.getLast? with
      | none =>
        rw [hd] at h
        cases h
        refine ⟨rfl, fun hne => ?_⟩
        cases saved with
        | invalid => exact absurd rfl hne
        | _ => exact ⟨st.stack, by simp only [stack_setStatus, State.push, stack_setStack]⟩
      | some d =>
        rw [hd] at h
        simp only [onOut] at h
        split at h
        · unfold expectNext at h
          split at h
          · exact ih _ h
          · cases h
        · exact absurd h (exitE_not_ok _ _ _ _ _)
        · rename_i o h1 h2
          exact absurd h (h1 st')

/-- Deferred expressions do not change how a scope is left: the status, and the reference that is returned. -/
theorem C46_result (sem : Sem P) (st st' : State P) (h : Runs sem .exit st (.ok st')) :
    st'.status = st.status ∧
    (st.status = .ret → ∀ r l, st.stack = r :: l → ∃ l', st'.stack = r :: l') := by
  obtain ⟨n, hn⟩ := h
  cases n with
  | zero => simp [exec] at hn
  | succ n =>
    simp only [exec, step] at hn
    split at hn
    · cases hn
    · rename_i s ss hs
      split at hn
      · cases hn
        exact ⟨rfl, fun _ r l hl => ⟨l, hl⟩⟩
      · split at hn
        · rename_i hret
          unfold withTop at hn
          cases hst : st.stack with
          | nil => rw [hst] at hn; cases hn
          | cons r l =>
            rw [hst] at hn
            simp only at hn
            have key : ∀ r', r' ≠ .invalid → exec sem n (.exitN r' st.status) (st.setStack (.invalid :: l)) = some (.ok st') →
                r = r' → st'.status = st.status ∧ (st.status = .ret → ∀ r₁ l₁, r :: l = r₁ :: l₁ → ∃ l', st'.stack = r₁ :: l') := by
              intro r' hne hx hrr
              obtain ⟨h1, h2⟩ := exitN_ok sem n _ _ _ _ hx
              refine ⟨h1, fun _ r₁ l₁ hl => ?_⟩
              cases hl
              rw [hrr]
              exact h2 hne
            cases r with
            | ptc id =>
              simp only at hn
              split at hn
              · cases hn
                refine ⟨rfl, fun _ r₁ l₁ hl => ?_⟩
                cases hl
                refine ⟨l, ?_⟩
                rw [← hst]
                simp only [State.stack, State.log, State.swapped, hs]
                cases s.swapped <;> rfl
              · cases hn
            | invalid => cases hn
            | void => exact key _ (by simp) hn rfl
            | temp v subs => exact key _ (by simp) hn rfl
            | var v subs => exact key _ (by simp) hn rfl
        · rename_i hret
          obtain ⟨h1, -⟩ := exitN_ok sem n _ _ _ _ hn
          exact ⟨h1, fun hr => absurd hr hret⟩

/-- An exception is not swallowed by deferred expressions. -/
theorem C46_exception (sem : Sem P) (e : Value) (st st' : State P) : ¬ Runs sem (.exitE e) st (.ok st') := by
  rintro ⟨n, hn⟩
  exact exitE_not_ok sem n e st st' hn

section examples
open Demo

/-- `{ defer say 1; { defer say 2; defer say 3; } say 4; throw 5; }` as a function. -/
def deferDemo : State Prim := outside [.inst [] false
  [.deferE [say 1], .block [.deferE [say 2], .deferE [say 3], say 9], say 4, .pushConst (.int 5), .throwS]]

example : Fresh deferDemo := ⟨rfl, by simp [deferDemo, outside, start]⟩

example : see (exec sem 40 (.enter 0 .void []) deferDemo) = .exc [9, 3, 2, 4, 1] (some 5) ∧
    record (exec sem 40 (.enter 0 .void []) deferDemo) =
      [.enter, .register 1, .enter, .register 3, .register 4, .done, .run 4, .run 3, .leave, .done, .run 1, .leave] := by
  decide +kernel

/-- A value is returned past deferred expressions. -/
example : returned (exec sem 40 (.enter 0 .void []) (outside [.inst [] false
    [.deferE [say 1, .clearStack, .prim .count], .returnConst (.int 42)]])) = some (some 42) := by
  decide +kernel

end examples

/-! ## C47 -/

section tailcalls
open Demo

/-- `func f() { defer say 1; { defer say 2; return g(); } }` with a proper tail call. -/
def tailDemo : State Prim := outside [.native (.say 3), .inst [] false
  [.deferE [say 1], .block [.deferE [say 2], .pushConst (.func 0), .funcCall 0 .byVal]]]

/-- **C47 is false.**  The deferred expression of the outer scope is run before that of the inner scope. -/
theorem C47_false : ∃ (st : State Prim) (r : Ref) (st' st'' : State Prim), Fresh st ∧
    Runs sem (.enter 1 .void []) st (.ok st') ∧ st'.result = r ∧ Runs sem (.check r) st' (.ok st'') ∧
    st''.trace = [.enter, .register 1, .enter, .register 3, .done, .handoff 0, .leave, .done, .handoff 0, .leave,
      .resume 0, .run 1, .run 3, .leave] ∧
    Todo.empty.eventsOuterLast st''.trace = none := by
  refine ⟨tailDemo, .ptc 0, _, _, ⟨rfl, by simp [tailDemo, outside, start]⟩, ⟨40, rfl⟩, rfl, ⟨40, rfl⟩, ?_, ?_⟩
  · decide +kernel
  · rfl

/-- Without the tail call, the inner one is run first. -/
example : see (exec sem 40 (.enter 1 .void []) (outside [.native (.say 3), .inst [] false
    [.deferE [say 1], .block [.deferE [say 2], .pushConst (.func 0), .funcCall 0 .none, .returnS false false]]]))
    = .ok [3, 2, 1] .next := by decide +kernel

end tailcalls

/-- Only one scope leaves deferred expressions to each tail call. -/
def SingleHandoff (es : List Event) : Prop := ∀ p, es.count (.handoff p) ≤ 1

theorem eventsOuterLast_of_single {c c' : Todo} {es : List Event} (hc : c.events es = some c')
    (h : ∀ p, es.count (.handoff p) ≤ 1) (h0 : ∀ p, Event.handoff p ∈ es → c.parked p = []) :
    c.eventsOuterLast es = some c' := by
  induction es generalizing c with
  | nil => exact hc
  | cons e es ih =>
    simp only [Todo.events] at hc
    cases he : c.event e with
    | none => rw [he] at hc; cases hc
    | some d =>
      rw [he] at hc
      have hcount : ∀ p, es.count (.handoff p) ≤ 1 := fun p => le_trans List.count_le_count_cons (h p)
      have hpark : ∀ p, Event.handoff p ∈ es → d.parked p = [] := by
        intro p hp
        have hcp := h0 p (List.mem_cons_of_mem _ hp)
        cases e with
        | enter => cases he; exact hcp
        | handoff q =>
          by_cases hpq : q = p
          · subst hpq
            have := h q
            rw [List.count_cons_self] at this
            have := List.count_pos_iff.2 hp
            omega
          · simp only [Todo.event] at he
            split at he <;> cases he
            simp [Ne.symm hpq, hcp]
        | resume q =>
          cases he
          simp only
          split
          · rfl
          · exact hcp
        | run i =>
          simp only [Todo.event] at he
          split at he
          · split at he <;> cases he
            exact hcp
          · cases he
        | _ =>
          simp only [Todo.event] at he
          split at he <;> cases he
          exact hcp
      have hstep : c.eventOuterLast e = some d := by
        cases e with
        | handoff p =>
          have := h0 p (by simp)
          simp only [Todo.eventOuterLast]
          simp only [Todo.event] at he
          split at he
          · cases he
            simp [this]
          · cases he
        | _ => exact he
      simp only [Todo.eventsOuterLast, hstep]
      exact ih hc hcount hpark

/-- **C47, partial.**  If at most one scope leaves deferred expressions to each tail call, then they are run in the
order in which they would have been run without it.  Missing: several nested scopes, where this is false
(`C47_false`). -/
theorem C47_partial (sem : Sem P) (f : Nat) (self : Ref) (args : List Ref) (st : State P) (hs : Fresh st) (o : Out P)
    (h : Runs sem (.enter f self args) st o) (es : List Event) (he : o.trace? = some es) (h1 : SingleHandoff es) :
    ∃ c, Todo.empty.eventsOuterLast es = some c ∧ c.scopes = [] := by
  obtain ⟨c, hc, hcs⟩ := C46_accepted sem f self args st hs o h es he
  exact ⟨c, eventsOuterLast_of_single hc h1 (fun _ _ => rfl), hcs⟩

/-- The same for the tail calls themselves, which are done when the result of the call is used. -/
theorem C47_use_partial (sem : Sem P) (names : List (Name × Ref)) (body : List (Node P)) (st : State P) (hs : Fresh st)
    (o : Out P) (h : Runs sem (.within names (.rod body)) st o) (es : List Event) (he : o.trace? = some es)
    (h1 : SingleHandoff es) : ∃ c, Todo.empty.eventsOuterLast es = some c ∧ c.scopes = [] := by
  obtain ⟨⟨c, hc, hcs⟩, -⟩ := accepted_of_whole rfl hs h he
  exact ⟨c, eventsOuterLast_of_single hc h1 (fun _ _ => rfl), hcs⟩

section examples
open Demo

/-- A function that calls another one, which ends with a tail call with deferred expressions. -/
def tailOne : State Prim := outside [.native (.say 3),
  .inst [] false [.deferE [say 1], .deferE [say 2], .pushConst (.func 0), .funcCall 0 .byVal],
  .inst [] false [.deferE [say 5], .pushConst (.func 1), .funcCall 0 .none, say 4]]

example : see (exec sem 60 (.enter 2 .void []) tailOne) = .ok [3, 2, 1, 4, 5] .next ∧
    record (exec sem 60 (.enter 2 .void []) tailOne) =
      [.enter, .register 1, .enter, .register 3, .register 4, .done, .handoff 0, .leave, .resume 0, .run 4, .run 3, .leave,
       .done, .run 1, .leave] := by
  decide +kernel

end examples

end Asteria.Exec
