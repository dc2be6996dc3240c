import Verif.Proof.Exec
import Verif.Spec.Defer

/-! Deferred expressions: the record of an execution is accepted by `Spec.Todo`. -/

namespace Asteria.Exec

open Spec (Todo)

variable {P : Type} {tr : Prop} {fl : Bool}

theorem events_append (c : Todo) (es : List Event) (e : Event) :
    c.events (es ++ [e]) = (c.events es).bind fun c => c.event e := by
  induction es generalizing c with
  | nil => simp [Todo.events]
  | cons a es ih =>
    simp only [List.cons_append, Todo.events]
    cases c.event a with
    | none => rfl
    | some c => exact ih c

/-- The numbers of the deferred expressions, latest first. -/
def ids (l : List (Nat × List (Node P))) : List Nat := (l.map Prod.fst).reverse

/-- The deferred expressions of the pending tail calls. -/
def parked (ptcs : List (PtcArgs P)) (p : Nat) : List Nat :=
  match ptcs[p]? with
  | none => []
  | some a => ids a.defers

/-- Nothing to do. -/
def idle : Todo := ⟨[], fun _ => []⟩

/-- Registrations are numbered by their positions in the record. -/
def Numbered (es : List Event) : Prop := ∀ i id, es[i]? = some (Event.register id) → id = i

theorem Numbered.concat {es : List Event} (h : Numbered es) {e : Event} (he : ∀ id, e = .register id → id = es.length) :
    Numbered (es ++ [e]) := by
  intro i id hi
  by_cases hlt : i < es.length
  · rw [List.getElem?_append_left hlt] at hi
    exact h i id hi
  · rw [List.getElem?_append_right (by omega)] at hi
    have : i = es.length := by
      by_cases heq : i - es.length = 0
      · omega
      · rw [List.getElem?_eq_none (by simp; omega)] at hi
        cases hi
    subst this
    simp at hi
    exact he id hi

/-- The record leaves `X` to do.  This is left out if `tr` is false. -/
def Agree (tr : Prop) (X : List (Bool × List Nat)) (st : State P) : Prop :=
  tr → idle.events st.trace = some ⟨X, parked st.ptcs⟩ ∧ Numbered st.trace

/-- The current context has the parents `ss`, and the record agrees with its deferred expressions. -/
def Loc (tr : Prop) (fl : Bool) (X : List (Bool × List Nat)) (ss : List (Scope P)) (st : State P) : Prop :=
  ∃ s, st.scopes = s :: ss ∧ Agree tr ((fl, ids s.defers) :: X) st

/-- An outcome. -/
def LocOut (tr : Prop) (fl : Bool) (X : List (Bool × List Nat)) (ss : List (Scope P)) : Out P → Prop
  | .ok st => Loc tr fl X ss st
  | .exc _ st => Loc tr fl X ss st
  | .ub => True

/-- All outcomes. -/
structure Sat (o : Option (Out P)) (Q : Out P → Prop) : Prop where
  app : ∀ x, o = some x → Q x

theorem Sat.imp {o : Option (Out P)} {Q Q' : Out P → Prop} (h : Sat o Q) (hq : ∀ x, Q x → Q' x) : Sat o Q' :=
  ⟨fun x hx => hq x (h.app x hx)⟩

theorem Sat.ub {Q : Out P → Prop} (h : Q .ub) : Sat (some .ub) Q := ⟨fun x hx => by cases hx; exact h⟩
theorem Sat.ok {Q : Out P → Prop} {st : State P} (h : Q (.ok st)) : Sat (some (.ok st)) Q :=
  ⟨fun x hx => by cases hx; exact h⟩
theorem Sat.exc {Q : Out P → Prop} {e : Value} {st : State P} (h : Q (.exc e st)) : Sat (some (.exc e st)) Q :=
  ⟨fun x hx => by cases hx; exact h⟩

theorem Sat.onOut {o : Option (Out P)} {R Q : Out P → Prop} {k : State P → Option (Out P)}
    {h : Value → State P → Option (Out P)} (ho : Sat o R) (hu : Q .ub) (hk : ∀ st, R (.ok st) → Sat (k st) Q)
    (hh : ∀ e st, R (.exc e st) → Sat (h e st) Q) : Sat (Exec.onOut o k h) Q := by
  refine ⟨fun x hx => ?_⟩
  rcases o with _ | o
  · simp [Exec.onOut] at hx
  · cases o with
    | ok st => exact (hk st (ho.app _ rfl)).app x hx
    | exc e st => exact (hh e st (ho.app _ rfl)).app x hx
    | ub =>
      have : x = .ub := by simpa [Exec.onOut] using hx.symm
      rw [this]; exact hu

section
variable {X : List (Bool × List Nat)} {ss : List (Scope P)}

theorem LSat.ub : Sat (some .ub) (LocOut tr fl X ss) := Sat.ub trivial
theorem LSat.ok {st : State P} (h : Loc tr fl X ss st) : Sat (some (.ok st)) (LocOut tr fl X ss) := Sat.ok h
theorem LSat.exc {e : Value} {st : State P} (h : Loc tr fl X ss st) : Sat (some (.exc e st)) (LocOut tr fl X ss) := Sat.exc h

theorem LSat.onOut {o : Option (Out P)} {k : State P → Option (Out P)}
    {h : Value → State P → Option (Out P)} (ho : Sat o (LocOut tr fl X ss))
    (hk : ∀ st, Loc tr fl X ss st → Sat (k st) (LocOut tr fl X ss))
    (hh : ∀ e st, Loc tr fl X ss st → Sat (h e st) (LocOut tr fl X ss)) : Sat (Exec.onOut o k h) (LocOut tr fl X ss) :=
  Sat.onOut ho trivial hk hh

theorem LSat.andThen {o : Option (Out P)} {k : State P → Option (Out P)} (ho : Sat o (LocOut tr fl X ss))
    (hk : ∀ st, Loc tr fl X ss st → Sat (k st) (LocOut tr fl X ss)) : Sat (Exec.andThen o k) (LocOut tr fl X ss) :=
  LSat.onOut ho hk fun _ _ h => Sat.exc h

theorem LSat.handle {o : Option (Out P)} {h : Value → State P → Option (Out P)} (ho : Sat o (LocOut tr fl X ss))
    (hh : ∀ e st, Loc tr fl X ss st → Sat (h e st) (LocOut tr fl X ss)) : Sat (Exec.handle o h) (LocOut tr fl X ss) :=
  LSat.onOut ho (fun _ h => Sat.ok h) hh

theorem LSat.withValue {st : State P} {r : Res Value} {k : Value → Option (Out P)} (hs : Loc tr fl X ss st)
    (hk : ∀ v, Sat (k v) (LocOut tr fl X ss)) : Sat (Exec.withValue st r k) (LocOut tr fl X ss) := by
  cases r with
  | ok v => exact hk v
  | throw => exact Sat.exc hs
  | ub => exact Sat.ub trivial

theorem LSat.withTop {st : State P} {k : Ref → List Ref → Option (Out P)}
    (hk : ∀ r l, Sat (k r l) (LocOut tr fl X ss)) : Sat (Exec.withTop st k) (LocOut tr fl X ss) := by
  unfold Exec.withTop
  cases st.stack with
  | nil => exact Sat.ub trivial
  | cons r l => exact hk r l

theorem LSat.expectNext {st : State P} {k : Option (Out P)} (hk : Sat k (LocOut tr fl X ss)) :
    Sat (Exec.expectNext st k) (LocOut tr fl X ss) := by
  unfold Exec.expectNext
  split
  · exact hk
  · exact Sat.ub trivial

theorem LSat.ite {c : Prop} [Decidable c] {a b : Option (Out P)} (ha : Sat a (LocOut tr fl X ss))
    (hb : Sat b (LocOut tr fl X ss)) : Sat (if c then a else b) (LocOut tr fl X ss) := by
  split
  · exact ha
  · exact hb

/-! Parts of the state that are left alone. -/

@[simp] theorem setStack_trace (st : State P) (l) : (st.setStack l).trace = st.trace := by
  unfold State.setStack; split <;> rfl
@[simp] theorem setStack_scopes (st : State P) (l) : (st.setStack l).scopes = st.scopes := by
  unfold State.setStack; split <;> rfl
@[simp] theorem setStack_ptcs (st : State P) (l) : (st.setStack l).ptcs = st.ptcs := by
  unfold State.setStack; split <;> rfl
@[simp] theorem setAlt_trace (st : State P) (l) : (st.setAlt l).trace = st.trace := by
  unfold State.setAlt; split <;> rfl
@[simp] theorem setAlt_scopes (st : State P) (l) : (st.setAlt l).scopes = st.scopes := by
  unfold State.setAlt; split <;> rfl
@[simp] theorem setAlt_ptcs (st : State P) (l) : (st.setAlt l).ptcs = st.ptcs := by
  unfold State.setAlt; split <;> rfl
@[simp] theorem push_trace (st : State P) (r) : (st.push r).trace = st.trace := setStack_trace _ _
@[simp] theorem push_scopes (st : State P) (r) : (st.push r).scopes = st.scopes := setStack_scopes _ _
@[simp] theorem push_ptcs (st : State P) (r) : (st.push r).ptcs = st.ptcs := setStack_ptcs _ _
@[simp] theorem setStatus_trace (st : State P) (s) : (st.setStatus s).trace = st.trace := rfl
@[simp] theorem setStatus_scopes (st : State P) (s) : (st.setStatus s).scopes = st.scopes := rfl
@[simp] theorem setStatus_ptcs (st : State P) (s) : (st.setStatus s).ptcs = st.ptcs := rfl
@[simp] theorem newVar_trace (st : State P) : (newVar st).2.trace = st.trace := rfl
@[simp] theorem newVar_scopes (st : State P) : (newVar st).2.scopes = st.scopes := rfl
@[simp] theorem newVar_ptcs (st : State P) : (newVar st).2.ptcs = st.ptcs := rfl
@[simp] theorem initVar_trace (st : State P) (i v b) : (initVar st i v b).trace = st.trace := rfl
@[simp] theorem initVar_scopes (st : State P) (i v b) : (initVar st i v b).scopes = st.scopes := rfl
@[simp] theorem initVar_ptcs (st : State P) (i v b) : (initVar st i v b).ptcs = st.ptcs := rfl
@[simp] theorem modScope_trace (st : State P) (f) : (st.modScope f).trace = st.trace := by
  unfold State.modScope; split <;> rfl
@[simp] theorem modScope_ptcs (st : State P) (f) : (st.modScope f).ptcs = st.ptcs := by
  unfold State.modScope; split <;> rfl

theorem Loc.congr {st st' : State P} (h : Loc tr fl X ss st) (h1 : st'.trace = st.trace) (h2 : st'.scopes = st.scopes)
    (h3 : st'.ptcs = st.ptcs) : Loc tr fl X ss st' := by
  obtain ⟨s, hs, ha⟩ := h
  refine ⟨s, h2.trans hs, ?_⟩
  unfold Agree at *
  rw [h1, h3]
  exact ha

theorem Loc.modScope {st : State P} (h : Loc tr fl X ss st) {f : Scope P → Scope P} (hf : ∀ s, (f s).defers = s.defers) :
    Loc tr fl X ss (st.modScope f) := by
  obtain ⟨s, hs, ha⟩ := h
  refine ⟨f s, ?_, ?_⟩
  · simp [State.modScope, hs]
  · unfold Agree at *
    rw [hf]
    simpa using ha

theorem Loc.setStack {st : State P} (h : Loc tr fl X ss st) (l) : Loc tr fl X ss (st.setStack l) :=
  h.congr (by simp) (by simp) (by simp)
theorem Loc.setAlt {st : State P} (h : Loc tr fl X ss st) (l) : Loc tr fl X ss (st.setAlt l) :=
  h.congr (by simp) (by simp) (by simp)
theorem Loc.push {st : State P} (h : Loc tr fl X ss st) (r) : Loc tr fl X ss (st.push r) :=
  h.congr (by simp) (by simp) (by simp)
theorem Loc.setStatus {st : State P} (h : Loc tr fl X ss st) (s) : Loc tr fl X ss (st.setStatus s) :=
  h.congr (by simp) (by simp) (by simp)
theorem Loc.newVar {st : State P} (h : Loc tr fl X ss st) : Loc tr fl X ss (Exec.newVar st).2 :=
  h.congr (by simp) (by simp) (by simp)
theorem Loc.initVar {st : State P} (h : Loc tr fl X ss st) (i v b) : Loc tr fl X ss (Exec.initVar st i v b) :=
  h.congr (by simp) (by simp) (by simp)

theorem Agree.log {st st' : State P} {e : Event} {Y : List (Bool × List Nat)} (h : Agree tr X st)
    (he : (⟨X, parked st.ptcs⟩ : Todo).event e = some ⟨Y, parked st'.ptcs⟩)
    (h1 : st'.trace = st.trace ++ [e]) (hn : ∀ id, e = .register id → id = st.trace.length := by simp) : Agree tr Y st' := by
  intro ht
  rw [h1, events_append, (h ht).1]
  exact ⟨he, (h ht).2.concat hn⟩

theorem Loc.register {st : State P} (h : Loc tr fl X ss st) (b : List (Node P)) :
    Loc tr fl X ss ((st.modScope fun s => { s with defers := s.defers ++ [(st.trace.length, b)] }).log
      (.register st.trace.length)) := by
  obtain ⟨s, hs, ha⟩ := h
  refine ⟨{ s with defers := s.defers ++ [(st.trace.length, b)] }, ?_, ha.log (e := .register st.trace.length) ?_ ?_⟩
  · simp [State.log, State.modScope, hs]
  · simp [State.log, Todo.event, ids]
  · simp [State.log]

theorem Loc.done {st : State P} (h : Loc tr false X ss st) : Loc tr true X ss (st.log .done) := by
  obtain ⟨s, hs, ha⟩ := h
  exact ⟨s, hs, ha.log (e := .done) (by simp [Todo.event, State.log]) rfl⟩

theorem Loc.setKey {st : State P} (h : Loc tr fl X ss st) (n v) : Loc tr fl X ss (Exec.setKey st n v) := by
  unfold Exec.setKey
  split
  · exact h.initVar _ _ _
  · exact Loc.initVar (Loc.modScope h.newVar (by intro _; rfl)) _ _ _

theorem Loc.bindElement {st : State P} (h : Loc tr fl X ss st) (kn mn r e) : Loc tr fl X ss (Exec.bindElement kn mn r e st) := by
  unfold Exec.bindElement
  apply Loc.modScope _ (by intro _; rfl)
  cases kn with
  | none => exact h
  | some n => exact h.setKey _ _

end

/-! The pieces -/

/-- The pieces after which the current context has no deferred expression left. -/
def Task.exits : Task P → Bool
  | .exit => true
  | .exitN .. => true
  | .exitE .. => true
  | _ => false

/-- The pieces that may change the current context. -/
def Task.inside : Task P → Bool
  | .within .. => false
  | .call .. => false
  | .enter .. => false
  | .check .. => false
  | .unpack .. => false
  | .framesN .. => false
  | .framesE .. => false
  | .exit => false
  | .exitN .. => false
  | .exitE .. => false
  | _ => true

/-- The pieces that do not change the current context. -/
def Task.whole : Task P → Bool
  | .within _ t => t.whole || t.inside
  | .call .. => true
  | .enter .. => true
  | .check .. => true
  | .unpack .. => true
  | .framesN .. => true
  | .framesE .. => true
  | _ => false

/-- What a piece leaves behind that does not change the current context. -/
def WholeOut (tr : Prop) (X : List (Bool × List Nat)) (scopes : List (Scope P)) : Out P → Prop
  | .ok st => st.scopes = scopes ∧ Agree tr X st
  | .exc _ st => st.scopes = scopes ∧ Agree tr X st
  | .ub => True

/-- A correct execution of pieces. -/
structure Good (tr : Prop) (rec : Task P → State P → Option (Out P)) : Prop where
  whole : ∀ t X st, t.whole = true → Agree tr X st → Sat (rec t st) (WholeOut tr X st.scopes)
  local_ : ∀ t fl X ss st, t.inside = true → Loc tr fl X ss st → Sat (rec t st) (LocOut tr fl X ss)
  exits : ∀ t X ss st, t.exits = true → Loc tr true X ss st → Sat (rec t st) fun
    | .ok st => ∃ s, st.scopes = s :: ss ∧ s.defers = [] ∧ Agree tr ((true, []) :: X) st
    | .exc _ st => ∃ s, st.scopes = s :: ss ∧ s.defers = [] ∧ Agree tr ((true, []) :: X) st
    | .ub => True

theorem Good.loc {rec : Task P → State P → Option (Out P)} (hr : Good tr rec) {X : List (Bool × List Nat)} {ss : List (Scope P)}
    {st : State P} (t : Task P) (he : (t.whole || t.inside) = true) (h : Loc tr fl X ss st) : Sat (rec t st) (LocOut tr fl X ss) := by
  cases hw : t.whole with
  | false => exact hr.local_ t fl X ss st (by simpa [hw] using he) h
  | true =>
    obtain ⟨s, hs, ha⟩ := h
    refine (hr.whole t _ st hw ha).imp ?_
    intro x hx
    cases x with
    | ok st' => exact ⟨s, hx.1.trans hs, hx.2⟩
    | exc e st' => exact ⟨s, hx.1.trans hs, hx.2⟩
    | ub => trivial

theorem Good.aside {rec : Task P → State P → Option (Out P)} (hr : Good tr rec) {X : List (Bool × List Nat)} {ss : List (Scope P)}
    {st : State P} (t : Task P) (hw : t.whole = true) (h : Loc tr fl X ss st) : Sat (Exec.aside rec t st) (LocOut tr fl X ss) := by
  obtain ⟨s, hs, ha⟩ := h
  unfold Exec.aside
  rw [hs]
  simp only
  have ha' : Agree tr ((fl, ids s.defers) :: X) ({ st with scopes := ss } : State P) := ha
  refine Sat.onOut (hr.whole t _ _ hw ha') trivial ?_ ?_
  · rintro st' ⟨h1, h2⟩
    exact LSat.ok ⟨s, by simp [h1], h2⟩
  · rintro e st' ⟨h1, h2⟩
    exact LSat.exc ⟨s, by simp [h1], h2⟩

/-- Closes goals about `Loc`. -/
macro "locs" : tactic => `(tactic| (
  repeat' first
    | assumption
    | with_reducible apply Loc.setStack
    | with_reducible apply Loc.setAlt
    | with_reducible apply Loc.push
    | with_reducible apply Loc.setStatus
    | with_reducible apply Loc.newVar
    | with_reducible apply Loc.initVar
    | with_reducible apply Loc.bindElement
    | (with_reducible apply Loc.modScope <;> (try (intro _; rfl)))
    | (refine Loc.congr (by assumption) rfl rfl rfl; done)))

/-- Closes goals about `LocOut`. -/
macro "lsat" hr:ident : tactic => `(tactic| (
  repeat' first
    | with_reducible exact LSat.ub
    | (with_reducible apply Good.loc $hr _ rfl; locs; done)
    | (with_reducible apply Good.aside $hr _ rfl; locs; done)
    | (with_reducible apply LSat.ok; locs; done)
    | (with_reducible apply LSat.exc; locs; done)
    | with_reducible apply LSat.andThen
    | with_reducible apply LSat.handle
    | with_reducible apply LSat.onOut
    | with_reducible apply LSat.withTop
    | (with_reducible apply LSat.withValue; focus (locs; done))
    | with_reducible apply LSat.expectNext
    | with_reducible apply LSat.ite
    | (intro _)
    | split))

theorem Good.runNode {sem : Sem P} {rec : Task P → State P → Option (Out P)} (hr : Good tr rec) {X : List (Bool × List Nat)}
    {ss : List (Scope P)} (n : Node P) {st : State P} (hl : Loc tr fl X ss st) :
    Sat (Exec.runNode sem rec n st) (LocOut tr fl X ss) := by
  cases n with
  | defineFunc ps va b =>
    simp only [Exec.runNode]
    cases rebindAll (none :: contexts st) b with
    | ok b' => apply LSat.ok; apply Loc.push; exact hl.congr rfl rfl rfl
    | throw => exact LSat.exc hl
    | ub => exact LSat.ub
  | prim p =>
    simp only [Exec.runNode]
    cases sem.prim p st.world st.stack with
    | ok w l => apply LSat.ok; apply Loc.setStack; exact hl.congr rfl rfl rfl
    | throw e w l => apply LSat.exc; apply Loc.setStack; exact hl.congr rfl rfl rfl
    | ub => exact LSat.ub
  | deferE b =>
    simp only [Exec.runNode]
    cases rebindAll (contexts st) b with
    | ok b' => exact LSat.ok (Loc.register hl _)
    | throw => exact LSat.exc hl
    | ub => exact LSat.ub
  | _ =>
    simp only [Exec.runNode]
    lsat hr

theorem parked_append (l : List (PtcArgs P)) (a : PtcArgs P) (ha : a.defers = []) : parked (l ++ [a]) = parked l := by
  funext p
  unfold parked
  by_cases h : p < l.length
  · rw [List.getElem?_append_left h]
  · rw [List.getElem?_append_right (by omega), List.getElem?_eq_none (l := l) (by omega)]
    cases hk : p - l.length with
    | zero => simp [ha, ids]
    | succ k => simp

theorem Good.step_local {sem : Sem P} {rec : Task P → State P → Option (Out P)} (hr : Good tr rec) {X : List (Bool × List Nat)}
    {ss : List (Scope P)} (t : Task P) (hw : t.inside = true) {st : State P} (hl : Loc tr fl X ss st) :
    Sat (Exec.step sem rec t st) (LocOut tr fl X ss) := by
  cases t with
  | within => cases hw
  | call => cases hw
  | enter => cases hw
  | check => cases hw
  | unpack => cases hw
  | framesN => cases hw
  | framesE => cases hw
  | exit => cases hw
  | exitN => cases hw
  | exitE => cases hw
  | node n => exact Good.runNode hr n hl
  | seq l => cases l <;> simp only [Exec.step] <;> lsat hr
  | find c r k t a => cases r <;> simp only [Exec.step] <;> lsat hr
  | clauses l => cases l <;> simp only [Exec.step] <;> lsat hr
  | eachL l => cases l <;> simp only [Exec.step] <;> lsat hr
  | sub a c =>
    rcases c with _ | ⟨c, cs⟩
    · simp only [Exec.step]
      lsat hr
    · simp only [Exec.step]
      apply LSat.ite
      · apply LSat.andThen (hr.loc _ rfl hl)
        intro st' hl'
        apply LSat.expectNext
        apply LSat.withTop
        intro r l
        apply LSat.withValue hl'
        intro v
        rcases l with _ | ⟨r1, l⟩
        · exact LSat.ub
        · simp only
          split
          · apply LSat.ok; apply Loc.setStack; exact hl'.congr rfl rfl rfl
          · apply LSat.exc; exact hl'.congr rfl rfl rfl
          · exact LSat.ub
      · lsat hr
  | tailOrCall ptc f =>
    simp only [Exec.step]
    apply LSat.withTop
    intro r l
    apply LSat.ite
    · lsat hr
    · apply LSat.ok
      apply Loc.setStatus
      apply Loc.setAlt
      apply Loc.setStack
      obtain ⟨s, hs, ha⟩ := hl
      refine ⟨s, hs, ?_⟩
      unfold Agree at *
      rw [parked_append _ _ rfl]
      exact ha
  | _ =>
    simp only [Exec.step]
    lsat hr

/-- The current context has no deferred expression left. -/
def DoneOut (tr : Prop) (X : List (Bool × List Nat)) (ss : List (Scope P)) : Out P → Prop
  | .ok st => ∃ s, st.scopes = s :: ss ∧ s.defers = [] ∧ Agree tr ((true, []) :: X) st
  | .exc _ st => ∃ s, st.scopes = s :: ss ∧ s.defers = [] ∧ Agree tr ((true, []) :: X) st
  | .ub => True

theorem ids_concat (l : List (Nat × List (Node P))) (d : Nat × List (Node P)) : ids (l ++ [d]) = d.1 :: ids l := by
  simp [ids]

theorem parked_handoff {ptcs : List (PtcArgs P)} {id : Nat} (h : id < ptcs.length) (ds : List (Nat × List (Node P))) :
    parked (ptcs.modify id fun p => { p with defers := p.defers ++ ds }) =
      fun q => if q = id then ids ds ++ parked ptcs id else parked ptcs q := by
  funext q
  unfold parked
  rw [List.getElem?_modify]
  by_cases hq : q = id
  · subst hq
    simp [h, ids]
  · rw [if_neg hq]
    have : ¬ id = q := fun e => hq e.symm
    cases ptcs[q]? <;> simp [this]

theorem parked_resume {ptcs : List (PtcArgs P)} {id : Nat} {p : PtcArgs P} (h : ptcs[id]? = some p) :
    parked (ptcs.modify id fun p => { p with defers := [] }) = fun q => if q = id then [] else parked ptcs q := by
  funext q
  unfold parked
  rw [List.getElem?_modify]
  by_cases hq : q = id
  · subst hq
    simp [h, ids]
  · rw [if_neg hq]
    have : ¬ id = q := fun e => hq e.symm
    cases ptcs[q]? <;> simp [this]

/-- A deferred expression is about to be run. -/
theorem Loc.pop {st : State P} {X : List (Bool × List Nat)} {s : Scope P} {ss : List (Scope P)} {d : Nat × List (Node P)}
    {ds : List (Nat × List (Node P))} (ha : Agree tr ((true, ids s.defers) :: X) st) (hd : s.defers = ds ++ [d]) :
    Loc tr true X ss (({ st with scopes := { s with defers := s.defers.dropLast } :: ss } : State P).log (.run d.1)) := by
  refine ⟨_, rfl, Agree.log ha (e := .run d.1) ?_ rfl⟩
  simp [hd, ids_concat, Todo.event, State.log]

theorem getLast?_some {α : Type} {l : List α} {d : α} (h : l.getLast? = some d) : ∃ ds, l = ds ++ [d] := by
  exact List.getLast?_eq_some_iff.1 h

theorem Good.step_exits {sem : Sem P} {rec : Task P → State P → Option (Out P)} (hr : Good tr rec) {X : List (Bool × List Nat)}
    {ss : List (Scope P)} (t : Task P) (he : t.exits = true) {st : State P} (hl : Loc tr true X ss st) :
    Sat (Exec.step sem rec t st) (DoneOut tr X ss) := by
  obtain ⟨s, hs, ha⟩ := hl
  have hex : ∀ (t : Task P) st, t.exits = true → Loc tr true X ss st → Sat (rec t st) (DoneOut tr X ss) :=
    fun t st ht h => (hr.exits t X ss st ht h).imp fun x hx => by cases x <;> exact hx
  cases t with
  | exit =>
    simp only [Exec.step, hs]
    split
    · rename_i h0
      have h0 := List.eq_nil_of_length_eq_zero h0
      apply Sat.ok
      exact ⟨s, hs, h0, by rw [h0] at ha; exact ha⟩
    · split
      · unfold withTop
        cases st.stack with
        | nil => exact Sat.ub trivial
        | cons r l =>
          simp only
          cases r with
          | ptc id =>
            simp only
            split
            · rename_i hid
              apply Sat.ok
              refine ⟨_, rfl, rfl, Agree.log ha (e := .handoff id) ?_ rfl⟩
              simp [Todo.event, State.log, parked_handoff hid]
            · exact Sat.ub trivial
          | invalid => exact Sat.ub trivial
          | void => exact hex _ _ rfl (Loc.setStack ⟨s, hs, ha⟩ _)
          | temp v subs => exact hex _ _ rfl (Loc.setStack ⟨s, hs, ha⟩ _)
          | var v subs => exact hex _ _ rfl (Loc.setStack ⟨s, hs, ha⟩ _)
      · exact hex _ _ rfl ⟨s, hs, ha⟩
  | exitN saved status =>
    simp only [Exec.step, hs]
    cases hd : s.defers.getLast? with
    | none =>
      have h0 := List.getLast?_eq_none_iff.1 hd
      rw [h0] at ha
      apply Sat.ok
      cases saved <;> refine ⟨s, ?_, h0, ?_⟩ <;> first | simpa using hs | exact ha | (unfold Agree at *; simpa [ids] using ha)
    | some d =>
      obtain ⟨ds, hds⟩ := getLast?_some hd
      refine Sat.onOut (hr.loc (X := X) (ss := ss) _ rfl (Loc.pop ha hds)) trivial ?_ ?_
      · intro st' h'
        unfold expectNext
        split
        · exact hex _ _ rfl h'
        · exact Sat.ub trivial
      · intro e st' h'
        exact hex _ _ rfl h'
  | exitE e =>
    simp only [Exec.step, hs]
    cases hd : s.defers.getLast? with
    | none =>
      have h0 := List.getLast?_eq_none_iff.1 hd
      rw [h0] at ha
      apply Sat.exc
      exact ⟨s, hs, h0, ha⟩
    | some d =>
      obtain ⟨ds, hds⟩ := getLast?_some hd
      refine Sat.onOut (hr.loc (X := X) (ss := ss) _ rfl (Loc.pop ha hds)) trivial ?_ ?_
      · intro st' h'
        unfold expectNext
        split
        · exact hex _ _ rfl h'
        · exact Sat.ub trivial
      · intro e st' h'
        exact hex _ _ rfl h'
  | _ => cases he

theorem Agree.leave {st st' : State P} {X : List (Bool × List Nat)} (h : Agree tr ((true, []) :: X) st) (h1 : st'.trace = st.trace ++ [.leave])
    (h2 : st'.ptcs = st.ptcs) : Agree tr X st' := by
  refine Agree.log h (e := .leave) ?_ h1
  simp [Todo.event, h2]

theorem Good.step_whole {sem : Sem P} {rec : Task P → State P → Option (Out P)} (hr : Good tr rec) {X : List (Bool × List Nat)}
    (t : Task P) (hw : t.whole = true) {st : State P} (ha : Agree tr X st) :
    Sat (Exec.step sem rec t st) (WholeOut tr X st.scopes) := by
  have hex : ∀ (t : Task P) X ss st, t.exits = true → Loc tr true X ss st → Sat (rec t st) (DoneOut tr X ss) :=
    fun t X ss st ht h => (hr.exits t X ss st ht h).imp fun x hx => by cases x <;> exact hx
  have hrw : ∀ (t : Task P) st', t.whole = true → Agree tr X st' → st'.scopes = st.scopes →
      Sat (rec t st') (WholeOut tr X st.scopes) := by
    intro t st' ht h hs
    have := hr.whole t X st' ht h
    rwa [hs] at this
  cases t with
  | within names t =>
    simp only [Exec.step]
    have h1 : Loc tr false X st.scopes (({ st with scopes := ⟨names, [], st.swapped⟩ :: st.scopes } : State P).log .enter) := by
      refine ⟨_, rfl, Agree.log ha (e := .enter) ?_ rfl⟩
      simp [Todo.event, ids, State.log]
    have hfin : ∀ (t : Task P) st', t.exits = true → Loc tr true X st.scopes st' →
        Sat (finish (rec t st') fun st => ({ st with scopes := st.scopes.tail } : State P).log .leave) (WholeOut tr X st.scopes) := by
      intro t st' ht h
      refine Sat.onOut (hex t X _ st' ht h) trivial ?_ ?_
      · rintro st'' ⟨s, hs, -, h'⟩
        apply Sat.ok
        exact ⟨by simp [State.log, hs], h'.leave rfl rfl⟩
      · rintro e st'' ⟨s, hs, -, h'⟩
        apply Sat.exc
        exact ⟨by simp [State.log, hs], h'.leave rfl rfl⟩
    refine Sat.onOut (hr.loc t hw h1) trivial ?_ ?_
    · intro st' h'
      exact hfin _ _ rfl h'.done
    · intro e st' h'
      exact hfin _ _ rfl h'.done
  | call names body =>
    simp only [Exec.step]
    refine Sat.onOut (hrw _ _ rfl ha rfl) trivial ?_ ?_
    · rintro st' ⟨h1, h2⟩
      unfold functionResult
      split
      · exact Sat.ok ⟨h1, h2⟩
      · exact Sat.ok ⟨h1, h2⟩
      · unfold withTop
        cases st'.stack with
        | nil => exact Sat.ub trivial
        | cons r l => exact Sat.ok ⟨h1, h2⟩
      · exact Sat.exc ⟨h1, h2⟩
    · rintro e st' ⟨h1, h2⟩
      exact Sat.exc ⟨h1, h2⟩
  | enter f self args =>
    simp only [Exec.step]
    split
    · exact Sat.ub trivial
    · split
      · exact Sat.ok ⟨rfl, ha⟩
      · exact Sat.exc ⟨rfl, ha⟩
      · exact Sat.ub trivial
    · split
      · exact Sat.exc ⟨rfl, ha⟩
      · refine Sat.onOut (hr.whole _ X _ rfl ?_) trivial ?_ ?_
        · exact ha
        · rintro st' ⟨h1, h2⟩
          exact Sat.ok ⟨rfl, h2⟩
        · rintro e st' ⟨h1, h2⟩
          exact Sat.exc ⟨rfl, h2⟩
  | check self =>
    cases self with
    | ptc id =>
      simp only [Exec.step]
      refine Sat.onOut (hrw _ _ rfl ha rfl) trivial ?_ ?_
      · rintro st' ⟨h1, h2⟩
        split
        · exact Sat.ok ⟨h1, h2⟩
        · exact Sat.exc ⟨h1, h2⟩
      · rintro e st' ⟨h1, h2⟩
        exact Sat.exc ⟨h1, h2⟩
    | _ =>
      simp only [Exec.step]
      split
      · exact Sat.ok ⟨rfl, ha⟩
      · exact Sat.exc ⟨rfl, ha⟩
  | unpack self frames =>
    cases self with
    | ptc id =>
      simp only [Exec.step]
      split
      · exact Sat.ub trivial
      · refine Sat.onOut (hrw _ _ rfl ha rfl) trivial ?_ ?_
        · rintro st' ⟨h1, h2⟩
          exact hrw _ _ rfl h2 h1
        · rintro e st' ⟨h1, h2⟩
          exact hrw _ _ rfl h2 h1
    | _ =>
      simp only [Exec.step]
      split
      · exact Sat.ub trivial
      · split
        · exact Sat.ub trivial
        · split
          · exact hrw _ _ rfl ha rfl
          · try split
            all_goals first
              | exact hrw _ _ rfl ha rfl
              | exact Sat.ub trivial
  | framesN frames value =>
    simp only [Exec.step]
    split
    · exact Sat.ok ⟨rfl, ha⟩
    · split
      · exact Sat.ub trivial
      · rename_i _ id frames _ p hp
        have key : ∀ st' : State P, st'.trace = st.trace → st'.ptcs = st.ptcs → st'.scopes = st.scopes →
            Sat (onOut (rec (.exitN .invalid .next) (({ st' with
              ptcs := st'.ptcs.modify id fun p => { p with defers := [] },
              scopes := [⟨[], p.defers, false⟩], stk0 := [], stk1 := [], status := .next } : State P).log (.resume id)))
              (fun st'' => rec (.framesN frames none) ({ restore st' st'' with result := st'.result }.log .leave))
              fun e st'' => rec (.framesE frames e) ((restore st' st'').log .leave)) (WholeOut tr X st.scopes) := by
          intro st' h1 h2 h3
          have ha' : Agree tr X st' := by unfold Agree at *; rw [h1, h2]; exact ha
          refine Sat.onOut (hex (.exitN .invalid .next) X [] _ rfl ?_) trivial ?_ ?_
          · refine ⟨_, rfl, Agree.log ha' (e := .resume id) ?_ rfl⟩
            rw [← h2] at hp
            simp [Todo.event, State.log, parked_resume hp]
            simp [parked, hp]
          · rintro st'' ⟨s, hs, -, h''⟩
            exact hrw _ _ rfl (h''.leave rfl rfl) h3
          · rintro e st'' ⟨s, hs, -, h''⟩
            exact hrw _ _ rfl (h''.leave rfl rfl) h3
        apply key
        · split <;> rfl
        · split <;> rfl
        · split <;> rfl
  | framesE frames e =>
    simp only [Exec.step]
    split
    · exact Sat.exc ⟨rfl, ha⟩
    · split
      · exact Sat.ub trivial
      · rename_i _ id frames _ p hp
        refine Sat.onOut (hex (.exitE e) X [] _ rfl ?_) trivial ?_ ?_
        · refine ⟨_, rfl, Agree.log ha (e := .resume id) ?_ rfl⟩
          simp [Todo.event, State.log, parked_resume hp]
          simp [parked, hp]
        · intro st'' _
          exact Sat.ub trivial
        · rintro e st'' ⟨s, hs, -, h''⟩
          exact hrw _ _ rfl (h''.leave rfl rfl) rfl
  | _ => cases hw

theorem Good.step {sem : Sem P} {rec : Task P → State P → Option (Out P)} (hr : Good tr rec) : Good tr (Exec.step sem rec) := by
  refine ⟨fun t X st hw ha => hr.step_whole t hw ha, fun t fl X ss st hw hl => hr.step_local t hw hl, fun t X ss st he hl => ?_⟩
  exact (hr.step_exits t he hl).imp fun x hx => by cases x <;> exact hx

theorem good_exec (tr : Prop) (sem : Sem P) (n : Nat) : Good tr (exec sem n) := by
  induction n with
  | zero =>
    exact ⟨fun _ _ _ _ _ => ⟨fun x hx => by simp [exec] at hx⟩, fun _ _ _ _ _ _ _ => ⟨fun x hx => by simp [exec] at hx⟩,
      fun _ _ _ _ _ _ => ⟨fun x hx => by simp [exec] at hx⟩⟩
  | succ n ih => exact ih.step

end Asteria.Exec
