import Verif.Model.Exec

/-! Lemmas about the executions of `Verif.Model.Exec`. -/

namespace Asteria.Exec

variable {P : Type}

/-! ### More steps do not change an outcome -/

/-- `o'` is the outcome `o` if there is one. -/
structure Le (o o' : Option (Out P)) : Prop where
  app : ∀ x, o = some x → o' = some x

theorem Le.refl (o : Option (Out P)) : Le o o := ⟨fun _ h => h⟩

theorem Le.onOut {o o' : Option (Out P)} {k k' : State P → Option (Out P)} {h h' : Value → State P → Option (Out P)}
    (ho : Le o o') (hk : ∀ st, Le (k st) (k' st)) (hh : ∀ e st, Le (h e st) (h' e st)) :
    Le (Exec.onOut o k h) (Exec.onOut o' k' h') := by
  refine ⟨fun x hx => ?_⟩
  rcases o with _ | o
  · simp [Exec.onOut] at hx
  · rw [ho.app o rfl]
    cases o with
    | ok st => exact (hk st).app x hx
    | exc e st => exact (hh e st).app x hx
    | ub => exact hx

theorem Le.andThen {o o' : Option (Out P)} {k k' : State P → Option (Out P)}
    (ho : Le o o') (hk : ∀ st, Le (k st) (k' st)) : Le (Exec.andThen o k) (Exec.andThen o' k') :=
  Le.onOut ho hk fun _ _ => Le.refl _

theorem Le.handle {o o' : Option (Out P)} {h h' : Value → State P → Option (Out P)}
    (ho : Le o o') (hh : ∀ e st, Le (h e st) (h' e st)) : Le (Exec.handle o h) (Exec.handle o' h') :=
  Le.onOut ho (fun _ => Le.refl _) hh

theorem Le.finish {o o' : Option (Out P)} {k : State P → State P}
    (ho : Le o o') : Le (Exec.finish o k) (Exec.finish o' k) :=
  Le.onOut ho (fun _ => Le.refl _) fun _ _ => Le.refl _

theorem Le.withValue {st : State P} {r : Res Value} {k k' : Value → Option (Out P)}
    (hk : ∀ v, Le (k v) (k' v)) : Le (Exec.withValue st r k) (Exec.withValue st r k') := by
  cases r <;> first | exact hk _ | exact Le.refl _

theorem Le.withTop {st : State P} {k k' : Ref → List Ref → Option (Out P)}
    (hk : ∀ r l, Le (k r l) (k' r l)) : Le (Exec.withTop st k) (Exec.withTop st k') := by
  unfold Exec.withTop
  cases st.stack <;> first | exact hk _ _ | exact Le.refl _

theorem Le.expectNext {st : State P} {k k' : Option (Out P)}
    (hk : Le k k') : Le (Exec.expectNext st k) (Exec.expectNext st k') := by
  unfold Exec.expectNext
  split
  · exact hk
  · exact Le.refl _

theorem Le.ite {c : Prop} [Decidable c] {a a' b b' : Option (Out P)} (ha : Le a a') (hb : Le b b') :
    Le (if c then a else b) (if c then a' else b') := by
  split
  · exact ha
  · exact hb

theorem Le.aside {rec rec' : Task P → State P → Option (Out P)} (hr : ∀ t st, Le (rec t st) (rec' t st))
    (t : Task P) (st : State P) : Le (Exec.aside rec t st) (Exec.aside rec' t st) := by
  unfold Exec.aside
  cases st.scopes
  · exact Le.refl _
  · exact Le.finish (hr _ _)

/-- Closes goals about `Le`. -/
macro "mono" hr:ident : tactic => `(tactic| (
  repeat' first
    | with_reducible exact $hr _ _
    | with_reducible exact Le.refl _
    | with_reducible exact Le.aside $hr _ _
    | with_reducible apply Le.andThen
    | with_reducible apply Le.handle
    | with_reducible apply Le.finish
    | with_reducible apply Le.onOut
    | with_reducible apply Le.withTop
    | with_reducible apply Le.withValue
    | with_reducible apply Le.expectNext
    | with_reducible apply Le.ite
    | (intro _)
    | split))

theorem Le.runNode {sem : Sem P} {rec rec' : Task P → State P → Option (Out P)} (hr : ∀ t st, Le (rec t st) (rec' t st))
    (n : Node P) (st : State P) : Le (Exec.runNode sem rec n st) (Exec.runNode sem rec' n st) := by
  cases n <;> simp only [Exec.runNode] <;> mono hr

theorem Le.step {sem : Sem P} {rec rec' : Task P → State P → Option (Out P)} (hr : ∀ t st, Le (rec t st) (rec' t st))
    (t : Task P) (st : State P) : Le (Exec.step sem rec t st) (Exec.step sem rec' t st) := by
  cases t with
  | seq l => cases l <;> simp only [Exec.step] <;> mono hr
  | node n => exact Le.runNode hr n st
  | find c r k t a => cases r <;> simp only [Exec.step] <;> mono hr
  | clauses l => cases l <;> simp only [Exec.step] <;> mono hr
  | eachL l => cases l <;> simp only [Exec.step] <;> mono hr
  | _ => simp only [Exec.step]; mono hr

theorem exec_le_succ (sem : Sem P) (n : Nat) : ∀ t st, Le (exec sem n t st) (exec sem (n + 1) t st) := by
  induction n with
  | zero => intro t st; exact ⟨fun x hx => by simp [exec] at hx⟩
  | succ n ih => intro t st; exact Le.step ih t st

theorem exec_mono (sem : Sem P) {n m : Nat} (h : n ≤ m) (t : Task P) (st : State P) :
    Le (exec sem n t st) (exec sem m t st) := by
  induction h with
  | refl => exact Le.refl _
  | step _ ih => exact ⟨fun x hx => (exec_le_succ sem _ t st).app x (ih.app x hx)⟩

theorem Runs.det {sem : Sem P} {t : Task P} {st : State P} {o o' : Out P} (h : Runs sem t st o) (h' : Runs sem t st o') :
    o = o' := by
  obtain ⟨n, hn⟩ := h
  obtain ⟨m, hm⟩ := h'
  have h1 := (exec_mono sem (Nat.le_max_left n m) t st).app _ hn
  have h2 := (exec_mono sem (Nat.le_max_right n m) t st).app _ hm
  rw [h1] at h2
  exact Option.some.inj h2

/-! ### The outcome of an execution -/

/-- `g` is the limit of the growing outcomes `f`. -/
structure Cont (f : Nat → Option (Out P)) (g : Option (Out P)) : Prop where
  mono : ∀ n m, n ≤ m → Le (f n) (f m)
  lim : ∀ o, g = some o → ∃ n, f n = some o

theorem Cont.const (o : Option (Out P)) : Cont (fun _ => o) o := ⟨fun _ _ _ => Le.refl _, fun _ h => ⟨0, h⟩⟩

theorem Cont.onOut {f : Nat → Option (Out P)} {g : Option (Out P)} {k : Nat → State P → Option (Out P)}
    {k' : State P → Option (Out P)} {h : Nat → Value → State P → Option (Out P)} {h' : Value → State P → Option (Out P)}
    (hf : Cont f g) (hk : ∀ st, Cont (fun n => k n st) (k' st)) (hh : ∀ e st, Cont (fun n => h n e st) (h' e st)) :
    Cont (fun n => Exec.onOut (f n) (k n) (h n)) (Exec.onOut g k' h') := by
  refine ⟨fun n m hnm => Le.onOut (hf.mono n m hnm) (fun st => (hk st).mono n m hnm) (fun e st => (hh e st).mono n m hnm), ?_⟩
  intro o ho
  rcases g with _ | g
  · simp [Exec.onOut] at ho
  · obtain ⟨n, hn⟩ := hf.lim g rfl
    cases g with
    | ok st =>
      obtain ⟨m, hm⟩ := (hk st).lim o ho
      refine ⟨max n m, ?_⟩
      rw [(hf.mono n _ (Nat.le_max_left n m)).app _ hn]
      exact ((hk st).mono m _ (Nat.le_max_right n m)).app _ hm
    | exc e st =>
      obtain ⟨m, hm⟩ := (hh e st).lim o ho
      refine ⟨max n m, ?_⟩
      rw [(hf.mono n _ (Nat.le_max_left n m)).app _ hn]
      exact ((hh e st).mono m _ (Nat.le_max_right n m)).app _ hm
    | ub =>
      refine ⟨n, ?_⟩
      rw [hn]
      exact ho

theorem Cont.andThen {f : Nat → Option (Out P)} {g : Option (Out P)} {k : Nat → State P → Option (Out P)}
    {k' : State P → Option (Out P)} (hf : Cont f g) (hk : ∀ st, Cont (fun n => k n st) (k' st)) :
    Cont (fun n => Exec.andThen (f n) (k n)) (Exec.andThen g k') :=
  Cont.onOut hf hk fun _ _ => Cont.const _

theorem Cont.handle {f : Nat → Option (Out P)} {g : Option (Out P)} {h : Nat → Value → State P → Option (Out P)}
    {h' : Value → State P → Option (Out P)} (hf : Cont f g) (hh : ∀ e st, Cont (fun n => h n e st) (h' e st)) :
    Cont (fun n => Exec.handle (f n) (h n)) (Exec.handle g h') :=
  Cont.onOut hf (fun _ => Cont.const _) hh

theorem Cont.finish {f : Nat → Option (Out P)} {g : Option (Out P)} {k : State P → State P} (hf : Cont f g) :
    Cont (fun n => Exec.finish (f n) k) (Exec.finish g k) :=
  Cont.onOut hf (fun _ => Cont.const _) fun _ _ => Cont.const _

theorem Cont.withValue {st : State P} {r : Res Value} {k : Nat → Value → Option (Out P)} {k' : Value → Option (Out P)}
    (hk : ∀ v, Cont (fun n => k n v) (k' v)) :
    Cont (fun n => Exec.withValue st r (k n)) (Exec.withValue st r k') := by
  cases r <;> first | exact hk _ | exact Cont.const _

theorem Cont.withTop {st : State P} {k : Nat → Ref → List Ref → Option (Out P)} {k' : Ref → List Ref → Option (Out P)}
    (hk : ∀ r l, Cont (fun n => k n r l) (k' r l)) :
    Cont (fun n => Exec.withTop st (k n)) (Exec.withTop st k') := by
  unfold Exec.withTop
  cases st.stack <;> first | exact hk _ _ | exact Cont.const _

theorem Cont.expectNext {st : State P} {k : Nat → Option (Out P)} {k' : Option (Out P)}
    (hk : Cont k k') : Cont (fun n => Exec.expectNext st (k n)) (Exec.expectNext st k') := by
  unfold Exec.expectNext
  split
  · exact hk
  · exact Cont.const _

theorem Cont.ite {c : Prop} [Decidable c] {a b : Nat → Option (Out P)} {a' b' : Option (Out P)} (ha : Cont a a')
    (hb : Cont b b') : Cont (fun n => if c then a n else b n) (if c then a' else b') := by
  split
  · exact ha
  · exact hb

theorem Cont.aside {rec : Nat → Task P → State P → Option (Out P)} {rec' : Task P → State P → Option (Out P)}
    (hr : ∀ t st, Cont (fun n => rec n t st) (rec' t st))
    (t : Task P) (st : State P) : Cont (fun n => Exec.aside (rec n) t st) (Exec.aside rec' t st) := by
  unfold Exec.aside
  cases st.scopes
  · exact Cont.const _
  · exact Cont.finish (hr _ _)

/-- Closes goals about `Cont`. -/
macro "conti" hr:ident : tactic => `(tactic| (
  repeat' first
    | with_reducible exact $hr _ _
    | with_reducible exact Cont.const _
    | with_reducible exact Cont.aside $hr _ _
    | with_reducible apply Cont.andThen
    | with_reducible apply Cont.handle
    | with_reducible apply Cont.finish
    | with_reducible apply Cont.onOut
    | with_reducible apply Cont.withTop
    | with_reducible apply Cont.withValue
    | with_reducible apply Cont.expectNext
    | with_reducible apply Cont.ite
    | (intro _)
    | split))

theorem Cont.runNode {sem : Sem P} {rec : Nat → Task P → State P → Option (Out P)}
    {rec' : Task P → State P → Option (Out P)} (hr : ∀ t st, Cont (fun n => rec n t st) (rec' t st))
    (n : Node P) (st : State P) : Cont (fun k => Exec.runNode sem (rec k) n st) (Exec.runNode sem rec' n st) := by
  cases n <;> simp only [Exec.runNode] <;> conti hr

theorem Cont.step {sem : Sem P} {rec : Nat → Task P → State P → Option (Out P)}
    {rec' : Task P → State P → Option (Out P)} (hr : ∀ t st, Cont (fun n => rec n t st) (rec' t st))
    (t : Task P) (st : State P) : Cont (fun k => Exec.step sem (rec k) t st) (Exec.step sem rec' t st) := by
  cases t with
  | seq l => cases l <;> simp only [Exec.step] <;> conti hr
  | node n => exact Cont.runNode hr n st
  | find c r k t a => cases r <;> simp only [Exec.step] <;> conti hr
  | clauses l => cases l <;> simp only [Exec.step] <;> conti hr
  | eachL l => cases l <;> simp only [Exec.step] <;> conti hr
  | _ => simp only [Exec.step]; conti hr

open Classical in
/-- The outcome of an execution, if it ends. -/
noncomputable def run (sem : Sem P) (t : Task P) (st : State P) : Option (Out P) :=
  if h : ∃ o, Runs sem t st o then some h.choose else none

theorem run_eq_some {sem : Sem P} {t : Task P} {st : State P} {o : Out P} :
    run sem t st = some o ↔ Runs sem t st o := by
  unfold run
  constructor
  · intro h
    split at h
    · rename_i hx
      have := hx.choose_spec
      rwa [Option.some.inj h] at this
    · cases h
  · intro h
    have hx : ∃ o, Runs sem t st o := ⟨o, h⟩
    rw [dif_pos hx]
    exact congrArg some (Runs.det hx.choose_spec h)

theorem cont_run (sem : Sem P) (t : Task P) (st : State P) : Cont (fun n => exec sem n t st) (run sem t st) :=
  ⟨fun _ _ h => exec_mono sem h t st, fun _ h => run_eq_some.1 h⟩

/-- An execution obeys the equations of one step. -/
theorem run_step (sem : Sem P) (t : Task P) (st : State P) : run sem t st = step sem (run sem) t st := by
  have hc : Cont (fun n => step sem (exec sem n) t st) (step sem (run sem) t st) := Cont.step (cont_run sem) t st
  have hle : ∀ n, Le (exec sem n t st) (step sem (run sem) t st) := by
    intro n
    rcases n with _ | n
    · exact ⟨fun x hx => by simp [exec] at hx⟩
    · exact Le.step (fun t st => ⟨fun x hx => run_eq_some.2 ⟨n, hx⟩⟩) t st
  rcases h : step sem (run sem) t st with _ | o
  · rcases h' : run sem t st with _ | o
    · rfl
    · obtain ⟨n, hn⟩ := run_eq_some.1 h'
      have := (hle n).app _ hn
      rw [h] at this
      cases this
  · obtain ⟨n, hn⟩ := hc.lim o h
    exact run_eq_some.2 ⟨n + 1, hn⟩

end Asteria.Exec
