import Verif.Proof.Safe
import Verif.Spec.Scope
import Verif.Props.Subscript

/-! Code that keeps the discipline does not fail an assertion. -/

namespace Asteria.Exec.Safe

variable {P : Type} {sem : Sem P} {sig : P → Sig}

/-! ### States -/

section
variable (st : State P) (l : List Ref)

@[simp] theorem setStack_swapped : (st.setStack l).swapped = st.swapped := by simp [State.swapped]
@[simp] theorem setAlt_swapped : (st.setAlt l).swapped = st.swapped := by simp [State.swapped]
@[simp] theorem setStatus_swapped (s : Status) : (st.setStatus s).swapped = st.swapped := rfl
@[simp] theorem log_swapped (e : Event) : (st.log e).swapped = st.swapped := rfl
@[simp] theorem setStack_stack : (st.setStack l).stack = l := by
  unfold State.stack; rw [setStack_swapped]; unfold State.setStack; split <;> rfl
@[simp] theorem setStack_alt : (st.setStack l).alt = st.alt := by
  unfold State.alt; rw [setStack_swapped]; unfold State.setStack; split <;> rfl
@[simp] theorem setAlt_stack : (st.setAlt l).stack = st.stack := by
  unfold State.stack; rw [setAlt_swapped]; unfold State.setAlt; split <;> rfl
@[simp] theorem setAlt_alt : (st.setAlt l).alt = l := by
  unfold State.alt; rw [setAlt_swapped]; unfold State.setAlt; split <;> rfl
@[simp] theorem setStatus_stack (s : Status) : (st.setStatus s).stack = st.stack := rfl
@[simp] theorem setStatus_alt (s : Status) : (st.setStatus s).alt = st.alt := rfl
@[simp] theorem log_stack (e : Event) : (st.log e).stack = st.stack := rfl
@[simp] theorem log_alt (e : Event) : (st.log e).alt = st.alt := rfl
@[simp] theorem setStack_world : (st.setStack l).world = st.world := by unfold State.setStack; split <;> rfl
@[simp] theorem setAlt_world : (st.setAlt l).world = st.world := by unfold State.setAlt; split <;> rfl
@[simp] theorem setStack_funcs : (st.setStack l).funcs = st.funcs := by unfold State.setStack; split <;> rfl
@[simp] theorem setAlt_funcs : (st.setAlt l).funcs = st.funcs := by unfold State.setAlt; split <;> rfl
@[simp] theorem setStack_status : (st.setStack l).status = st.status := by unfold State.setStack; split <;> rfl
@[simp] theorem setAlt_status : (st.setAlt l).status = st.status := by unfold State.setAlt; split <;> rfl
@[simp] theorem push_stack (r : Ref) : (st.push r).stack = r :: st.stack := setStack_stack _ _
@[simp] theorem push_alt (r : Ref) : (st.push r).alt = st.alt := setStack_alt _ _
@[simp] theorem push_world (r : Ref) : (st.push r).world = st.world := setStack_world _ _
@[simp] theorem push_status (r : Ref) : (st.push r).status = st.status := setStack_status _ _
@[simp] theorem push_swapped (r : Ref) : (st.push r).swapped = st.swapped := setStack_swapped _ _
@[simp] theorem push_funcs (r : Ref) : (st.push r).funcs = st.funcs := setStack_funcs _ _

variable (f : Scope P → Scope P)
@[simp] theorem modScope_world : (st.modScope f).world = st.world := by unfold State.modScope; split <;> rfl
@[simp] theorem modScope_status : (st.modScope f).status = st.status := by unfold State.modScope; split <;> rfl
@[simp] theorem modScope_funcs : (st.modScope f).funcs = st.funcs := by unfold State.modScope; split <;> rfl
@[simp] theorem modScope_ptcs : (st.modScope f).ptcs = st.ptcs := by unfold State.modScope; split <;> rfl
@[simp] theorem modScope_stk0 : (st.modScope f).stk0 = st.stk0 := by unfold State.modScope; split <;> rfl
@[simp] theorem modScope_stk1 : (st.modScope f).stk1 = st.stk1 := by unfold State.modScope; split <;> rfl
@[simp] theorem modScope_ne : ((st.modScope f).scopes = []) ↔ st.scopes = [] := by
  unfold State.modScope; split <;> simp [*]

variable {f}
theorem modScope_swapped (hf : ∀ s, (f s).swapped = s.swapped) : (st.modScope f).swapped = st.swapped := by
  unfold State.modScope
  split
  · rfl
  · rename_i s ss h; unfold State.swapped; rw [h]; exact hf s
theorem modScope_stack (hf : ∀ s, (f s).swapped = s.swapped) : (st.modScope f).stack = st.stack := by
  unfold State.stack; rw [modScope_swapped _ hf, modScope_stk0, modScope_stk1]
theorem modScope_alt (hf : ∀ s, (f s).swapped = s.swapped) : (st.modScope f).alt = st.alt := by
  unfold State.alt; rw [modScope_swapped _ hf, modScope_stk0, modScope_stk1]

theorem flip_swapped (h : st.scopes ≠ []) :
    (st.modScope fun s => { s with swapped := !s.swapped }).swapped = !st.swapped := by
  unfold State.modScope
  split
  · exact absurd ‹_› h
  · rename_i s ss hs; unfold State.swapped; rw [hs]
theorem flip_stack (h : st.scopes ≠ []) : (st.modScope fun s => { s with swapped := !s.swapped }).stack = st.alt := by
  unfold State.stack State.alt; rw [flip_swapped _ h, modScope_stk0, modScope_stk1]; cases st.swapped <;> rfl
theorem flip_alt (h : st.scopes ≠ []) : (st.modScope fun s => { s with swapped := !s.swapped }).alt = st.stack := by
  unfold State.stack State.alt; rw [flip_swapped _ h, modScope_stk0, modScope_stk1]; cases st.swapped <;> rfl
end

theorem defined_stack {st : State P} (h : st.Defined sem) : ∀ r ∈ st.stack, r.Defined sem st.world := by
  intro r hr
  unfold State.stack at hr
  split at hr
  · exact h r (.inr hr)
  · exact h r (.inl hr)

theorem _root_.Asteria.Exec.Ref.Defined.copy {w : World} {r : Ref} (h : r.Defined sem w) : derefCopy w r ≠ .ub := by
  unfold derefCopy; rw [Subscript.C44_copy]; exact h.1

/-! ### Variables -/

theorem _root_.Asteria.Exec.Kept.refl (ids : List Nat) (w : World) : Kept ids w w := ⟨Nat.le_refl _, fun _ _ _ => Iff.rfl, fun h => h⟩

theorem _root_.Asteria.Exec.Kept.mono {ids ids' : List Nat} {w w' : World} (h : Kept ids w w') (hs : ∀ i ∈ ids, i ∈ ids') : Kept ids' w w' :=
  ⟨h.nvars, fun i hi hn => h.same i hi fun h' => hn (hs i h'), h.clean⟩

theorem _root_.Asteria.Exec.Kept.any {ids : List Nat} {w w' : World} (h : Kept [] w w') : Kept ids w w' := h.mono (by simp)

theorem _root_.Asteria.Exec.Kept.trans {ids ids' : List Nat} {w w' w'' : World} (h : Kept ids w w') (h' : Kept ids' w' w'')
    (hn : ∀ i ∈ ids', i ∈ ids ∨ w.nvars ≤ i) : Kept ids w w'' :=
  ⟨h.nvars.trans h'.nvars, fun i hi hni => by
    rw [h'.same i (lt_of_lt_of_le hi h.nvars) fun hm => (hn i hm).elim hni (by omega), h.same i hi hni],
    fun hc => h'.clean (h.clean hc)⟩

theorem _root_.Asteria.Exec.Kept.trans' {ids : List Nat} {w w' w'' : World} (h : Kept ids w w') (h' : Kept [] w' w'') : Kept ids w w'' :=
  h.trans h' (by simp)

/-- No variables beyond those that have been made. -/
def Clean (w : World) : Prop := ∀ i, w.nvars ≤ i → (w.env i).value = none

theorem kept_newVar (st : State P) : Kept [] st.world (newVar st).2.world := by
  refine ⟨Nat.le_succ _, fun i hi _ => ?_, fun h i hi => ?_⟩
  · show ((if i = st.world.nvars then _ else _ : Subscript.Var).value = none) ↔ _
    rw [if_neg (by omega)]
  · have hi' : st.world.nvars + 1 ≤ i := hi
    show (if i = st.world.nvars then _ else _ : Subscript.Var).value = none
    rw [if_neg (by omega)]; exact h i (by omega)

theorem kept_initVar (st : State P) {id : Nat} (v : Value) (imm : Bool) (h : id < st.world.nvars) :
    Kept [id] st.world (initVar st id v imm).world := by
  refine ⟨Nat.le_refl _, fun i _ hn => ?_, fun h' i hi => ?_⟩
  · show ((if i = id then _ else _ : Subscript.Var).value = none) ↔ _
    rw [if_neg (by simpa using hn)]
  · have hi' : st.world.nvars ≤ i := hi
    show (if i = id then _ else _ : Subscript.Var).value = none
    rw [if_neg (by omega)]; exact h' i hi'

theorem kept_initVar_old (st : State P) {id : Nat} (v : Value) (imm : Bool) (h : (st.world.env id).value ≠ none) 
    (hc : Clean st.world) : Kept [] st.world (initVar st id v imm).world := by
  have hlt : id < st.world.nvars := by
    by_contra hge
    exact h (hc id (by omega))
  have h1 := kept_initVar st v imm hlt
  refine ⟨h1.nvars, fun i hi _ => ?_, h1.clean⟩
  by_cases hid : i = id
  · subst hid
    show ((if i = i then _ else _ : Subscript.Var).value = none) ↔ _
    rw [if_pos rfl]; simp [h]
  · exact h1.same i hi (by simpa using hid)

theorem kept_newInit (st : State P) (f : Scope P → Scope P) (v : Value) (imm : Bool) :
    Kept [] st.world (initVar ((newVar st).2.modScope f) (newVar st).1 v imm).world := by
  have h := kept_initVar ((newVar st).2.modScope f) (id := (newVar st).1) v imm (by
    rw [modScope_world]; exact Nat.lt_succ_self _)
  rw [modScope_world] at h
  refine Kept.mono ((kept_newVar st).any.trans (ids := []) h ?_) (by simp)
  intro i hi
  simp only [List.mem_singleton] at hi
  subst hi
  exact .inr (Nat.le_refl _)

theorem kept_assign (w : World) (r : Subscript.Ref) (lim : Nat) (x : Value) :
    Kept [] w { w with env := (r.assign lim w.env x).1 } := by
  have key : ∀ i, (((r.assign lim w.env x).1 i).value = none) ↔ ((w.env i).value = none) := by
    intro i
    unfold Subscript.Ref.assign
    split
    · exact Iff.rfl
    · exact Iff.rfl
    · split
      · exact Iff.rfl
      · rename_i v subs val hv
        split
        · exact Iff.rfl
        · dsimp only
          split
          · rename_i hi; subst hi; simp [hv]
          · exact Iff.rfl
  exact ⟨Nat.le_refl _, fun i _ _ => key i, fun h i hi => (key i).2 (h i hi)⟩

/-! ### Stacks -/

theorem _root_.Asteria.Exec.Slots.nil (w : World) (l : List Ref) : Slots 0 [] w l := ⟨⟨[], [], l, rfl, rfl, rfl⟩, by simp, by simp⟩

theorem _root_.Asteria.Exec.Slots.world {k : Nat} {ids js : List Nat} {w w' : World} {l : List Ref} (h : Slots k ids w l) (hk : Kept js w w')
    (hd : ∀ i ∈ ids, i ∉ js) : Slots k ids w' l :=
  ⟨h.1, h.2.1, fun i hi => ⟨lt_of_lt_of_le (h.2.2 i hi).1 hk.nvars, (hk.same i (h.2.2 i hi).1 (hd i hi)).2 (h.2.2 i hi).2⟩⟩

theorem _root_.Asteria.Exec.Slots.length {k : Nat} {ids : List Nat} {w : World} {l : List Ref} (h : Slots k ids w l) : k ≤ l.length := by
  obtain ⟨⟨top, fr, rest, rfl, rfl, _⟩, _⟩ := h
  simp

theorem _root_.Asteria.Exec.Slots.replace {k : Nat} {ids : List Nat} {w : World} {a c l : List Ref} (h : Slots k ids w (a ++ l))
    (ha : a.length ≤ k) : Slots (k - a.length + c.length) ids w (c ++ l) := by
  obtain ⟨⟨top, fr, rest, h1, h2, h3⟩, h4⟩ := h
  refine ⟨⟨c ++ top.drop a.length, fr, rest, ?_, ?_, h3⟩, h4⟩
  · have h5 : top = a ++ top.drop a.length := by
      have h6 : (a ++ l).take a.length = (top ++ (fr ++ rest)).take a.length := by rw [h1]
      rw [List.take_left', List.take_append_of_le_length (by omega)] at h6
      · conv_lhs => rw [← List.take_append_drop a.length top]
        rw [← h6]
      · rfl
    have h7 : l = top.drop a.length ++ (fr ++ rest) := by
      rw [h5] at h1
      have h8 : a ++ l = a ++ (top.drop a.length ++ (fr ++ rest)) := by
        rw [h1]; simp
      exact List.append_cancel_left h8
    rw [h7]; simp
  · simp; omega

/-- The stacks are as they should be; `b` tells whether they are swapped otherwise. -/
structure Sh (T : Ty) (b : Bool) (ids : List Nat) (st : State P) : Prop where
  ne : st.scopes ≠ []
  sw : st.swapped = (T.alt.isSome != b)
  m : ids.length = T.m
  alt : ∀ a, T.alt = some a → a ≤ st.stack.length
  main : Slots T.k ids st.world (if T.alt.isSome then st.alt else st.stack)

section
variable {T : Ty} {b : Bool} {ids : List Nat} {st : State P}

theorem Sh.zero (hne : st.scopes ≠ []) (hb : st.swapped = b) : Sh T0 b [] st :=
  ⟨hne, by simp [T0, hb], rfl, by simp [T0], Slots.nil _ _⟩

theorem Sh.weak (h : Sh T b ids st) (ha : T.alt = none) : Sh T0 b [] st :=
  Sh.zero h.ne (by have := h.sw; simpa [ha] using this)

theorem Sh.flag (h : Sh T b ids st) (ha : T.alt = none) : st.swapped = b := by
  have := h.sw; simpa [ha] using this

theorem Sh.cur (h : Sh T b ids st) : T.cur ≤ st.stack.length := by
  unfold Ty.cur
  cases ha : T.alt with
  | none => have := h.main.length; simpa [ha] using this
  | some a => exact h.alt a ha

theorem Sh.top (h : Sh T b ids st) (hc : 1 ≤ T.cur) : ∃ r l, st.stack = r :: l := by
  have := h.cur
  cases hs : st.stack with
  | nil => rw [hs] at this; simp at this; omega
  | cons r l => exact ⟨r, l, rfl⟩

theorem Sh.move {js : List Nat} {st' : State P} (h : Sh T b ids st) (hne : st'.scopes ≠ []) (hw : st'.swapped = st.swapped)
    (h0 : st'.stack = st.stack) (h1 : st'.alt = st.alt) (hk : Kept js st.world st'.world) (hd : ∀ i ∈ ids, i ∉ js) :
    Sh T b ids st' :=
  ⟨hne, hw.trans h.sw, h.m, by rw [h0]; exact h.alt, by rw [h0, h1]; exact h.main.world hk hd⟩

/-- The operands at the top are replaced. -/
theorem Sh.replace {a c l : List Ref} (h : Sh T b ids st) (hs : st.stack = a ++ l) (ha : a.length ≤ T.cur) :
    Sh (T.setCur (T.cur - a.length + c.length)) b ids (st.setStack (c ++ l)) := by
  refine ⟨by simpa using h.ne, by simpa using h.sw, by simpa using h.m, ?_, ?_⟩
  · intro d hd
    rw [setStack_stack]
    have h1 := h.cur
    rw [hs] at h1
    have h2 : d = T.cur - a.length + c.length := by
      unfold Ty.setCur at hd
      split at hd
      · rename_i h3; simp [h3] at hd
      · simpa using hd.symm
    simp at h1 ⊢
    omega
  · rw [Ty.setCur_isSome, setStack_world, setStack_alt, setStack_stack]
    have h1 := h.main
    cases hT : T.alt with
    | none =>
      rw [Ty.setCur_none hT]
      rw [Ty.cur_none hT] at ha ⊢
      simp only [hT, Option.isSome_none, Bool.false_eq_true, if_false] at h1 ⊢
      rw [hs] at h1
      exact h1.replace ha
    | some d =>
      have h2 : (T.setCur (T.cur - a.length + c.length)).k = T.k := by simp [Ty.setCur, hT]
      rw [h2]
      simpa [hT] using h1

theorem Sh.push (h : Sh T b ids st) (r : Ref) : Sh (T.setCur (T.cur + 1)) b ids (st.push r) := by
  have := h.replace (a := []) (c := [r]) (l := st.stack) rfl (by simp)
  simpa [State.push] using this

theorem Sh.pop {r : Ref} {l : List Ref} (h : Sh T b ids st) (hs : st.stack = r :: l) (hc : 1 ≤ T.cur) :
    Sh (T.setCur (T.cur - 1)) b ids (st.setStack l) := by
  have := h.replace (a := [r]) (c := []) (l := l) hs (by simpa using hc)
  simpa using this

theorem Sh.swapTop {r : Ref} {l : List Ref} (h : Sh T b ids st) (hs : st.stack = r :: l) (hc : 1 ≤ T.cur) (r' : Ref) :
    Sh T b ids (st.setStack (r' :: l)) := by
  have := h.replace (a := [r]) (c := [r']) (l := l) hs (by simpa using hc)
  have h2 : T.cur - 1 + 1 = T.cur := by omega
  simpa [h2] using this

/-- As long as the stacks are not swapped, the other one does not matter. -/
theorem Sh.moveNone {js : List Nat} {st' : State P} (h : Sh T b ids st) (ha : T.alt = none) (hne : st'.scopes ≠ [])
    (hw : st'.swapped = st.swapped) (h0 : st'.stack = st.stack) (hk : Kept js st.world st'.world)
    (hd : ∀ i ∈ ids, i ∉ js) : Sh T b ids st' :=
  ⟨hne, hw.trans h.sw, h.m, by simp [ha], by
    have := h.main
    simp only [ha, Option.isSome_none, Bool.false_eq_true, if_false] at this ⊢
    rw [h0]; exact this.world hk hd⟩

theorem Sh.setStatus (h : Sh T b ids st) (s : Status) : Sh T b ids (st.setStatus s) :=
  ⟨h.ne, h.sw, h.m, h.alt, h.main⟩

theorem Sh.setAlt (h : Sh T b ids st) (ha : T.alt = none) (l : List Ref) : Sh T b ids (st.setAlt l) :=
  ⟨by simpa using h.ne, by simpa using h.sw, h.m, by simp [ha], by
    have := h.main; simp only [ha, Option.isSome_none, Bool.false_eq_true, if_false] at this ⊢; simpa using this⟩

end

/-! ### Invariants and outcomes -/

/-- Everything that can be called later keeps the discipline. -/
structure Inv (sig : P → Sig) (st : State P) : Prop where
  funcs : ∀ f ∈ st.funcs, ∀ ps va b, f = .inst ps va b → Body sig b
  defers : ∀ s ∈ st.scopes, ∀ d ∈ s.defers, Whole sig d.2
  ptcs : ∀ p ∈ st.ptcs, ∀ d ∈ p.defers, Whole sig d.2
  clean : Clean st.world

theorem Inv.same {st st' : State P} (h : Inv sig st) (hs : st'.scopes = st.scopes) (hf : st'.funcs = st.funcs)
    (hp : st'.ptcs = st.ptcs) (hw : st'.world = st.world) : Inv sig st' :=
  ⟨by rw [hf]; exact h.funcs, by rw [hs]; exact h.defers, by rw [hp]; exact h.ptcs, by rw [hw]; exact h.clean⟩

theorem Inv.kept {st st' : State P} {ids : List Nat} (h : Inv sig st) (hs : st'.scopes = st.scopes) (hf : st'.funcs = st.funcs)
    (hp : st'.ptcs = st.ptcs) (hw : Kept ids st.world st'.world) : Inv sig st' :=
  ⟨by rw [hf]; exact h.funcs, by rw [hs]; exact h.defers, by rw [hp]; exact h.ptcs, hw.clean h.clean⟩

theorem Inv.setStack {st : State P} (h : Inv sig st) (l : List Ref) : Inv sig (st.setStack l) := h.same (by simp) (by simp) (by simp) (by simp)
theorem Inv.setAlt {st : State P} (h : Inv sig st) (l : List Ref) : Inv sig (st.setAlt l) := h.same (by simp) (by simp) (by simp) (by simp)
theorem Inv.push {st : State P} (h : Inv sig st) (r : Ref) : Inv sig (st.push r) := h.setStack _
theorem Inv.setStatus {st : State P} (h : Inv sig st) (s : Status) : Inv sig (st.setStatus s) := h.same rfl rfl rfl rfl
theorem Inv.log {st : State P} (h : Inv sig st) (e : Event) : Inv sig (st.log e) := h.same rfl rfl rfl rfl

theorem Inv.modScope {st : State P} (h : Inv sig st) {f : Scope P → Scope P} (hf : ∀ s, (f s).defers = s.defers) :
    Inv sig (st.modScope f) := by
  refine ⟨by simpa using h.funcs, ?_, by simpa using h.ptcs, by simpa using h.clean⟩
  unfold State.modScope
  split
  · exact h.defers
  · rename_i s ss hs
    intro s' hs'
    rcases List.mem_cons.1 hs' with rfl | hs'
    · rw [hf]; exact h.defers s (by simp [hs])
    · exact h.defers s' (by simp [hs, hs'])

/-- There is a result. -/
def RetTop (st : State P) : Prop := ∃ r l, st.stack = r :: l ∧ r ≠ .invalid

/-- The names of the current context. -/
def headNames (st : State P) : Option (List (Name × Ref)) := st.scopes.head?.map Scope.names

/-- The outcome of code. -/
def QC (sig : P → Sig) (na : Prop) (j : Mode) (b : Bool) (T' : Ty) (ids : List Nat) (st : State P) : Out P → Prop
  | .ok st' => Inv sig st' ∧ Kept ids st.world st'.world ∧ (j = .expr → headNames st' = headNames st) ∧
      ((st'.status = .next ∧ ∃ ids', Sh T' b ids' st' ∧ ∀ i ∈ ids', i ∈ ids ∨ st.world.nvars ≤ i) ∨
       (st'.status ≠ .next ∧ j = .stmt ∧ st'.scopes ≠ [] ∧ st'.swapped = b ∧ (st'.status = .ret → RetTop st')))
  | .exc _ st' => Inv sig st' ∧ Kept ids st.world st'.world ∧ (na → st'.swapped = st.swapped) ∧
      (j = .expr → headNames st' = headNames st)
  | .ub => False

/-- The outcome of statements. -/
def QX (sig : P → Sig) (b : Bool) (w : World) : Out P → Prop
  | .ok st' => Inv sig st' ∧ Kept [] w st'.world ∧ st'.swapped = b ∧ (st'.status = .ret → RetTop st')
  | .exc _ st' => Inv sig st' ∧ Kept [] w st'.world
  | .ub => False

/-- The outcome of leaving a context with an exception. -/
def QE (sig : P → Sig) (w : World) : Out P → Prop
  | .ok _ => False
  | .exc _ st' => Inv sig st' ∧ Kept [] w st'.world
  | .ub => False

/-- The outcome of the body of a function. -/
def QB (sig : P → Sig) (w : World) : Out P → Prop
  | .ok st' => Inv sig st' ∧ Kept [] w st'.world
  | .exc _ st' => Inv sig st' ∧ Kept [] w st'.world
  | .ub => False

/-- The outcome of what leaves the caller alone. -/
def QF (sig : P → Sig) (st : State P) : Out P → Prop
  | .ok st' => Inv sig st' ∧ Kept [] st.world st'.world ∧ st'.stk0 = st.stk0 ∧ st'.stk1 = st.stk1 ∧ st'.status = st.status
  | .exc _ st' => Inv sig st' ∧ Kept [] st.world st'.world
  | .ub => False

/-- The outcome of a call. -/
def QT (sig : P → Sig) (l : List Ref) (st : State P) : Out P → Prop
  | .ok st' => Inv sig st' ∧ Kept [] st.world st'.world ∧ st'.scopes = st.scopes ∧ st'.status = .next ∧ ∃ r, st'.stack = r :: l
  | .exc _ st' => Inv sig st' ∧ Kept [] st.world st'.world ∧ st'.scopes = st.scopes
  | .ub => False

/-- The outcome of a tail call. -/
def QP (sig : P → Sig) (st : State P) : Out P → Prop
  | .ok st' => Inv sig st' ∧ st'.world = st.world ∧ st'.scopes = st.scopes ∧ st'.status = .ret ∧ RetTop st'
  | .exc _ _ => False
  | .ub => False

/-- The state in which a new context has been entered. -/
def entered (names : List (Name × Ref)) (st : State P) : State P :=
  ({ st with scopes := ⟨names, [], st.swapped⟩ :: st.scopes } : State P).log .enter

/-- The context and its parent agree on the stacks. -/
def Level (st : State P) : Prop := st.swapped = ({ st with scopes := st.scopes.tail } : State P).swapped

/-- What is known about the pieces of an execution. -/
inductive Claim (sig : P → Sig) : Task P → State P → (Out P → Prop) → Prop
  | rod {na j T b ids code st} : Inv sig st → TypedSeq sig j T code → Sh T b ids st → (na → NoAltSeq code) →
      Claim sig (.rod code) st (QC sig na j b (outs sig T code) ids st)
  | seq {na j T b ids code st} : Inv sig st → st.status = .next → TypedSeq sig j T code → Sh T b ids st →
      (na → NoAltSeq code) → Claim sig (.seq code) st (QC sig na j b (outs sig T code) ids st)
  | node {na j T b ids n st} : Inv sig st → st.status = .next → Typed sig j T n → Sh T b ids st → (na → NoAlt n) →
      Claim sig (.node n) st (QC sig na j b (out sig T n) ids st)
  | within {names t st Q} : Inv sig st → Claim sig t (entered names st) Q →
      (∀ o, Q o → QX sig st.swapped st.world o) → (t.whole || t.inside) = true →
      Claim sig (.within names t) st (QX sig st.swapped st.world)
  | exit {st} : Inv sig st → st.scopes ≠ [] → (st.status = .ret → RetTop st) → Claim sig .exit st (QX sig st.swapped st.world)
  | exitN {saved status st} : Inv sig st → st.scopes ≠ [] → (status = .ret → saved ≠ .invalid) →
      Claim sig (.exitN saved status) st (QX sig st.swapped st.world)
  | exitE {e st} : Inv sig st → st.scopes ≠ [] → Claim sig (.exitE e) st (QE sig st.world)
  | find {v rest k target all st} : Inv sig st → st.scopes ≠ [] → st.status = .next → TypedClauses sig rest →
      TypedClauses sig all → Claim sig (.find v rest k target all) st (QX sig st.swapped st.world)
  | clauses {cs st} : Inv sig st → st.scopes ≠ [] → st.status = .next → TypedClauses sig cs →
      Claim sig (.clauses cs) st (QX sig st.swapped st.world)
  | doL {b neg c k st} : Inv sig st → st.scopes ≠ [] → Body sig b → Whole sig c → 1 ≤ (outs sig T0 c).k → Body sig k →
      Claim sig (.doL b neg c k) st (QX sig st.swapped st.world)
  | whileL {b neg c k st} : Inv sig st → st.scopes ≠ [] → Body sig b → Whole sig c → 1 ≤ (outs sig T0 c).k → Body sig k →
      Claim sig (.whileL neg c b k) st (QX sig st.swapped st.world)
  | eachInit {kn mn i b k st} : Inv sig st → st.scopes ≠ [] → Level st →
      (∀ l, headNames st = some l → ∀ n, (lookupName n l).bind Ref.var? = none) → Whole sig i → 1 ≤ (outs sig T0 i).k →
      Body sig b → Body sig k → Claim sig (.eachInit kn mn i b k) st (QX sig st.swapped st.world)
  | eachL {es kn mn r b k st} : Inv sig st → st.scopes ≠ [] → Level st → st.status = .next →
      (∀ id, r.var? = some id → (st.world.env id).value ≠ none) →
      (∀ l n id, headNames st = some l → (lookupName n l).bind Ref.var? = some id → kn = some n → (st.world.env id).value ≠ none) →
      Body sig b → Body sig k → Claim sig (.eachL es kn mn r b k) st (QX sig st.swapped st.world)
  | forInit {i c s b k st} : Inv sig st → st.scopes ≠ [] → Level st → TypedSeq sig .init T0 i → (outs sig T0 i).alt = none →
      Whole sig c → Whole sig s → Body sig b → Body sig k →
      Claim sig (.forInit i c s b k) st (QX sig st.swapped st.world)
  | forL {c s b k st} : Inv sig st → st.scopes ≠ [] → Level st →
      Whole sig c → Whole sig s → Body sig b → Body sig k → Claim sig (.forL c s b k) st (QX sig st.swapped st.world)
  | sub {na j T b ids a code st} : Inv sig st → st.status = .next → Sh T b ids st → 1 ≤ T.cur → Arm sig j T a code →
      (na → NoAltSeq code) → Claim sig (.sub a code) st (QC sig na j b T ids st)
  | call {f r l st} : Inv sig st → st.status = .next → st.stack = r :: l → Claim sig (.tailOrCall .none f) st (QT sig l st)
  | tail {ptc f r l st} : Inv sig st → ptc ≠ .none → st.stack = r :: l → Claim sig (.tailOrCall ptc f) st (QP sig st)
  | body {names b st} : Inv sig st → st.scopes = [] → Body sig b → Claim sig (.call names b) st (QB sig st.world)
  | enter {f self args st} : Inv sig st → Claim sig (.enter f self args) st (QF sig st)
  | check {r st} : Inv sig st → Claim sig (.check r) st fun o => QF sig st o ∧ ∀ st', o = .ok st' → st'.result.plain = true
  | unpack {r frames st} : Inv sig st → (frames ≠ [] ∨ ∃ id, r = .ptc id) → Claim sig (.unpack r frames) st (QF sig st)
  | framesN {frames v st} : Inv sig st → Claim sig (.framesN frames v) st (QF sig st)
  | framesE {frames e st} : Inv sig st → Claim sig (.framesE frames e) st (QE sig st.world)

end Asteria.Exec.Safe
