import Verif.Proof.OptBind
import Verif.Proof.SafeRun
import Verif.Proof.Exec

/-! Pairs of states from which code does the same. -/

namespace Asteria.Exec.Opt

open Safe

variable {P : Type} {sem : Sem P}

/-! ### Lists -/

section
variable {α β : Type} {R : α → β → Prop}

theorem f2_get {l : List α} {l' : List β} (h : List.Forall₂ R l l') : ∀ i : Nat,
    (l[i]? = none ∧ l'[i]? = none) ∨ ∃ a b, l[i]? = some a ∧ l'[i]? = some b ∧ R a b := by
  induction h with
  | nil => intro i; left; simp
  | cons h _ ih =>
    intro i
    cases i with
    | zero => right; exact ⟨_, _, rfl, rfl, h⟩
    | succ i => simpa using ih i

theorem f2_append {l m : List α} {l' m' : List β} (h : List.Forall₂ R l l') (h' : List.Forall₂ R m m') :
    List.Forall₂ R (l ++ m) (l' ++ m') := by
  induction h with
  | nil => exact h'
  | cons h _ ih => exact .cons h ih

theorem f2_modify {l : List α} {l' : List β} {f : α → α} {g : β → β} (h : List.Forall₂ R l l') (hf : ∀ a b, R a b → R (f a) (g b)) :
    ∀ i, List.Forall₂ R (l.modify i f) (l'.modify i g) := by
  induction h with
  | nil => intro i; cases i <;> exact .nil
  | cons h h2 ih =>
    intro i
    cases i with
    | zero => exact .cons (hf _ _ h) h2
    | succ i => simp only [List.modify_succ_cons]; exact .cons h (ih i)

theorem f2_last {l : List α} {l' : List β} (h : List.Forall₂ R l l') :
    (l = [] ∧ l' = []) ∨ ∃ a b, l.getLast? = some a ∧ l'.getLast? = some b ∧ R a b ∧ List.Forall₂ R l.dropLast l'.dropLast := by
  induction h with
  | nil => left; exact ⟨rfl, rfl⟩
  | cons h _ ih =>
    right
    rcases ih with ⟨rfl, rfl⟩ | ⟨a, b, h1, h2, h3, h4⟩
    · exact ⟨_, _, rfl, rfl, h, .nil⟩
    · rename_i x y m m' _
      cases m with
      | nil => simp at h1
      | cons u m =>
      cases m' with
      | nil => simp at h2
      | cons u' m' =>
      refine ⟨a, b, by simpa using h1, by simpa using h2, h3, ?_⟩
      simp only [List.dropLast_cons₂]
      exact .cons h h4
end

/-! ### States -/

/-- Deferred expressions that do the same. -/
def DeferRel (sem : Sem P) (a b : Nat × List (Node P)) : Prop := a.1 = b.1 ∧ ∃ k, Ex sem k a.2 b.2

/-- Contexts with the same names. -/
structure ScopeRel (sem : Sem P) (a b : Scope P) : Prop where
  names : a.names = b.names
  defers : List.Forall₂ (DeferRel sem) a.defers b.defers

/-- Functions that do the same. -/
inductive FuncRel (sem : Sem P) : Func P → Func P → Prop
  | native (p : P) : FuncRel sem (.native p) (.native p)
  | inst (ps : List Name) (va : Bool) {b b' : List (Node P)} : Body sem b b' → FuncRel sem (.inst ps va b) (.inst ps va b')

/-- Tail calls that do the same. -/
structure PtcRel (sem : Sem P) (a b : PtcArgs P) : Prop where
  aware : a.aware = b.aware
  target : a.target = b.target
  self : a.self = b.self
  args : a.args = b.args
  defers : List.Forall₂ (DeferRel sem) a.defers b.defers

/-- States that are the same but for code and stacks, with `n` contexts. -/
structure Bs (sem : Sem P) (n : Nat) (s s' : State P) : Prop where
  world : s.world = s'.world
  funcs : List.Forall₂ (FuncRel sem) s.funcs s'.funcs
  ptcs : List.Forall₂ (PtcRel sem) s.ptcs s'.ptcs
  scopes : List.Forall₂ (ScopeRel sem) s.scopes s'.scopes
  len : s.scopes.length = n
  flat : ∀ x ∈ s.scopes.tail, x.swapped = false
  flat' : ∀ x ∈ s'.scopes.tail, x.swapped = false
  result : s.result = s'.result
  trace : s.trace = s'.trace

section
variable {n : Nat} {s s' : State P}

theorem Bs.len' (h : Bs sem n s s') : s'.scopes.length = n := by rw [← h.len]; exact h.scopes.length_eq.symm

theorem Bs.ne (h : Bs sem n s s') (hn : 1 ≤ n) : s.scopes ≠ [] := by
  intro h0; have := h.len; rw [h0] at this; simp at this; omega

theorem Bs.ne' (h : Bs sem n s s') (hn : 1 ≤ n) : s'.scopes ≠ [] := by
  intro h0; have := h.len'; rw [h0] at this; simp at this; omega

theorem Bs.setStatus (h : Bs sem n s s') (a b : Status) : Bs sem n (s.setStatus a) (s'.setStatus b) := ⟨h.1, h.2, h.3, h.4, h.5, h.6, h.7, h.8, h.9⟩

theorem Bs.setStatusL (h : Bs sem n s s') (a : Status) : Bs sem n (s.setStatus a) s' := ⟨h.1, h.2, h.3, h.4, h.5, h.6, h.7, h.8, h.9⟩

@[simp] theorem setStack_ptcs (s : State P) (l : List Ref) : (s.setStack l).ptcs = s.ptcs := by unfold State.setStack; split <;> rfl
@[simp] theorem setStack_result (s : State P) (l : List Ref) : (s.setStack l).result = s.result := by unfold State.setStack; split <;> rfl
@[simp] theorem setStack_trace (s : State P) (l : List Ref) : (s.setStack l).trace = s.trace := by unfold State.setStack; split <;> rfl
@[simp] theorem setAlt_ptcs (s : State P) (l : List Ref) : (s.setAlt l).ptcs = s.ptcs := by unfold State.setAlt; split <;> rfl
@[simp] theorem setAlt_result (s : State P) (l : List Ref) : (s.setAlt l).result = s.result := by unfold State.setAlt; split <;> rfl
@[simp] theorem setAlt_trace (s : State P) (l : List Ref) : (s.setAlt l).trace = s.trace := by unfold State.setAlt; split <;> rfl
@[simp] theorem modScope_result (s : State P) (f : Scope P → Scope P) : (s.modScope f).result = s.result := by unfold State.modScope; split <;> rfl
@[simp] theorem modScope_trace (s : State P) (f : Scope P → Scope P) : (s.modScope f).trace = s.trace := by unfold State.modScope; split <;> rfl

theorem setStack_scopes' (s : State P) (l : List Ref) : (s.setStack l).scopes = s.scopes := by unfold State.setStack; split <;> rfl
theorem setAlt_scopes' (s : State P) (l : List Ref) : (s.setAlt l).scopes = s.scopes := by unfold State.setAlt; split <;> rfl

theorem Bs.setStack (h : Bs sem n s s') (l l' : List Ref) : Bs sem n (s.setStack l) (s'.setStack l') := by
  refine ⟨?_, ?_, ?_, ?_, ?_, ?_, ?_, ?_, ?_⟩ <;> simp only [setStack_world, setStack_funcs, setStack_ptcs, setStack_scopes', setStack_result, setStack_trace]
  exacts [h.1, h.2, h.3, h.4, h.5, h.6, h.7, h.8, h.9]

theorem Bs.setAlt (h : Bs sem n s s') (l l' : List Ref) : Bs sem n (s.setAlt l) (s'.setAlt l') := by
  refine ⟨?_, ?_, ?_, ?_, ?_, ?_, ?_, ?_, ?_⟩ <;> simp only [setAlt_world, setAlt_funcs, setAlt_ptcs, setAlt_scopes', setAlt_result, setAlt_trace]
  exacts [h.1, h.2, h.3, h.4, h.5, h.6, h.7, h.8, h.9]

theorem Bs.push (h : Bs sem n s s') (r r' : Ref) : Bs sem n (s.push r) (s'.push r') := h.setStack _ _

theorem Bs.log (h : Bs sem n s s') (e : Event) : Bs sem n (s.log e) (s'.log e) :=
  ⟨h.1, h.2, h.3, h.4, h.5, h.6, h.7, h.8, by show s.trace ++ [e] = s'.trace ++ [e]; rw [h.9]⟩

theorem Bs.setWorld (h : Bs sem n s s') (w : World) : Bs sem n { s with world := w } { s' with world := w } := ⟨rfl, h.2, h.3, h.4, h.5, h.6, h.7, h.8, h.9⟩

theorem Bs.setResult (h : Bs sem n s s') (r : Ref) : Bs sem n { s with result := r } { s' with result := r } := ⟨h.1, h.2, h.3, h.4, h.5, h.6, h.7, rfl, h.9⟩

/-- One side only. -/
theorem Bs.left {t : State P} (h : Bs sem n s s') (hw : t.world = s.world) (hf : t.funcs = s.funcs) (hp : t.ptcs = s.ptcs)
    (hs : List.Forall₂ (fun a b : Scope P => a.names = b.names ∧ a.defers = b.defers) t.scopes s.scopes)
    (hfl : t.scopes.tail = s.scopes.tail) (hr : t.result = s.result) (ht : t.trace = s.trace) : Bs sem n t s' := by
  refine ⟨hw.trans h.1, hf ▸ h.2, hp ▸ h.3, ?_, hs.length_eq.trans h.5, by rw [hfl]; exact h.6, h.7, hr.trans h.8, ht.trans h.9⟩
  have h4 := h.4
  revert h4
  generalize s'.scopes = l
  clear h hw hf hp hr ht hfl
  generalize t.scopes = a at hs
  generalize s.scopes = b at hs
  induction hs generalizing l with
  | nil => exact id
  | cons ha _ ih =>
    intro h4
    cases h4 with
    | cons hb h4 => exact .cons ⟨ha.1.trans hb.1, ha.2 ▸ hb.2⟩ (ih _ h4)

theorem Bs.symm (h : Bs sem n s s') : Bs sem n s' s := by
  have dr : ∀ {l l' : List (Nat × List (Node P))}, List.Forall₂ (DeferRel sem) l l' → List.Forall₂ (DeferRel sem) l' l := by
    intro l l' h
    refine List.Forall₂.flip (h.imp ?_)
    rintro a b ⟨h1, k, h2⟩
    exact ⟨h1.symm, k, h2.symm⟩
  refine ⟨h.1.symm, List.Forall₂.flip (h.2.imp ?_), List.Forall₂.flip (h.3.imp ?_), List.Forall₂.flip (h.4.imp ?_), h.len', h.7, h.6, h.8.symm, h.9.symm⟩
  · intro a b hab
    cases hab with
    | native p => exact .native p
    | inst ps va hb => exact .inst ps va hb.symm
  · intro a b hab; exact ⟨hab.1.symm, hab.2.symm, hab.3.symm, hab.4.symm, dr hab.5⟩
  · intro a b hab; exact ⟨hab.1.symm, dr hab.2⟩

theorem Bs.right {t : State P} (h : Bs sem n s s') (hw : t.world = s'.world) (hf : t.funcs = s'.funcs) (hp : t.ptcs = s'.ptcs)
    (hs : List.Forall₂ (fun a b : Scope P => a.names = b.names ∧ a.defers = b.defers) t.scopes s'.scopes)
    (hfl : t.scopes.tail = s'.scopes.tail) (hr : t.result = s'.result) (ht : t.trace = s'.trace) : Bs sem n s t :=
  (h.symm.left hw hf hp hs hfl hr ht).symm

theorem f2_id (l : List (Scope P)) : List.Forall₂ (fun a b : Scope P => a.names = b.names ∧ a.defers = b.defers) l l := by
  induction l with
  | nil => exact .nil
  | cons a l ih => exact .cons ⟨rfl, rfl⟩ ih

/-- The stacks are swapped. -/
def flip (s : State P) : State P := s.modScope fun s => { s with swapped := !s.swapped }

theorem flip_scopes (s : State P) : List.Forall₂ (fun a b : Scope P => a.names = b.names ∧ a.defers = b.defers) (flip s).scopes s.scopes ∧
    (flip s).scopes.tail = s.scopes.tail := by
  unfold flip State.modScope
  cases hs : s.scopes with
  | nil => simp only [hs]; exact ⟨.nil, trivial⟩
  | cons a l => exact ⟨.cons ⟨rfl, rfl⟩ (f2_id l), rfl⟩

theorem Bs.flipL (h : Bs sem n s s') : Bs sem n (flip s) s' :=
  h.left (modScope_world _ _) (modScope_funcs _ _) (modScope_ptcs _ _) (flip_scopes s).1 (flip_scopes s).2 (modScope_result _ _) (modScope_trace _ _)

theorem Bs.setStackL (h : Bs sem n s s') (l : List Ref) : Bs sem n (s.setStack l) s' :=
  h.left (setStack_world _ _) (setStack_funcs _ _) (setStack_ptcs _ _) (by rw [setStack_scopes']; exact f2_id _) (by rw [setStack_scopes'])
    (setStack_result _ _) (setStack_trace _ _)

theorem Bs.setAltL (h : Bs sem n s s') (l : List Ref) : Bs sem n (s.setAlt l) s' :=
  h.left (setAlt_world _ _) (setAlt_funcs _ _) (setAlt_ptcs _ _) (by rw [setAlt_scopes']; exact f2_id _) (by rw [setAlt_scopes'])
    (setAlt_result _ _) (setAlt_trace _ _)

theorem Bs.flipR (h : Bs sem n s s') : Bs sem n s (flip s') := h.symm.flipL.symm
theorem Bs.setStackR (h : Bs sem n s s') (l : List Ref) : Bs sem n s (s'.setStack l) := (h.symm.setStackL l).symm
theorem Bs.setAltR (h : Bs sem n s s') (l : List Ref) : Bs sem n s (s'.setAlt l) := (h.symm.setAltL l).symm

/-- The current context is changed. -/
theorem Bs.modScope (h : Bs sem n s s') {f g : Scope P → Scope P} (hf : ∀ a b, ScopeRel sem a b → ScopeRel sem (f a) (g b)) :
    Bs sem n (s.modScope f) (s'.modScope g) := by
  have h4 := h.4
  have h5 := h.5
  have h6 := h.6
  have h7 := h.7
  unfold State.modScope
  cases hs : s.scopes <;> cases hs' : s'.scopes <;> rw [hs, hs'] at h4
  · exact h
  · cases h4
  · cases h4
  · cases h4 with
    | cons ha hl =>
      rw [hs] at h5 h6
      rw [hs'] at h7
      exact ⟨h.1, h.2, h.3, .cons (hf _ _ ha) hl, h5, h6, h7, h.8, h.9⟩

theorem Bs.setName (h : Bs sem n s s') (x : Name) (r : Ref) :
    Bs sem n (s.modScope fun a => { a with names := Exec.setName x r a.names }) (s'.modScope fun a => { a with names := Exec.setName x r a.names }) :=
  h.modScope fun _ _ hab => ⟨by show Exec.setName x r _ = Exec.setName x r _; rw [hab.1], hab.2⟩

theorem Bs.newVar (h : Bs sem n s s') : (Exec.newVar s).1 = (Exec.newVar s').1 ∧ Bs sem n (Exec.newVar s).2 (Exec.newVar s').2 := by
  refine ⟨by show s.world.nvars = s'.world.nvars; rw [h.1], ?_⟩
  exact ⟨by show World.mk _ _ _ = World.mk _ _ _; simp only [h.1], h.2, h.3, h.4, h.5, h.6, h.7, h.8, h.9⟩

theorem Bs.initVar (h : Bs sem n s s') (id : Nat) (v : Value) (imm : Bool) : Bs sem n (Exec.initVar s id v imm) (Exec.initVar s' id v imm) :=
  ⟨by show World.mk _ _ _ = World.mk _ _ _; simp only [h.1], h.2, h.3, h.4, h.5, h.6, h.7, h.8, h.9⟩

theorem Bs.contexts (h : Bs sem n s s') : contexts s = contexts s' := by
  unfold Exec.contexts
  have h4 := h.4
  generalize s.scopes = a at h4
  generalize s'.scopes = b at h4
  induction h4 with
  | nil => rfl
  | cons ha _ ih => simp only [List.map_cons, ha.1, ih]

theorem Bs.scopeAt (h : Bs sem n s s') (i : Nat) :
    (s.scopes[i]? = none ∧ s'.scopes[i]? = none) ∨ ∃ a b, s.scopes[i]? = some a ∧ s'.scopes[i]? = some b ∧ ScopeRel sem a b := f2_get h.4 i

theorem Bs.head (h : Bs sem n s s') (hn : 1 ≤ n) : ∃ a l a' l', s.scopes = a :: l ∧ s'.scopes = a' :: l' ∧ ScopeRel sem a a' ∧
    List.Forall₂ (ScopeRel sem) l l' := by
  have h1 := h.ne hn
  have h4 := h.4
  cases hs : s.scopes with
  | nil => exact absurd hs h1
  | cons a l =>
    rw [hs] at h4
    cases h4' : s'.scopes with
    | nil => rw [h4'] at h4; cases h4
    | cons a' l' =>
      rw [h4'] at h4
      cases h4 with
      | cons ha hl => exact ⟨a, l, a', l', rfl, rfl, ha, hl⟩
end

/-! ### Outcomes -/

/-- If the first is an outcome, so is the second, and they are related. -/
structure Sim (Q : Out P → Out P → Prop) (o o' : Option (Out P)) : Prop where
  app : ∀ x, o = some x → ∃ x', o' = some x' ∧ Q x x'

/-- A relation of outcomes given by that of states. -/
def Post (Q : State P → State P → Prop) (X : State P → State P → Prop) : Out P → Out P → Prop
  | .ok s, .ok s' => Q s s'
  | .exc e s, .exc e' s' => e = e' ∧ X s s'
  | .ub, .ub => True
  | _, _ => False

section
variable {Q X Q' X' : State P → State P → Prop}

theorem Sim.none {R : Out P → Out P → Prop} (o : Option (Out P)) : Sim R Option.none o := ⟨fun _ h => by cases h⟩

theorem Sim.ok {s s' : State P} (h : Q s s') : Sim (Post Q X) (some (.ok s)) (some (.ok s')) := ⟨fun x hx => ⟨_, rfl, by cases hx; exact h⟩⟩

theorem Sim.exc {s s' : State P} (e : Value) (h : X s s') : Sim (Post Q X) (some (.exc e s)) (some (.exc e s')) :=
  ⟨fun x hx => ⟨_, rfl, by cases hx; exact ⟨rfl, h⟩⟩⟩

theorem Sim.ub : Sim (Post Q X) (some .ub) (some .ub) := ⟨fun x hx => ⟨_, rfl, by cases hx; trivial⟩⟩

theorem Sim.imp {R R' : Out P → Out P → Prop} {o o' : Option (Out P)} (h : Sim R o o') (hq : ∀ a b, R a b → R' a b) : Sim R' o o' :=
  ⟨fun x hx => by obtain ⟨x', h1, h2⟩ := h.app x hx; exact ⟨x', h1, hq _ _ h2⟩⟩

theorem Sim.mono {o o' : Option (Out P)} (h : Sim (Post Q X) o o') (hq : ∀ s s', Q s s' → Q' s s') (hx : ∀ s s', X s s' → X' s s') :
    Sim (Post Q' X') o o' := by
  refine h.imp fun a b hab => ?_
  cases a <;> cases b <;> simp only [Post] at hab ⊢
  · exact hq _ _ hab
  · exact ⟨hab.1, hx _ _ hab.2⟩

theorem Sim.le {R : Out P → Out P → Prop} {o₀ o o' : Option (Out P)} (h : Sim R o o') (hl : Le o₀ o) : Sim R o₀ o' :=
  ⟨fun x hx => h.app x (hl.app x hx)⟩

theorem Sim.onOut {R : Out P → Out P → Prop} (hub : R .ub .ub) {o o' : Option (Out P)} {k k' : State P → Option (Out P)}
    {h h' : Value → State P → Option (Out P)}
    (ho : Sim (Post Q X) o o') (hk : ∀ s s', Q s s' → Sim R (k s) (k' s'))
    (hh : ∀ e s s', X s s' → Sim R (h e s) (h' e s')) : Sim R (Exec.onOut o k h) (Exec.onOut o' k' h') := by
  rcases o with _ | o
  · exact .none _
  · obtain ⟨x', h1, h2⟩ := ho.app _ rfl
    subst h1
    cases o <;> cases x' <;> simp only [Post] at h2
    · exact hk _ _ h2
    · obtain ⟨rfl, h2⟩ := h2; exact hh _ _ _ h2
    · exact ⟨fun x hx => ⟨.ub, rfl, by cases hx; exact hub⟩⟩

theorem Sim.andThen {o o' : Option (Out P)} {k k' : State P → Option (Out P)} (ho : Sim (Post Q X) o o')
    (hk : ∀ s s', Q s s' → Sim (Post Q' X') (k s) (k' s')) (hx : ∀ s s', X s s' → X' s s') :
    Sim (Post Q' X') (Exec.andThen o k) (Exec.andThen o' k') :=
  Sim.onOut trivial ho hk fun e _ _ h => .exc e (hx _ _ h)

theorem Sim.finish {o o' : Option (Out P)} {k k' : State P → State P} (ho : Sim (Post Q X) o o')
    (hk : ∀ s s', Q s s' → Q' (k s) (k' s')) (hx : ∀ s s', X s s' → X' (k s) (k' s')) :
    Sim (Post Q' X') (Exec.finish o k) (Exec.finish o' k') :=
  Sim.onOut trivial ho (fun _ _ h => .ok (hk _ _ h)) fun e _ _ h => .exc e (hx _ _ h)

theorem Sim.value {s s' : State P} {r r' : Res Value} {k k' : Value → Option (Out P)} (hr : r = r') (hx : X s s')
    (hk : ∀ v, Sim (Post Q X) (k v) (k' v)) : Sim (Post Q X) (Exec.withValue s r k) (Exec.withValue s' r' k') := by
  subst hr
  cases r
  · exact hk _
  · exact .exc _ hx
  · exact .ub

theorem Sim.top {s s' : State P} {r : Ref} {l l' : List Ref} {k k' : Ref → List Ref → Option (Out P)} {R : Out P → Out P → Prop}
    (hs : s.stack = r :: l) (hs' : s'.stack = r :: l')
    (hk : Sim R (k r l) (k' r l')) : Sim R (Exec.withTop s k) (Exec.withTop s' k') := by
  unfold Exec.withTop; rw [hs, hs']; exact hk

theorem Sim.next {s s' : State P} {k k' : Option (Out P)} (hs : s.status = s'.status)
    (hk : s.status = .next → s'.status = .next → Sim (Post Q X) k k') : Sim (Post Q X) (Exec.expectNext s k) (Exec.expectNext s' k') := by
  unfold Exec.expectNext
  by_cases h : s.status = .next
  · rw [if_pos h, if_pos (hs ▸ h)]; exact hk h (hs ▸ h)
  · rw [if_neg h, if_neg (hs ▸ h)]; exact .ub

theorem Sim.ite {R : Out P → Out P → Prop} {c c' : Prop} [Decidable c] [Decidable c'] {a a' b b' : Option (Out P)} (hc : c ↔ c')
    (ha : c → Sim R a a') (hb : ¬c → Sim R b b') : Sim R (if c then a else b) (if c' then a' else b') := by
  by_cases h : c
  · rw [if_pos h, if_pos (hc.1 h)]; exact ha h
  · rw [if_neg h, if_neg (fun h' => h (hc.2 h'))]; exact hb h
end

/-! ### Lists of nodes -/

/-- The nodes of a list, one after another. -/
def runSeq (sem : Sem P) (rec : Task P → State P → Option (Out P)) : List (Node P) → State P → Option (Out P)
  | [], s => some (.ok s)
  | n :: ns, s => andThen (runNode sem rec n s) fun s => if s.status = .next then runSeq sem rec ns s else some (.ok s)

theorem seq_le (n : Nat) : ∀ (l : List (Node P)) (s : State P), Le (exec sem (n + 1) (.seq l) s) (runSeq sem (exec sem n) l s)
  | [], s => Le.refl _
  | a :: l, s => by
    show Le (andThen (exec sem n (.node a) s) fun s => if s.status = .next then exec sem n (.seq l) s else some (.ok s)) _
    unfold runSeq
    refine Le.andThen ?_ fun s => Le.ite ?_ (Le.refl _)
    · cases n with
      | zero => exact ⟨fun x hx => by simp [exec] at hx⟩
      | succ n => exact Le.runNode (exec_le_succ sem n) a s
    · exact ⟨fun x hx => (seq_le n l s).app x ((exec_le_succ sem n _ _).app x hx)⟩

theorem run_seq : ∀ (l : List (Node P)) (s : State P), run sem (.seq l) s = runSeq sem (run sem) l s
  | [], s => by rw [run_step]; rfl
  | a :: l, s => by
    rw [run_step]
    simp only [step, runSeq]
    rw [run_step]
    simp only [step]
    congr 1
    funext s
    rw [run_seq l s]

theorem runSeq_append (rec : Task P → State P → Option (Out P)) (b : List (Node P)) : ∀ (a : List (Node P)) (s : State P), s.status = .next →
    runSeq sem rec (a ++ b) s = andThen (runSeq sem rec a s) fun s => if s.status = .next then runSeq sem rec b s else some (.ok s)
  | [], s, hs => by simp [runSeq, andThen, onOut, hs]
  | n :: a, s, _ => by
    simp only [List.cons_append, runSeq]
    rcases runNode sem rec n s with _ | o
    · rfl
    · cases o with
      | ok s1 =>
        simp only [andThen, onOut]
        by_cases h : s1.status = .next
        · rw [if_pos h, if_pos h]; exact runSeq_append rec b a s1 h
        · rw [if_neg h, if_neg h]; simp [h]
      | exc e s1 => rfl
      | ub => rfl

theorem runSeq_single (rec : Task P → State P → Option (Out P)) (n : Node P) (s : State P) :
    runSeq sem rec [n] s = runNode sem rec n s := by
  simp only [runSeq]
  rcases runNode sem rec n s with _ | o
  · rfl
  · cases o with
    | ok s1 => simp only [andThen, onOut]; split <;> rfl
    | exc e s1 => rfl
    | ub => rfl

/-- Nodes which only act on the stack. -/
theorem runSeq_pure (rec : Task P → State P → Option (Out P)) : ∀ {a : List (Node P)} {s : State P}, (∀ n ∈ a, isPure n = true) →
    s.status = .next → runSeq sem rec a s = match den sem a s.world s.stack with
      | .ok w l => some (.ok ({ s with world := w }.setStack l))
      | .throw e w l => some (.exc e ({ s with world := w }.setStack l))
      | .ub => some .ub
  | [], s, _, _ => by
    simp only [runSeq, den]
    congr 2
    unfold State.setStack State.stack
    cases hs : s.swapped <;> simp [State.swapped] at hs ⊢ <;> simp [hs]
  | n :: a, s, h, hst => by
    have h2 : ∀ {s : State P}, s.status = .next → _ := fun {s} => runSeq_pure rec (a := a) (s := s) fun x hx => h x (List.mem_cons_of_mem _ hx)
    have h1 := h n (by simp)
    have twice : ∀ (s : State P) (w w' : World) (l l' : List Ref),
        ({ ({ s with world := w } : State P).setStack l with world := w' } : State P).setStack l' = ({ s with world := w' } : State P).setStack l' := by
      intro s w w' l l'
      unfold State.setStack State.swapped
      cases s with
      | mk world funcs ptcs scopes stk0 stk1 status result trace =>
        cases scopes with
        | nil => rfl
        | cons sc ss => cases hsw : sc.swapped <;> simp [hsw]
    cases n <;> simp only [isPure, Bool.false_eq_true] at h1
    · rename_i v
      simp only [runSeq, runNode, andThen, onOut, den]
      rw [if_pos (by rw [push_status]; exact hst), h2 (by rw [push_status]; exact hst), push_world, push_stack]
      cases den sem a s.world (.temp v [] :: s.stack) with
      | ok w l => exact congrArg (fun x => some (Out.ok x)) (twice s s.world w _ l)
      | throw e w l => exact congrArg (fun x => some (Out.exc e x)) (twice s s.world w _ l)
      | ub => rfl
    · rename_i p
      simp only [runSeq, runNode, den]
      cases hp : sem.prim p s.world s.stack with
      | ok w l =>
        simp only [andThen, onOut]
        rw [if_pos (by rw [setStack_status]; exact hst), h2 (by rw [setStack_status]; exact hst), setStack_world, setStack_stack]
        cases den sem a w l with
        | ok w' l' => exact congrArg (fun x => some (Out.ok x)) (twice s w w' _ l')
        | throw e w' l' => exact congrArg (fun x => some (Out.exc e x)) (twice s w w' _ l')
        | ub => rfl
      | throw e w l => rfl
      | ub => rfl

end Asteria.Exec.Opt
