import Verif.Proof.Safe
import Verif.Proof.Compile

/-! Code that is made by the code generator keeps the discipline. -/

namespace Asteria.Compile

open Exec Exec.Safe

variable {P X : Type} {sig : P → Sig} {ar : X → Nat}

/-! ### Lists of nodes -/

theorem outs_append : ∀ (a b : List (Node P)) (T : Ty), outs sig T (a ++ b) = outs sig (outs sig T a) b
  | [], _, _ => rfl
  | n :: a, b, T => outs_append a b (out sig T n)

theorem typedSeq_append {j : Mode} : ∀ (a b : List (Node P)) (T : Ty),
    TypedSeq sig j T (a ++ b) ↔ TypedSeq sig j T a ∧ TypedSeq sig j (outs sig T a) b
  | [], b, T => by simp [TypedSeq, outs]
  | n :: a, b, T => by
    simp only [List.cons_append, TypedSeq, outs]
    rw [typedSeq_append a b, and_assoc]

theorem noAltSeq_append : ∀ (a b : List (Node P)), NoAltSeq (a ++ b) ↔ NoAltSeq a ∧ NoAltSeq b
  | [], b => by simp [NoAltSeq]
  | n :: a, b => by simp only [List.cons_append, NoAltSeq]; rw [noAltSeq_append a b, and_assoc]

theorem ended_snoc (n : Node P) : ∀ (a : List (Node P)), endsInTerminator (a ++ [n]) = isTerminator n
  | [] => by simp [endsInTerminator]
  | [m] => by simp [endsInTerminator]
  | m :: m' :: a => by
    have := ended_snoc n (m' :: a)
    simpa [endsInTerminator] using this

theorem not_ended_of : ∀ (a : List (Node P)), (∀ n ∈ a, isTerminator n = false) → endsInTerminator a = false
  | [], _ => rfl
  | [n], h => by simpa [endsInTerminator] using h n (by simp)
  | n :: m :: a, h => by
    have := not_ended_of (m :: a) fun x hx => h x (List.mem_cons_of_mem _ hx)
    simpa [endsInTerminator] using this

theorem ended_append {b : List (Node P)} (hb : b ≠ []) : ∀ (a : List (Node P)), endsInTerminator (a ++ b) = endsInTerminator b := by
  intro a
  rcases List.eq_nil_or_concat b with rfl | ⟨l, n, rfl⟩
  · exact absurd rfl hb
  · rw [List.concat_eq_append, ← List.append_assoc, ended_snoc, ended_snoc]

/-- Code that keeps the discipline and leaves the stacks in a known state. -/
structure Built (sig : P → Sig) (j : Mode) (T₀ : Ty) (code : List (Node P)) (T : Ty) : Prop where
  typed : TypedSeq sig j T₀ code
  eff : outs sig T₀ code = T

theorem Built.nil {j : Mode} (T : Ty) : Built sig j T [] T := ⟨by simp [TypedSeq], rfl⟩

theorem Built.push {j : Mode} {T₀ T T' : Ty} {code : List (Node P)} (h : Built sig j T₀ code T) {n : Node P} (hn : Typed sig j T n)
    (ho : out sig T n = T') : Built sig j T₀ (code ++ [n]) T' := by
  obtain ⟨h1, rfl⟩ := h
  refine ⟨(typedSeq_append _ _ _).2 ⟨h1, by simpa [TypedSeq] using hn⟩, ?_⟩
  rw [outs_append]; exact ho

theorem Built.append {j : Mode} {T₀ T T' : Ty} {a b : List (Node P)} (h : Built sig j T₀ a T) (h' : Built sig j T b T') :
    Built sig j T₀ (a ++ b) T' := by
  obtain ⟨h1, rfl⟩ := h
  obtain ⟨h2, rfl⟩ := h'
  exact ⟨(typedSeq_append _ _ _).2 ⟨h1, h2⟩, outs_append _ _ _⟩

theorem out_prim {T : Ty} {p : P} {a c : Nat} (h : sig p = ⟨a, 0, c⟩) : out sig T (.prim p) = T.setCur (T.cur - a + c) := by
  rcases T with ⟨k, m, _ | x⟩ <;> simp [out, h, Ty.setCur, Ty.cur]

theorem Built.prim {j : Mode} {T₀ T T' : Ty} {code : List (Node P)} (h : Built sig j T₀ code T) {p : P} {a c : Nat}
    (hp : sig p = ⟨a, 0, c⟩) (hc : a ≤ T.cur) (hT : T.setCur (T.cur - a + c) = T') :
    Built sig j T₀ (code ++ [.prim p]) T' :=
  h.push (by simp [Typed, hp, hc]) ((out_prim hp).trans hT)

theorem Built.last {j : Mode} {T₀ T : Ty} {l : List (Node P)} {n : Node P} {v : Value} (h : Built sig j T₀ (l ++ [n]) T)
    (hc : constant n = some v) : ∃ T₁, Built sig j T₀ l T₁ ∧ T = T₁.setCur (T₁.cur + 1) := by
  obtain ⟨h1, rfl⟩ := h
  refine ⟨outs sig T₀ l, ⟨((typedSeq_append _ _ _).1 h1).1, rfl⟩, ?_⟩
  rw [outs_append]
  cases n <;> simp_all [constant, outs, out]

/-- What the code generator does to the code. -/
structure Ext (sig : P → Sig) (o : Opts) (j : Mode) (T₀ T' : Ty) (free : Prop) (ptc : Ptc) (code c : List (Node P)) : Prop where
  built : Built sig j T₀ c T'
  open_ : ptc = .none → endsInTerminator c = false
  noAlt : (o.level = 0 ∨ free) → NoAltSeq code → NoAltSeq c

theorem Ext.push {o : Opts} {j : Mode} {T₀ T T' : Ty} {free : Prop} {ptc : Ptc} {code : List (Node P)} {n : Node P}
    (h : Built sig j T₀ code T) (hn : Typed sig j T n) (ho : out sig T n = T') (ht : ptc = .none → isTerminator n = false)
    (ha : (o.level = 0 ∨ free) → NoAlt n) : Ext sig o j T₀ T' free ptc code (code ++ [n]) :=
  ⟨h.push hn ho, fun hp => by rw [ended_snoc]; exact ht hp, fun hf hc =>
    (noAltSeq_append _ _).2 ⟨hc, by simpa [NoAltSeq] using ha hf⟩⟩

theorem Ext.prim {o : Opts} {j : Mode} {T₀ T T' : Ty} {free : Prop} {ptc : Ptc} {code : List (Node P)} {p : P} {a c : Nat}
    (h : Built sig j T₀ code T) (hp : sig p = ⟨a, 0, c⟩) (hc : a ≤ T.cur) (hT : T.setCur (T.cur - a + c) = T') :
    Ext sig o j T₀ T' free ptc code (code ++ [.prim p]) :=
  Ext.push h (by simp [Typed, hp, hc]) ((out_prim hp).trans hT) (fun _ => rfl) fun _ => by simp [NoAlt]

theorem Ext.short {o : Opts} {j : Mode} {T₀ T : Ty} {free : Prop} {ptc : Ptc} {l c : List (Node P)} {n : Node P}
    (h : Ext sig o j T₀ T free ptc l c) : Ext sig o j T₀ T free ptc (l ++ [n]) c :=
  ⟨h.built, h.open_, fun hf hc => h.noAlt hf ((noAltSeq_append _ _).1 hc).1⟩

/-! ### Operators -/

theorem genOp_ext {o : Opts} {e : Emit P X} (har : Arity e sig ar) (x : X) (assign : Bool) {j : Mode} {T₀ T : Ty} {n : Nat}
    {free : Prop} {ptc : Ptc} {code : List (Node P)} (h : Built sig j T₀ code T) (he : endsInTerminator code = false)
    (hx : effect ar (.op x assign) T.cur = some n) : Ext sig o j T₀ (T.setCur n) free ptc code (genOp o e x assign code) := by
  simp only [effect] at hx
  split at hx
  case isFalse => cases hx
  rename_i ha
  cases hx
  have plain : Ext sig o j T₀ (T.setCur (T.cur - ar x + 1)) free ptc code (code ++ [.prim (e.apply x assign)]) :=
    Ext.prim h (har.apply x assign) ha.2 rfl
  unfold genOp
  dsimp only
  split
  case isFalse => exact plain
  split
  · exact plain
  · rename_i v hv
    rcases List.eq_nil_or_concat code with rfl | ⟨l, nd, rfl⟩
    · simp at hv
    rw [List.concat_eq_append] at *
    have hv : constant nd = some v := by simpa using hv
    obtain ⟨T₁, h1, rfl⟩ := h.last hv
    simp only [Ty.cur_setCur, Ty.setCur_setCur] at ha plain ⊢
    have fold : ∀ (p : P) (a : Nat), sig p = ⟨a, 0, 1⟩ → a + 1 = ar x →
        Ext sig o j T₀ (T₁.setCur (T₁.cur + 1 - ar x + 1)) free ptc (l ++ [nd]) ((l ++ [nd]).dropLast ++ [.prim p]) := by
      intro p a hp hax
      rw [List.dropLast_concat]
      refine Ext.short (Ext.prim h1 hp (by omega) ?_)
      congr 1; omega
    split
    · rename_i hpos
      have h2 := har.pos x hpos.1
      rw [h2]
      refine ⟨?_, fun _ => he, fun _ hc => hc⟩
      simpa using h
    · split
      · rename_i hn _
        exact fold _ 1 (har.checkNull _) (har.nullTest x _ hn).symm
      · split
        · rename_i hi
          exact fold _ 1 (har.member _) (har.index x hi).symm
        · exact plain
      · split
        · rename_i hi
          rw [List.dropLast_concat, har.notb x hi]
          exact Ext.short (Ext.push h1 (by simp [Typed]) rfl (fun _ => rfl) fun _ => by simp [NoAlt])
        · split
          · rename_i hi
            have h3 := har.applyConst x assign (Int.bmod ‹Int› (2 ^ 32)) hi.2
            exact fold _ _ h3.2 (by omega)
          · exact plain
      · exact plain

theorem genReturn_built {o : Opts} (byRef one : Bool) {T : Ty} {code : List (Node P)} (h : Built sig .stmt T0 code T)
    (ha : T.alt = none) (hk : 1 ≤ T.k) : Built sig .stmt T0 (genReturn o byRef one code) T0 := by
  have plain : Built sig .stmt T0 (code ++ [.returnS byRef false]) T0 := h.push (by simp [Typed, ha, hk]) rfl
  have fold : ∀ v w, code.getLast?.bind constant = some v → Built sig .stmt T0 (code.dropLast ++ [.returnConst w]) T0 := by
    intro v w hv
    rcases List.eq_nil_or_concat code with rfl | ⟨l, nd, rfl⟩
    · simp at hv
    rw [List.concat_eq_append] at *
    obtain ⟨T₁, h1, rfl⟩ := h.last (by simpa using hv)
    rw [List.dropLast_concat]
    exact h1.push (by simpa [Typed] using ha) rfl
  unfold genReturn
  dsimp only
  split
  · split
    · exact fold _ _ ‹_›
    · exact fold _ _ ‹_›
    · split
      · exact fold _ _ ‹_›
      · exact plain
    · exact plain
  · exact plain

theorem genTrap_built {o : Opts} {e : Emit P X} (har : Arity e sig ar) {j : Mode} {T₀ T : Ty} {code : List (Node P)}
    (h : Built sig j T₀ code T) : Built sig j T₀ (genTrap o e code) T := by
  unfold genTrap
  split
  · exact h.prim har.trap (Nat.zero_le _) (by simp)
  · exact h

theorem genTrap_ended {o : Opts} {e : Emit P X} {code : List (Node P)} (h : endsInTerminator code = false) :
    endsInTerminator (genTrap o e code) = false := by
  unfold genTrap
  split
  · rw [ended_snoc]; rfl
  · exact h

theorem genTrap_noAlt {o : Opts} {e : Emit P X} {code : List (Node P)} (h : NoAltSeq code) : NoAltSeq (genTrap o e code) := by
  unfold genTrap
  split
  · exact (noAltSeq_append _ _).2 ⟨h, by simp [NoAltSeq, NoAlt]⟩
  · exact h

theorem genClear_built {o : Opts} {e : Emit P X} (har : Arity e sig ar) {j : Mode} {T₀ T : Ty} {code : List (Node P)}
    (h : Built sig j T₀ code T) (ha : T.alt = none) : Built sig j T₀ (genClear o e code) T0 :=
  genTrap_built har (h.push (by simpa [Typed] using ha) rfl)

theorem genClear_ended {o : Opts} {e : Emit P X} {code : List (Node P)} : endsInTerminator (genClear o e code) = false :=
  genTrap_ended (by rw [ended_snoc]; rfl)

/-! ### Expressions in the middle of others -/

theorem effect_add {u : XUnit X} {a c : Nat} (d : Nat) (h : effect ar u a = some c) : effect ar u (a + d) = some (c + d) := by
  cases u <;> simp only [effect] at h ⊢
  all_goals first
    | (split at h
       · simp only [Option.some.injEq] at h; subst h; rw [if_pos (by omega)] <;> (refine congrArg some ?_; omega)
       · cases h)
    | (cases h; refine congrArg some ?_; omega)

theorem effects_add (d : Nat) : ∀ {us : List (XUnit X)} {a c : Nat}, effects ar us a = some c → effects ar us (a + d) = some (c + d)
  | [], _, _, h => by cases h; rfl
  | u :: us, a, c, h => by
    unfold effects at h ⊢
    obtain ⟨b, h1, h2⟩ := Option.bind_eq_some_iff.1 h
    rw [effect_add d h1, Option.bind_some]
    exact effects_add d h2

theorem one_at {us : List (XUnit X)} (h : one ar us) (n : Nat) : effects ar us n = some (n + 1) := by
  have := effects_add n h
  rwa [Nat.zero_add, Nat.add_comm] at this

theorem one_ne {us : List (XUnit X)} (h : one ar us) : us ≠ [] := by
  rintro rfl; cases h

/-- The code of a branch. -/
structure ArmOk (sig : P → Sig) (o : Opts) (j : Mode) (T : Ty) (free : Prop) (ptc : Ptc) (c : List (Node P)) : Prop where
  built : c = [] ∨ Built sig j T c (T.setCur (T.cur + 1))
  open_ : ptc = .none → endsInTerminator c = false
  noAlt : (o.level = 0 ∨ free) → NoAltSeq c

theorem ArmOk.arm {o : Opts} {j : Mode} {T : Ty} {free : Prop} {ptc : Ptc} {c : List (Node P)} {a : Bool} (hc : 1 ≤ T.cur)
    (h : ArmOk sig o (if a then .expr else j) (if a then T else T.setCur (T.cur - 1)) free ptc c) : Arm sig j T a c := by
  rcases h.built with h1 | h1
  · exact .inl h1
  · refine .inr ?_
    cases a with
    | true => exact ⟨h1.typed, h1.eff⟩
    | false =>
      refine ⟨h1.typed, h1.eff.trans ?_⟩
      simp only [Bool.false_eq_true, if_false, Ty.cur_setCur, Ty.setCur_setCur]
      rw [show T.cur - 1 + 1 = T.cur by omega, Ty.setCur_cur]

theorem genBranch_ext {o : Opts} {j : Mode} {T₀ T : Ty} {free : Prop} {ptc : Ptc} {code : List (Node P)} {a : Bool}
    {l : List (BranchKind × List (Node P))} {n : Node P} (hb : Built sig j T₀ code T) (hc : 1 ≤ T.cur)
    (h : genBranch a l = .ok n)
    (hl : ∀ p ∈ l, ArmOk sig o (if a then .expr else j) (if a then T else T.setCur (T.cur - 1)) free (if a then .none else ptc) p.2) :
    Ext sig o j T₀ T free ptc code (code ++ [n]) := by
  have nilOk : ∀ (j : Mode) (T : Ty) (ptc : Ptc), ArmOk sig o j T free ptc ([] : List (Node P)) := fun j T ptc =>
    ⟨.inl rfl, fun _ => rfl, fun _ => by simp [NoAltSeq]⟩
  have hp : ptc = .none → (if a then Ptc.none else ptc) = .none := by intro h; rw [h]; simp
  have two : ∀ t f : List (Node P),
      ArmOk sig o (if a then .expr else j) (if a then T else T.setCur (T.cur - 1)) free (if a then .none else ptc) t →
      ArmOk sig o (if a then .expr else j) (if a then T else T.setCur (T.cur - 1)) free (if a then .none else ptc) f →
      Ext sig o j T₀ T free ptc code (code ++ [.branchE t f a]) := by
    intro t f ht hf
    refine Ext.push hb ?_ rfl (fun h0 => ?_) fun h0 => ?_
    · unfold Typed; exact ⟨hc, ht.arm hc, hf.arm hc⟩
    · simp [isTerminator, ht.open_ (hp h0)]
    · unfold NoAlt; exact ⟨ht.noAlt h0, hf.noAlt h0⟩
  unfold genBranch at h
  split at h
  · cases h; exact two _ _ (nilOk _ _ _) (nilOk _ _ _)
  · cases h
    have h1 := hl _ (List.mem_singleton.2 rfl)
    refine Ext.push hb ?_ rfl (fun h0 => ?_) fun h0 => ?_
    · unfold Typed; exact ⟨hc, h1.arm hc⟩
    · rfl
    · unfold NoAlt; exact h1.noAlt h0
  · cases h; exact two _ _ (hl (.true, _) (by simp)) (nilOk _ _ _)
  · cases h; exact two _ _ (nilOk _ _ _) (hl (.false, _) (by simp))
  · cases h; exact two _ _ (hl (.true, _) (by simp)) (nilOk _ _ _)
  · cases h; exact two _ _ (nilOk _ _ _) (hl (.false, _) (by simp))
  · cases h; exact two _ _ (hl (.true, _) (by simp)) (hl (.false, _) (by simp))
  · cases h; exact two _ _ (hl (.true, _) (by simp)) (hl (.false, _) (by simp))
  · cases h

/-- A tail call is possible here. -/
def Tail (ptc : Ptc) (j : Mode) (T : Ty) : Prop := ptc = .none ∨ (j = .stmt ∧ T.alt = none)

theorem Tail.ptcIf {o : Opts} {ptc : Ptc} {j : Mode} {T : Ty} (h : Tail ptc j T) (hp : ptcIf o ptc ≠ .none) : j = .stmt := by
  rcases h with rfl | h
  · exact absurd (by simp [Compile.ptcIf]) hp
  · exact h.1

theorem ptcIf_none (o : Opts) : ptcIf o .none = .none := by simp [ptcIf]

/-- The place of a statement. -/
def Place (j : Mode) (ptc : Ptc) (ok : Bool) : Prop := j = .stmt ∨ (j = .init ∧ ok = true ∧ ptc = .none)

theorem Place.ne {j : Mode} {ptc : Ptc} {ok : Bool} (h : Place j ptc ok) : j ≠ .expr := by
  rcases h with rfl | h
  · simp
  · rw [h.1]; simp

theorem Place.stmt {j : Mode} {ptc : Ptc} (h : Place j ptc false) : j = .stmt := by
  rcases h with rfl | h
  · rfl
  · cases h.2.1

theorem Place.tail {j : Mode} {ptc : Ptc} {ok : Bool} {T : Ty} (h : Place j ptc ok) (ha : T.alt = none) : Tail ptc j T := by
  rcases h with rfl | h
  · exact .inr ⟨rfl, ha⟩
  · exact .inl h.2.2

/-- The code of statements. -/
def Code (sig : P → Sig) (j : Mode) (code : List (Node P)) : Prop := ∃ T, Built sig j T0 code T ∧ T.alt = none

theorem Code.nil (j : Mode) : Code sig j ([] : List (Node P)) := ⟨T0, Built.nil _, rfl⟩

theorem Code.push {j : Mode} {code : List (Node P)} (h : Code sig j code) {n : Node P}
    (hn : ∀ T : Ty, T.alt = none → Typed sig j T n ∧ (out sig T n).alt = none) : Code sig j (code ++ [n]) := by
  obtain ⟨T, h1, h2⟩ := h
  exact ⟨_, h1.push (hn T h2).1 rfl, (hn T h2).2⟩

theorem Code.body {code : List (Node P)} (h : Code sig .stmt code) : Body sig code := by
  obtain ⟨T, h1, h2⟩ := h
  exact ⟨h1.typed, by rw [h1.eff]; exact h2⟩

theorem Ext.whole {o : Opts} {n : Nat} {free : Prop} {ptc : Ptc} {code c : List (Node P)}
    (h : Ext sig o .expr T0 (T0.setCur n) free ptc code c) : Whole sig c ∧ (outs sig T0 c).k = n := by
  refine ⟨⟨h.built.typed, ?_⟩, ?_⟩ <;> rw [h.built.eff] <;> rfl

theorem declareVars_built {j : Mode} (hj : j ≠ .expr) (ns : List Name) {T₀ : Ty} : ∀ {code : List (Node P)} {m : Nat},
    Built sig j T₀ code ⟨0, m, none⟩ → Built sig j T₀ (code ++ ns.map fun n => .declareVar n) ⟨0, m + ns.length, none⟩ := by
  induction ns with
  | nil => intro code m h; simpa using h
  | cons n ns ih =>
    intro code m h
    have h1 : Built sig j T₀ (code ++ [.declareVar n]) ⟨0, m + 1, none⟩ := h.push (by simp [Typed, hj]) rfl
    have := ih h1
    rw [List.append_assoc] at this
    rw [List.length_cons, show m + (ns.length + 1) = m + 1 + ns.length by omega]
    simpa using this

theorem defineNulls_code {j : Mode} (hj : j ≠ .expr) (imm : Bool) (ns : List Name) : ∀ {code : List (Node P)},
    Code sig j code → Code sig j (code ++ ns.map fun n => .defineNull imm n) := by
  induction ns with
  | nil => intro code h; simpa using h
  | cons n ns ih =>
    intro code h
    have h1 : Code sig j (code ++ [.defineNull imm n]) := h.push fun T ha => ⟨by simp [Typed, hj], ha⟩
    have := ih h1
    simpa using this

mutual
theorem genUnit_ext (o : Opts) {e : Emit P X} (har : Arity e sig ar) : ∀ (u : XUnit X) {Γ : List (List Name)} {ptc : Ptc}
    {code c : List (Node P)} {j : Mode} {T₀ T : Ty} {n : Nat}, WfU o ar u → genUnit o e Γ ptc u code = .ok c →
    endsInTerminator code = false → Built sig j T₀ code T → effect ar u T.cur = some n →
    (T.alt = none ∨ clobbers u = false) → Tail ptc j T → Ext sig o j T₀ (T.setCur n) (callFree u = true) ptc code c
  | u, Γ, ptc, code, c, j, T₀, T, n, hw, h, he, hb, hx, ha, hp => by
    unfold genUnit at h
    rw [he] at h
    simp only [Bool.false_eq_true, if_false] at h
    cases u with
    | literal v =>
      cases h; cases hx
      exact Ext.push hb (by simp [Typed]) rfl (fun _ => rfl) fun _ => by simp [NoAlt]
    | localRef nm =>
      cases hx
      obtain ⟨d, _, h2⟩ := bind_ok h
      cases d with
      | some d => cases h2; exact Ext.push hb (by simp [Typed]) rfl (fun _ => rfl) fun _ => by simp [NoAlt]
      | none =>
        simp only at h2
        split at h2
        · cases h2; exact Ext.prim hb (har.global nm) (Nat.zero_le _) rfl
        · cases h2
    | closure ps va b =>
      cases hx
      obtain ⟨g, h1, rfl⟩ := map_ok h
      unfold WfU at hw
      have h2 := (genStmts_code o har b (j := .stmt) hw h1 (Code.nil _) (.inl rfl)).body
      exact Ext.push hb (by unfold Typed; exact h2) rfl (fun _ => rfl) fun _ => by simp [NoAlt]
    | branch bs a =>
      simp only [effect] at hx
      split at hx
      case isFalse => cases hx
      rename_i hc
      cases hx
      obtain ⟨l, h1, h2⟩ := bind_ok h
      obtain ⟨nd, h3, rfl⟩ := map_ok h2
      unfold WfU at hw
      rw [Ty.setCur_cur]
      refine genBranch_ext hb hc h3 ?_
      have ha' : (if a = true then T else T.setCur (T.cur - 1)).alt = none ∨ clobbersBranches bs = false := by
        rcases ha with ha | ha
        · left; cases a <;> simpa using ha
        · right; simpa [clobbers] using ha
      have hp' : Tail (if a = true then Ptc.none else ptc) (if a = true then Mode.expr else j)
          (if a = true then T else T.setCur (T.cur - 1)) := by
        cases a with
        | true => exact .inl rfl
        | false =>
          rcases hp with hp | hp
          · exact .inl hp
          · exact .inr ⟨hp.1, by simpa using hp.2⟩
      intro p hpl
      have := genBranches_arms o har bs hw h1 ha' hp' p hpl
      simpa only [callFree] using this
    | call args =>
      simp only [effect] at hx
      split at hx
      case isFalse => cases hx
      rename_i hc
      cases hx
      have ha : T.alt = none := ha.resolve_right (by simp [clobbers])
      unfold WfU at hw
      rw [Ty.cur_none ha] at hc
      rw [Ty.setCur_cur]
      simp only at h
      split at h
      · rename_i hal
        obtain ⟨c', h1, rfl⟩ := map_ok h
        have hcl : clobbersArgs args = false ∧ 1 ≤ o.level := by
          simp only [onAlt, Bool.and_eq_true, decide_eq_true_eq, Bool.not_eq_true'] at hal
          exact ⟨hal.2, hal.1⟩
        have h2 : Built sig j T₀ (code ++ [.altClear]) { T with alt := some 0 } := hb.push (by simpa [Typed] using ha) rfl
        have h3 := genArgs_ext o har args hw h1 (by rw [ended_snoc]; rfl) h2 (.inr hcl.1)
        refine ⟨h3.built.push ?_ ?_, fun h0 => ?_, fun h0 => ?_⟩
        · unfold Typed
          exact ⟨rfl, hc, fun h0 => hp.ptcIf h0⟩
        · rcases T with ⟨k, m, _ | x⟩
          · rfl
          · cases ha
        · rw [ended_snoc, h0, ptcIf_none]; rfl
        · rcases h0 with h0 | h0
          · omega
          · simp [callFree] at h0
      · obtain ⟨c', h1, rfl⟩ := map_ok h
        have h3 := genArgs_ext o har args hw h1 he hb (.inl ha)
        refine ⟨h3.built.push ?_ ?_, fun h0 => ?_, fun h0 hc' => ?_⟩
        · unfold Typed
          refine ⟨by simpa using ha, ?_, fun h0 => hp.ptcIf h0⟩
          rw [Ty.setCur_none ha, Ty.cur_none ha]
          show args.length + 1 ≤ T.k + args.length
          omega
        · simp [out]
        · rw [ended_snoc, h0, ptcIf_none]; rfl
        · refine (noAltSeq_append _ _).2 ⟨h3.noAlt (h0.imp id fun h0 => by simp [callFree] at h0) hc', by simp [NoAltSeq, NoAlt]⟩
    | op x a => cases h; exact genOp_ext har x a hb he hx
    | array k =>
      cases h
      simp only [effect] at hx
      split at hx
      case isFalse => cases hx
      cases hx
      exact Ext.prim hb (har.array k) ‹_› rfl
    | object ks =>
      cases h
      simp only [effect] at hx
      split at hx
      case isFalse => cases hx
      cases hx
      exact Ext.prim hb (har.object ks) ‹_› rfl
    | globalRef nm => cases h; cases hx; exact Ext.prim hb (har.global nm) (Nat.zero_le _) rfl
    | checkArg r =>
      simp only [effect] at hx
      split at hx
      case isFalse => cases hx
      rename_i hc
      cases hx
      rw [Ty.setCur_cur]
      simp only at h
      split at h
      · cases h; exact ⟨hb, fun _ => he, fun _ hc => hc⟩
      · cases h; exact Ext.push hb (by simpa [Typed] using hc) rfl (fun _ => rfl) fun _ => by simp [NoAlt]
    | catchE us =>
      cases hx
      obtain ⟨c', h1, rfl⟩ := map_ok h
      unfold WfU at hw
      obtain ⟨k, hk⟩ := Option.isSome_iff_exists.1 hw.2.1
      have ha : T.alt = none := ha.resolve_right (by simp [clobbers])
      have h2 := genUnits_ext o har us (j := .expr) (T₀ := T0) (T := T0) hw.1 h1 rfl (Built.nil _) hk (.inl rfl) (.inl rfl)
      refine Ext.push hb ?_ rfl (fun _ => rfl) fun _ => by simp [NoAlt]
      unfold Typed
      exact ⟨ha, h2.whole.1.1, h2.whole.1.2, h2.noAlt hw.2.2 (by simp [NoAltSeq])⟩
termination_by structural x => x

theorem genUnits_ext (o : Opts) {e : Emit P X} (har : Arity e sig ar) : ∀ (us : List (XUnit X)) {Γ : List (List Name)} {ptc : Ptc}
    {code c : List (Node P)} {j : Mode} {T₀ T : Ty} {n : Nat}, WfUs o ar us → genUnits o e Γ ptc us code = .ok c →
    endsInTerminator code = false → Built sig j T₀ code T → effects ar us T.cur = some n →
    (T.alt = none ∨ clobbersUnits us = false) → Tail ptc j T → Ext sig o j T₀ (T.setCur n) (callFreeU us = true) ptc code c
  | [], Γ, ptc, code, c, j, T₀, T, n, hw, h, he, hb, hx, ha, hp => by
    simp only [genUnits, Res.ok.injEq] at h; subst h; cases hx
    rw [Ty.setCur_cur]
    exact ⟨hb, fun _ => he, fun _ hc => hc⟩
  | u :: us, Γ, ptc, code, c, j, T₀, T, n, hw, h, he, hb, hx, ha, hp => by
    unfold genUnits at h
    unfold WfUs at hw
    unfold effects at hx
    obtain ⟨k, hx1, hx2⟩ := Option.bind_eq_some_iff.1 hx
    obtain ⟨c', h1, h2⟩ := bind_ok h
    have ha1 : T.alt = none ∨ clobbers u = false := ha.imp id fun h => by simp [clobbersUnits] at h; exact h.1
    have ha2 : (T.setCur k).alt = none ∨ clobbersUnits us = false := ha.imp (fun h => by simpa using h) fun h => by
      simp [clobbersUnits] at h; exact h.2
    have hp1 : Tail (if us.isEmpty then ptc else .none) j T := by
      split
      · exact hp
      · exact .inl rfl
    have h3 := genUnit_ext o har u hw.1 h1 he hb hx1 ha1 hp1
    cases us with
    | nil =>
      simp only [genUnits, Res.ok.injEq] at h2; subst h2; cases hx2
      exact ⟨h3.built, h3.open_, fun h0 => h3.noAlt (h0.imp id fun h => by simp [callFreeU] at h; exact h)⟩
    | cons u' us =>
      have hp2 : Tail ptc j (T.setCur k) := hp.imp id fun h => ⟨h.1, by simpa using h.2⟩
      have h4 := genUnits_ext o har (u' :: us) hw.2 h2 (h3.open_ rfl) h3.built (by simpa using hx2) ha2 hp2
      rw [Ty.setCur_setCur] at h4
      refine ⟨h4.built, h4.open_, fun h0 hc => h4.noAlt (h0.imp id fun h => ?_) (h3.noAlt (h0.imp id fun h => ?_) hc)⟩
      · rw [callFreeU, Bool.and_eq_true] at h; exact h.2
      · rw [callFreeU, Bool.and_eq_true] at h; exact h.1
termination_by structural x => x

theorem genBranches_arms (o : Opts) {e : Emit P X} (har : Arity e sig ar) : ∀ (bs : List (Branch X)) {Γ : List (List Name)}
    {ptc : Ptc} {l : List (BranchKind × List (Node P))} {j : Mode} {T : Ty}, WfBs o ar bs →
    genBranches o e Γ ptc bs = .ok l → (T.alt = none ∨ clobbersBranches bs = false) → Tail ptc j T →
    ∀ p ∈ l, ArmOk sig o j T (callFreeB bs = true) ptc p.2
  | [], _, _, _, _, _, _, h, _, _ => by simp only [genBranches, Res.ok.injEq] at h; subst h; simp
  | .mk k us :: bs, Γ, ptc, l, j, T, hw, h, ha, hp => by
    unfold genBranches at h
    unfold WfBs at hw
    obtain ⟨c, h1, h2⟩ := bind_ok h
    obtain ⟨l, h3, rfl⟩ := map_ok h2
    have ha1 : T.alt = none ∨ clobbersUnits us = false := ha.imp id fun h => by simp [clobbersBranches] at h; exact h.1
    have ha2 : T.alt = none ∨ clobbersBranches bs = false := ha.imp id fun h => by simp [clobbersBranches] at h; exact h.2
    intro p hpl
    rcases List.mem_cons.1 hpl with rfl | hpl
    · rcases hw.1.2 with rfl | h0
      · simp only [genUnits, Res.ok.injEq] at h1; subst h1
        exact ⟨.inl rfl, fun _ => rfl, fun _ => by simp [NoAltSeq]⟩
      · have h4 := genUnits_ext o har us hw.1.1 h1 rfl (Built.nil T) (one_at h0 _) ha1 hp
        refine ⟨.inr h4.built, h4.open_, fun h0 => h4.noAlt (h0.imp id fun h => ?_) (by simp [NoAltSeq])⟩
        rw [callFreeB, Bool.and_eq_true] at h; exact h.1
    · have h4 := genBranches_arms o har bs hw.2 h3 ha2 hp p hpl
      refine ⟨h4.built, h4.open_, fun h0 => h4.noAlt (h0.imp id fun h => ?_)⟩
      rw [callFreeB, Bool.and_eq_true] at h; exact h.2
termination_by structural x => x

theorem genArgs_ext (o : Opts) {e : Emit P X} (har : Arity e sig ar) : ∀ (as : List (Arg X)) {Γ : List (List Name)}
    {code c : List (Node P)} {j : Mode} {T₀ T : Ty}, WfAs o ar as → genArgs o e Γ as code = .ok c →
    endsInTerminator code = false → Built sig j T₀ code T →
    (T.alt = none ∨ clobbersArgs as = false) → Ext sig o j T₀ (T.setCur (T.cur + as.length)) False .none code c
  | [], Γ, code, c, j, T₀, T, _, h, he, hb, _ => by
    simp only [genArgs, Res.ok.injEq] at h; subst h
    refine ⟨by simpa using hb, fun _ => he, fun _ hc => hc⟩
  | .mk us :: as, Γ, code, c, j, T₀, T, hw, h, he, hb, ha => by
    unfold genArgs at h
    unfold WfAs at hw
    obtain ⟨c', h1, h2⟩ := bind_ok h
    have ha1 : T.alt = none ∨ clobbersUnits us = false := ha.imp id fun h => by simp [clobbersArgs] at h; exact h.1
    have ha2 : (T.setCur (T.cur + 1)).alt = none ∨ clobbersArgs as = false := ha.imp (fun h => by simpa using h) fun h => by
      simp [clobbersArgs] at h; exact h.2
    have h3 := genUnits_ext o har us hw.1.1 h1 he hb (one_at hw.1.2 _) ha1 (.inl rfl)
    have h4 := genArgs_ext o har as hw.2 h2 (h3.open_ rfl) h3.built ha2
    simp only [Ty.cur_setCur, Ty.setCur_setCur] at h4
    have hlen : T.cur + 1 + as.length = T.cur + (Arg.mk us :: as).length := by simp; omega
    rw [hlen] at h4
    exact ⟨h4.built, h4.open_, fun h0 hc => h4.noAlt h0 (h3.noAlt (h0.imp id False.elim) hc)⟩
termination_by structural x => x

theorem genStmt_code (o : Opts) {e : Emit P X} (har : Arity e sig ar) : ∀ (s : Stmt X) {ptc : Ptc} {g g' : Gen P} {j : Mode},
    WfS o ar s → genStmt o e ptc s g = .ok g' → Code sig j g.code → Place j ptc (isInit s) → Code sig j g'.code
  | s, ptc, g, g', j, hw, h, hg, hj => by
    unfold genStmt at h
    split at h
    · cases h; exact hg
    have clear : Built sig j T0 (genClear o e g.code) T0 := by
      obtain ⟨T, h1, h2⟩ := hg; exact genClear_built har h1 h2
    have clear0 : Built sig .expr T0 (genClear o e ([] : List (Node P))) T0 := genClear_built har (Built.nil _) rfl
    cases s with
    | expr us =>
      obtain ⟨c, h1, rfl⟩ := map_ok h
      unfold WfS at hw
      obtain ⟨k, hk⟩ := Option.isSome_iff_exists.1 hw.2
      have h2 := genUnits_ext o har us hw.1 h1 genClear_ended clear hk (.inl rfl) (hj.tail rfl)
      exact ⟨_, h2.built, rfl⟩
    | block b =>
      cases b with
      | nil => simp only [flat, if_true, genFlat, Res.map] at h; cases h; exact hg
      | cons b0 b =>
      obtain rfl := Place.stmt hj
      unfold WfS at hw
      simp only at h
      split at h
      · obtain ⟨g₁, h1, rfl⟩ := map_ok h
        have h2 := genFlat_code o har (b0 :: b) hw h1 hg
        exact h2
      · obtain ⟨g₁, h1, rfl⟩ := map_ok h
        have h2 := (genStmts_code o har (b0 :: b) (j := .stmt) hw h1 (Code.nil _) (.inl rfl)).body
        exact hg.push fun T ha => ⟨by unfold Typed; exact ⟨rfl, ha, h2⟩, rfl⟩
    | vars imm ds => unfold WfS at hw; exact genDecls_code o har ds hw h hg hj.ne
    | func n ps va b =>
      obtain rfl := Place.stmt hj
      unfold WfS at hw
      obtain ⟨g₁, h1, rfl⟩ := map_ok h
      have h2 := (genStmts_code o har b (j := .stmt) hw h1 (Code.nil _) (.inl rfl)).body
      obtain ⟨T, h3, h4⟩ := hg
      have h5 : Built sig .stmt T0 (g.code ++ [.declareVar n]) ⟨0, if T.k = 0 then T.m + 1 else 1, none⟩ :=
        h3.push (by simp [Typed, h4]) rfl
      have h6 : Built sig .stmt T0 (g.code ++ [.declareVar n] ++ [.defineFunc ps va g₁.code])
          ⟨1, if T.k = 0 then T.m + 1 else 1, none⟩ := h5.push (by unfold Typed; exact h2) rfl
      have h7 := h6.push (n := .initVar true) (T' := ⟨0, (if T.k = 0 then T.m + 1 else 1) - 1, none⟩) (by
        unfold Typed; refine ⟨by simp, rfl, rfl, ?_⟩; show 1 ≤ if T.k = 0 then T.m + 1 else 1; split <;> omega) rfl
      exact ⟨⟨0, (if T.k = 0 then T.m + 1 else 1) - 1, none⟩, by simpa [Gen.emit] using h7, rfl⟩
    | ifS neg c t f =>
      obtain rfl := Place.stmt hj
      unfold WfS at hw
      simp only at h
      split at h
      · cases h
      obtain ⟨c', h1, h2⟩ := bind_ok h
      obtain ⟨gt, h3, h4⟩ := bind_ok h2
      obtain ⟨gf, h5, rfl⟩ := map_ok h4
      have h6 := genUnits_ext o har c hw.1.1 h1 genClear_ended clear (one_at hw.1.2 _) (.inl rfl) (.inl rfl)
      have h7 := (genStmts_code o har t (j := .stmt) hw.2.1 h3 (Code.nil _) (.inl rfl)).body
      have h8 := (genStmts_code o har f (j := .stmt) hw.2.2 h5 (Code.nil _) (.inl rfl)).body
      exact ⟨_, h6.built.push (by unfold Typed; exact ⟨rfl, rfl, Nat.le_refl 1, h7, h8⟩) rfl, rfl⟩
    | switchS c cs =>
      obtain rfl := Place.stmt hj
      unfold WfS at hw
      simp only at h
      split at h
      · cases h
      obtain ⟨c', h1, h2⟩ := bind_ok h
      obtain ⟨l, h3, rfl⟩ := map_ok h2
      have h6 := genUnits_ext o har c hw.1.1 h1 genClear_ended clear (one_at hw.1.2 _) (.inl rfl) (.inl rfl)
      have h7 := genClauses_typed o har cs hw.2 h3
      exact ⟨_, h6.built.push (by unfold Typed; exact ⟨rfl, rfl, Nat.le_refl 1, h7⟩) rfl, rfl⟩
    | doWhile b neg c k =>
      obtain rfl := Place.stmt hj
      unfold WfS at hw
      obtain ⟨gb, h1, h2⟩ := bind_ok h
      split at h2
      · cases h2
      obtain ⟨c', h3, h4⟩ := bind_ok h2
      obtain ⟨gk, h5, rfl⟩ := map_ok h4
      have h6 := (genUnits_ext o har c hw.2.1.1 h3 genClear_ended clear0 (one_at hw.2.1.2 _) (.inl rfl) (.inl rfl)).whole
      have h7 := (genStmts_code o har b (j := .stmt) hw.1 h1 (Code.nil _) (.inl rfl)).body
      have h8 := (genStmts_code o har k (j := .stmt) hw.2.2 h5 (Code.nil _) (.inl rfl)).body
      exact hg.push fun T ha => ⟨by unfold Typed; exact ⟨rfl, ha, h7, ⟨h6.1.1, h6.1.2, h6.2.ge⟩, h8⟩, rfl⟩
    | whileS neg c b k =>
      obtain rfl := Place.stmt hj
      unfold WfS at hw
      simp only at h
      split at h
      · cases h
      obtain ⟨c', h3, h2⟩ := bind_ok h
      obtain ⟨gb, h1, h4⟩ := bind_ok h2
      obtain ⟨gk, h5, rfl⟩ := map_ok h4
      have h6 := (genUnits_ext o har c hw.1.1 h3 genClear_ended clear0 (one_at hw.1.2 _) (.inl rfl) (.inl rfl)).whole
      have h7 := (genStmts_code o har b (j := .stmt) hw.2.1 h1 (Code.nil _) (.inl rfl)).body
      have h8 := (genStmts_code o har k (j := .stmt) hw.2.2 h5 (Code.nil _) (.inl rfl)).body
      exact hg.push fun T ha => ⟨by unfold Typed; exact ⟨rfl, ha, ⟨h6.1.1, h6.1.2, h6.2.ge⟩, h7, h8⟩, rfl⟩
    | forEach kn mn i b k =>
      obtain rfl := Place.stmt hj
      unfold WfS at hw
      simp only at h
      split at h
      · cases h
      obtain ⟨c', h3, h2⟩ := bind_ok h
      obtain ⟨gb, h1, h4⟩ := bind_ok h2
      obtain ⟨gk, h5, rfl⟩ := map_ok h4
      have h6 := (genUnits_ext o har i hw.1.1 h3 genClear_ended clear0 (one_at hw.1.2 _) (.inl rfl) (.inl rfl)).whole
      have h7 := (genStmts_code o har b (j := .stmt) hw.2.1 h1 (Code.nil _) (.inl rfl)).body
      have h8 := (genStmts_code o har k (j := .stmt) hw.2.2 h5 (Code.nil _) (.inl rfl)).body
      exact hg.push fun T ha => ⟨by unfold Typed; exact ⟨rfl, ha, ⟨h6.1.1, h6.1.2, h6.2.ge⟩, h7, h8⟩, rfl⟩
    | forS i c s b k =>
      obtain rfl := Place.stmt hj
      unfold WfS at hw
      obtain ⟨gi, h1, h2⟩ := bind_ok h
      obtain ⟨c', h3, h4⟩ := bind_ok h2
      obtain ⟨s', h5, h6⟩ := bind_ok h4
      obtain ⟨gb, h7, h8⟩ := bind_ok h6
      obtain ⟨gk, h9, rfl⟩ := map_ok h8
      obtain ⟨⟨wi, wi'⟩, ⟨wc, wc'⟩, ⟨ws, ws'⟩, wb, wk⟩ := hw
      obtain ⟨kc, hkc⟩ := Option.isSome_iff_exists.1 wc'
      obtain ⟨ks, hks⟩ := Option.isSome_iff_exists.1 ws'
      obtain ⟨Ti, hi, hi'⟩ := genStmts_code o har i (j := .init) wi h1 (Code.nil _) (.inr ⟨rfl, wi', rfl⟩)
      have h10 := (genUnits_ext o har c wc h3 genClear_ended clear0 hkc (.inl rfl) (.inl rfl)).whole
      have h11 := (genUnits_ext o har s ws h5 genClear_ended clear0 hks (.inl rfl) (.inl rfl)).whole
      have h12 := (genStmts_code o har b (j := .stmt) wb h7 (Code.nil _) (.inl rfl)).body
      have h13 := (genStmts_code o har k (j := .stmt) wk h9 (Code.nil _) (.inl rfl)).body
      exact hg.push fun T ha => ⟨by
        unfold Typed; exact ⟨rfl, ha, ⟨hi.typed, by rw [hi.eff]; exact hi'⟩, h10.1, h11.1, h12, h13⟩, rfl⟩
    | tryS b n hd =>
      obtain rfl := Place.stmt hj
      unfold WfS at hw
      obtain ⟨gb, h1, h2⟩ := bind_ok h
      obtain ⟨gh, h3, rfl⟩ := map_ok h2
      have h7 := (genStmts_code o har b (j := .stmt) hw.1 h1 (Code.nil _) (.inl rfl)).body
      have h8 := (genStmts_code o har hd (j := .stmt) hw.2 h3 (Code.nil _) (.inl rfl)).body
      exact hg.push fun T ha => ⟨by unfold Typed; exact ⟨rfl, ha, h7, h8⟩, rfl⟩
    | breakS t =>
      obtain rfl := Place.stmt hj
      cases h
      exact hg.push fun T ha => ⟨by unfold Typed; refine ⟨rfl, ha, ?_⟩; cases t <;> simp, rfl⟩
    | contS t =>
      obtain rfl := Place.stmt hj
      cases t <;> cases h
      all_goals exact hg.push fun T ha => ⟨by unfold Typed; exact ⟨rfl, ha, by simp, by simp⟩, rfl⟩
    | throwS us =>
      obtain rfl := Place.stmt hj
      unfold WfS at hw
      simp only at h
      split at h
      · cases h
      obtain ⟨c, h1, rfl⟩ := map_ok h
      have h6 := genUnits_ext o har us hw.1 h1 genClear_ended clear (one_at hw.2 _) (.inl rfl) (.inl rfl)
      exact ⟨_, h6.built.push (by unfold Typed; exact ⟨rfl, rfl, Nat.le_refl 1⟩) rfl, rfl⟩
    | returnS r us =>
      obtain rfl := Place.stmt hj
      unfold WfS at hw
      simp only at h
      split at h
      · cases h
        exact hg.push fun T ha => ⟨by unfold Typed; exact ⟨rfl, ha, .inl rfl⟩, rfl⟩
      · rename_i hne
        obtain ⟨c, h1, rfl⟩ := map_ok h
        have ho : one ar us := hw.2.resolve_left fun h => hne (by simp [h])
        have h6 := genUnits_ext o har us hw.1 h1 genClear_ended clear (one_at ho _) (.inl rfl) (.inr ⟨rfl, rfl⟩)
        exact ⟨_, genReturn_built r _ h6.built rfl (Nat.le_refl 1), rfl⟩
    | assertS us =>
      obtain rfl := Place.stmt hj
      unfold WfS at hw
      simp only at h
      split at h
      · cases h
      obtain ⟨c, h1, rfl⟩ := map_ok h
      have h6 := genUnits_ext o har us hw.1 h1 genClear_ended clear (one_at hw.2 _) (.inl rfl) (.inl rfl)
      exact ⟨_, h6.built.push (by unfold Typed; exact ⟨rfl, rfl, Nat.le_refl 1⟩) rfl, rfl⟩
    | deferS us =>
      obtain rfl := Place.stmt hj
      unfold WfS at hw
      simp only at h
      split at h
      · cases h
      obtain ⟨c, h1, rfl⟩ := map_ok h
      obtain ⟨k, hk⟩ := Option.isSome_iff_exists.1 hw.2
      have h6 := (genUnits_ext o har us hw.1 h1 genClear_ended clear0 hk (.inl rfl) (.inl rfl)).whole
      exact hg.push fun T ha => ⟨by unfold Typed; exact ⟨rfl, ha, h6.1⟩, ha⟩
    | refs ds => unfold WfS at hw; exact genRefs_code o har ds hw h hg hj.ne
termination_by structural x => x

theorem genStmts_code (o : Opts) {e : Emit P X} (har : Arity e sig ar) : ∀ (ss : List (Stmt X)) {ptc : Ptc} {g g' : Gen P} {j : Mode},
    WfSs o ar ss → genStmts o e ptc ss g = .ok g' → Code sig j g.code → Place j ptc (ss.all isInit) → Code sig j g'.code
  | [], _, _, _, _, _, h, hg, _ => by simp only [genStmts, Res.ok.injEq] at h; subst h; exact hg
  | s :: ss, ptc, g, g', j, hw, h, hg, hj => by
    unfold genStmts at h
    unfold WfSs at hw
    obtain ⟨g₁, h1, h2⟩ := bind_ok h
    have hj1 : Place j (ptcOf ptc ss) (isInit s) := hj.imp id fun h => by
      obtain ⟨h3, h4, h5⟩ := h
      simp only [List.all_cons, Bool.and_eq_true] at h4
      refine ⟨h3, h4.1, ?_⟩
      cases ss with
      | nil => exact h5
      | cons s' ss =>
        have h6 := h4.2
        simp only [List.all_cons, Bool.and_eq_true] at h6
        have h7 := h6.1
        cases s' <;> first | rfl | (exact absurd h7 (by simp [isInit]))
    have hj2 : Place j ptc (ss.all isInit) := hj.imp id fun h => by
      obtain ⟨h3, h4, h5⟩ := h
      simp only [List.all_cons, Bool.and_eq_true] at h4
      exact ⟨h3, h4.2, h5⟩
    exact genStmts_code o har ss hw.2 h2 (genStmt_code o har s hw.1 h1 hg hj1) hj2
termination_by structural x => x

theorem genFlat_code (o : Opts) {e : Emit P X} (har : Arity e sig ar) : ∀ (ss : List (Stmt X)) {ptc : Ptc} {g g' : Gen P},
    WfSs o ar ss → genFlat o e ptc ss g = .ok g' → Code sig .stmt g.code → Code sig .stmt g'.code
  | [], _, _, _, _, h, hg => by simp only [genFlat, Res.ok.injEq] at h; subst h; exact hg
  | s :: ss, ptc, g, g', hw, h, hg => by
    simp only [WfSs] at hw
    have step (hb : ¬ ∃ b, s = .block b ∧ ss = []) : Code sig .stmt g'.code := by
      have h0 : genFlat o e ptc (s :: ss) g = (genStmt o e (ptcOf ptc ss) s g).bind fun g => genStmts o e ptc ss g := by
        rw [genFlat]
        intro b h1 h2; exact hb ⟨b, h1, h2⟩
      rw [h0] at h
      obtain ⟨g₁, h1, h2⟩ := bind_ok h
      exact genStmts_code o har ss hw.2 h2 (genStmt_code o har s hw.1 h1 hg (.inl rfl)) (.inl rfl)
    cases ss with
    | cons s' ss => exact step (by simp)
    | nil =>
      cases s with
      | block b =>
        simp only [genFlat] at h
        simp only [WfS] at hw
        exact genFlat_code o har b hw.1 h hg
      | _ => exact step (by simp)
termination_by structural x => x

theorem genDecls_code (o : Opts) {e : Emit P X} (har : Arity e sig ar) : ∀ (ds : List (Decl X)) {imm : Bool} {g g' : Gen P} {j : Mode},
    WfDs o ar ds → genDecls o e imm ds g = .ok g' → Code sig j g.code → j ≠ .expr → Code sig j g'.code
  | [], _, _, _, _, _, h, hg, _ => by simp only [genDecls, Res.ok.injEq] at h; subst h; exact hg
  | .scalar n us :: ds, imm, g, g', j, hw, h, hg, hj => by
    unfold genDecls at h
    unfold WfDs at hw
    simp only at h
    split at h
    · refine genDecls_code o har ds hw.2 h ?_ hj
      exact hg.push fun T ha => ⟨by simp [Typed, hj], ha⟩
    · rename_i hne
      obtain ⟨c, h1, h2⟩ := bind_ok h
      have ho : one ar us := hw.1.2.resolve_left fun h => hne (by simp [h])
      refine genDecls_code o har ds hw.2 h2 ?_ hj
      obtain ⟨T, h3, h4⟩ := hg
      have h5 : Built sig j T0 (g.code ++ [.clearStack]) T0 := h3.push (by simpa [Typed] using h4) rfl
      have h6 : Built sig j T0 (g.code ++ [.clearStack] ++ [.declareVar n]) ⟨0, 1, none⟩ := h5.push (by simp [Typed, hj, T0]) rfl
      rw [List.append_assoc] at h6
      have h7 := genUnits_ext o har us hw.1.1 h1 (genTrap_ended (by rw [ended_append (by simp)]; rfl)) (genTrap_built har h6)
        (one_at ho _) (.inl rfl) (.inl rfl)
      exact ⟨_, h7.built.push (by unfold Typed; exact ⟨hj, rfl, rfl, Nat.le_refl 1⟩) rfl, rfl⟩
  | .array ns us :: ds, imm, g, g', j, hw, h, hg, hj => by
    unfold genDecls at h
    unfold WfDs at hw
    simp only at h
    split at h
    · refine genDecls_code o har ds hw.2 h ?_ hj
      have := defineNulls_code hj imm ns hg
      simpa using this
    · rename_i hne
      obtain ⟨c, h1, h2⟩ := bind_ok h
      have ho : one ar us := hw.1.2.resolve_left fun h => hne (by simp [h])
      refine genDecls_code o har ds hw.2 h2 ?_ hj
      obtain ⟨T, h3, h4⟩ := hg
      have h5 : Built sig j T0 (g.code ++ [.clearStack]) T0 := h3.push (by simpa [Typed] using h4) rfl
      have h6 := declareVars_built hj ns h5
      rw [List.append_assoc, List.singleton_append] at h6
      rw [foldl_declare_code] at h1
      have h7 := genUnits_ext o har us hw.1.1 h1 (genTrap_ended (by
        rw [ended_append (by simp)]; exact not_ended_of _ (by simp [isTerminator]))) (genTrap_built har h6)
        (one_at ho _) (.inl rfl) (.inl rfl)
      refine ⟨_, h7.built.push (by
        unfold Typed
        rw [har.unpackArray]
        exact ⟨Nat.le_refl 1, .inr ⟨rfl, rfl, (Nat.zero_add _).symm⟩⟩) rfl, rfl⟩
  | .object ns us :: ds, imm, g, g', j, hw, h, hg, hj => by
    unfold genDecls at h
    unfold WfDs at hw
    simp only at h
    split at h
    · refine genDecls_code o har ds hw.2 h ?_ hj
      have := defineNulls_code hj imm ns hg
      simpa using this
    · rename_i hne
      obtain ⟨c, h1, h2⟩ := bind_ok h
      have ho : one ar us := hw.1.2.resolve_left fun h => hne (by simp [h])
      refine genDecls_code o har ds hw.2 h2 ?_ hj
      obtain ⟨T, h3, h4⟩ := hg
      have h5 : Built sig j T0 (g.code ++ [.clearStack]) T0 := h3.push (by simpa [Typed] using h4) rfl
      have h6 := declareVars_built hj ns h5
      rw [List.append_assoc, List.singleton_append] at h6
      rw [foldl_declare_code] at h1
      have h7 := genUnits_ext o har us hw.1.1 h1 (genTrap_ended (by
        rw [ended_append (by simp)]; exact not_ended_of _ (by simp [isTerminator]))) (genTrap_built har h6)
        (one_at ho _) (.inl rfl) (.inl rfl)
      refine ⟨_, h7.built.push (by
        unfold Typed
        rw [har.unpackObject]
        exact ⟨Nat.le_refl 1, .inr ⟨rfl, rfl, (Nat.zero_add _).symm⟩⟩) rfl, rfl⟩
termination_by structural x => x

theorem genRefs_code (o : Opts) {e : Emit P X} (har : Arity e sig ar) : ∀ (ds : List (RefDecl X)) {g g' : Gen P} {j : Mode},
    WfRs o ar ds → genRefs o e ds g = .ok g' → Code sig j g.code → j ≠ .expr → Code sig j g'.code
  | [], _, _, _, _, h, hg, _ => by simp only [genRefs, Res.ok.injEq] at h; subst h; exact hg
  | .mk n us :: ds, g, g', j, hw, h, hg, hj => by
    unfold genRefs at h
    unfold WfRs at hw
    obtain ⟨c, h1, h2⟩ := bind_ok h
    refine genRefs_code o har ds hw.2 h2 ?_ hj
    obtain ⟨T, h3, h4⟩ := hg
    have h5 : Built sig j T0 (g.code ++ [.clearStack]) T0 := h3.push (by simpa [Typed] using h4) rfl
    have h6 : Built sig j T0 (g.code ++ [.clearStack] ++ [.declareRef n]) T0 := h5.push (by simp [Typed, hj]) rfl
    rw [List.append_assoc] at h6
    have h7 := genUnits_ext o har us hw.1.1 h1 (genTrap_ended (by rw [ended_append (by simp)]; rfl)) (genTrap_built har h6)
      (one_at hw.1.2 _) (.inl rfl) (.inl rfl)
    exact ⟨_, h7.built.push (by unfold Typed; exact ⟨hj, rfl, Nat.le_refl 1⟩) rfl, rfl⟩
termination_by structural x => x

theorem genClauses_typed (o : Opts) {e : Emit P X} (har : Arity e sig ar) : ∀ (cs : List (SClause X)) {Γ : List (List Name)}
    {Δ : List Name} {l : List (Clause P)}, WfCs o ar cs → genClauses o e Γ Δ cs = .ok l → TypedClauses sig l
  | [], _, _, _, _, h => by simp only [genClauses, Res.ok.injEq] at h; subst h; simp [TypedClauses]
  | .mk k lo up b :: cs, Γ, Δ, _, hw, h => by
    unfold genClauses at h
    unfold WfCs at hw
    obtain ⟨l₁, h1, h2⟩ := bind_ok h
    obtain ⟨l₂, h3, h4⟩ := bind_ok h2
    obtain ⟨g, h5, h6⟩ := bind_ok h4
    obtain ⟨l, h7, rfl⟩ := map_ok h6
    obtain ⟨⟨⟨w1, w2⟩, w3, w4⟩, w5⟩ := hw
    have clear0 : Built sig .expr T0 (genClear o e ([] : List (Node P))) T0 := genClear_built har (Built.nil _) rfl
    have h8 := (genStmts_code o har b (j := .stmt) w4 h5 (Code.nil _) (.inl rfl)).body
    have h9 := genClauses_typed o har cs w5 h7
    have lower : one ar lo → Ext sig o .expr T0 (T0.setCur 1) (callFreeU lo = true) .none (genClear o e []) l₁ := fun w => by
      rw [if_neg (by simpa using one_ne w)] at h1
      exact genUnits_ext o har lo w1 h1 genClear_ended clear0 (one_at w _) (.inl rfl) (.inl rfl)
    unfold TypedClauses
    cases k with
    | default =>
      obtain ⟨rfl, rfl⟩ := w3
      cases h1; cases h3
      exact ⟨⟨⟨by simp [TypedSeq], rfl⟩, trivial, h8⟩, h9⟩
    | case =>
      obtain ⟨w3, rfl⟩ := w3
      cases h3
      have := (lower w3).whole
      exact ⟨⟨this.1, this.2.ge, h8⟩, h9⟩
    | each lc uc =>
      obtain ⟨w3, w6⟩ := w3
      have h10 := lower w3
      rw [if_neg (by simpa using one_ne w6)] at h3
      have h11 := genUnits_ext o har up w2 h3 (genTrap_ended (h10.open_ rfl)) (genTrap_built har h10.built) (one_at w6 _)
        (.inl rfl) (.inl rfl)
      have := h11.whole
      exact ⟨⟨this.1, this.2.ge, h8⟩, h9⟩
termination_by structural x => x
end

/-- A function that has been compiled. -/
theorem compile_body {o : Opts} {e : Emit P X} (har : Arity e sig ar) {ps : List Name} {b : List (Stmt X)} {code : List (Node P)}
    (hw : WfSs o ar b) (h : compile o e ps b = .ok code) : Body sig code := by
  obtain ⟨g, h1, rfl⟩ := map_ok h
  exact (genStmts_code o har b (j := .stmt) hw h1 (Code.nil _) (.inl rfl)).body

end Asteria.Compile
