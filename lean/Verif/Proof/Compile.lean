import Verif.Model.Compile
import Verif.Proof.Scope

/-!
# Generated code refers to declared names only

Helper lemmas for `Verif.Props.Scope`.
-/

namespace Asteria.Compile

open Exec Exec.Scope

variable {P X : Type}

theorem bind_ok {α β : Type} {r : Res α} {f : α → Res β} {y : β} (h : r.bind f = .ok y) : ∃ x, r = .ok x ∧ f x = .ok y := by
  cases r with
  | ok x => exact ⟨x, rfl, h⟩
  | throw => simp at h
  | ub => simp at h

theorem map_ok {α β : Type} {r : Res α} {f : α → β} {y : β} (h : r.map f = .ok y) : ∃ x, r = .ok x ∧ f x = y := by
  cases r with
  | ok x => exact ⟨x, rfl, by simpa using h⟩
  | throw => simp at h
  | ub => simp at h

/-- Code that starts in the contexts `Γ₀` and ends with those in which names are looked up. -/
def Good (Γ₀ Γ : List (List Name)) (code : List (Node P)) : Prop :=
  ScopedSeq Γ₀ code ∧ Sub Γ (addHead (declared code) Γ₀)

/-- What generation of an expression keeps. -/
def Kept (Γ₀ Γ : List (List Name)) (code c : List (Node P)) : Prop := Good Γ₀ Γ c ∧ declared c = declared code

theorem Good.push {Γ₀ Γ : List (List Name)} {code : List (Node P)} (h : Good Γ₀ Γ code) {n : Node P} (hn : Scoped Γ n)
    (hd : declares n = []) : Kept Γ₀ Γ code (code ++ [n]) := by
  refine ⟨⟨(scopedSeq_append _ _).2 ⟨h.1, ?_⟩, ?_⟩, ?_⟩
  · simpa only [ScopedSeq, and_true] using Scoped.mono n h.2 hn
  · simpa [hd] using h.2
  · simp [hd]

theorem Kept.trans {Γ₀ Γ : List (List Name)} {a b c : List (Node P)} (h : Kept Γ₀ Γ a b) (h' : Kept Γ₀ Γ b c) :
    Kept Γ₀ Γ a c := ⟨h'.1, h'.2.trans h.2⟩

theorem Good.kept {Γ₀ Γ : List (List Name)} {a : List (Node P)} (h : Good Γ₀ Γ a) : Kept Γ₀ Γ a a := ⟨h, rfl⟩

theorem constant_declares {n : Node P} {v : Value} (h : constant n = some v) : declares n = [] := by
  cases n <;> simp_all [constant, declares]

theorem Good.dropLast {Γ₀ Γ : List (List Name)} {code : List (Node P)} (h : Good Γ₀ Γ code) {v : Value}
    (hc : code.getLast?.bind constant = some v) : Kept Γ₀ Γ code code.dropLast := by
  rcases List.eq_nil_or_concat code with rfl | ⟨l, n, rfl⟩
  · simp at hc
  · simp only [List.concat_eq_append] at *
    have hn : declares n = [] := constant_declares (v := v) (by simpa using hc)
    simp only [List.dropLast_concat]
    refine ⟨⟨((scopedSeq_append _ _).1 h.1).1, ?_⟩, ?_⟩
    · simpa [hn] using h.2
    · simp [hn]

theorem genOp_kept (o : Opts) (e : Emit P X) (x : X) (a : Bool) {Γ₀ Γ : List (List Name)} {code : List (Node P)}
    (h : Good Γ₀ Γ code) : Kept Γ₀ Γ code (genOp o e x a code) := by
  have plain : ∀ p : P, Kept Γ₀ Γ code (code ++ [.prim p]) := fun p => h.push (by simp only [Scoped]) rfl
  unfold genOp
  simp only
  split
  · split
    · exact plain _
    · rename_i v hv
      have repl : ∀ n : Node P, Scoped Γ n → declares n = [] → Kept Γ₀ Γ code (code.dropLast ++ [n]) := fun n h1 h2 =>
        (h.dropLast hv).trans ((h.dropLast hv).1.push h1 h2)
      split
      · exact h.kept
      · split
        · exact repl _ (by simp only [Scoped]) rfl
        · split
          · exact repl _ (by simp only [Scoped]) rfl
          · exact plain _
        · split
          · exact repl _ (by simp only [Scoped]) rfl
          · split
            · exact repl _ (by simp only [Scoped]) rfl
            · exact plain _
        · exact plain _
  · exact plain _

theorem genReturn_kept (o : Opts) (r one : Bool) {Γ₀ Γ : List (List Name)} {code : List (Node P)}
    (h : Good Γ₀ Γ code) : Kept Γ₀ Γ code (genReturn o r one code) := by
  have plain : Kept Γ₀ Γ code (code ++ [.returnS r false]) := h.push (by simp only [Scoped]) rfl
  have repl : ∀ (v : Value) (n : Node P), code.getLast?.bind constant = some v → Scoped Γ n → declares n = [] →
      Kept Γ₀ Γ code (code.dropLast ++ [n]) := fun v n hv h1 h2 =>
    (h.dropLast hv).trans ((h.dropLast hv).1.push h1 h2)
  unfold genReturn
  simp only
  split
  · split
    · rename_i hv; exact repl _ _ hv (by simp only [Scoped]) rfl
    · rename_i hv; exact repl _ _ hv (by simp only [Scoped]) rfl
    · rename_i hv
      split
      · exact repl _ _ hv (by simp only [Scoped]) rfl
      · exact plain
    · exact plain
  · exact plain

theorem genTrap_kept (o : Opts) (e : Emit P X) {Γ₀ Γ : List (List Name)} {code : List (Node P)}
    (h : Good Γ₀ Γ code) : Kept Γ₀ Γ code (genTrap o e code) := by
  unfold genTrap
  split
  · exact h.push (by simp only [Scoped]) rfl
  · exact h.kept

theorem genClear_kept (o : Opts) (e : Emit P X) {Γ₀ Γ : List (List Name)} {code : List (Node P)}
    (h : Good Γ₀ Γ code) : Kept Γ₀ Γ code (genClear o e code) :=
  have h1 : Kept Γ₀ Γ code (code ++ [.clearStack]) := h.push (by simp only [Scoped]) rfl
  h1.trans (genTrap_kept o e h1.1)

theorem Good.nil (Γ : List (List Name)) : Good Γ Γ ([] : List (Node P)) :=
  ⟨by simp only [ScopedSeq], by simpa using Sub.refl Γ⟩

theorem Kept.each {Γ : List (List Name)} {c : List (Node P)} (h : Kept Γ Γ [] c) : ScopedEach Γ c :=
  ScopedSeq.each c h.2 h.1.1

theorem lookup_ok {n : Name} : ∀ {Γ : List (List Name)} {k d : Nat}, lookup n Γ k = .ok (some d) →
    ∃ j, d = k + j ∧ ∃ ns, Γ[j]? = some ns ∧ n ∈ ns
  | [], k, d, h => by simp [lookup] at h
  | c :: cs, k, d, h => by
    unfold lookup at h
    split at h
    · rename_i hn
      simp only [Res.ok.injEq, Option.some.injEq] at h
      exact ⟨0, by omega, c, rfl, hn⟩
    · split at h
      · simp at h
      · split at h
        · simp at h
        · obtain ⟨j, h1, h2⟩ := lookup_ok h
          exact ⟨j + 1, by omega, by simpa using h2⟩

theorem genBranch_scoped {Γ : List (List Name)} {assign : Bool} {l : List (BranchKind × List (Node P))} {n : Node P}
    (h : genBranch assign l = .ok n) (hl : ∀ p ∈ l, ScopedEach Γ p.2) : Scoped Γ n ∧ declares n = [] := by
  unfold genBranch at h
  split at h <;>
    first
    | (simp at h; done)
    | (cases h; simp_all [Scoped, ScopedEach, declares])

/-- What is kept by statements. -/
structure GoodG (Γ₀ : List (List Name)) (g : Gen P) : Prop where
  good : Good Γ₀ g.ctx g.code
  names : declared g.code ⊆ g.names

theorem GoodG.nil (Γ : List (List Name)) : GoodG Γ (⟨[], Γ, []⟩ : Gen P) := ⟨Good.nil Γ, by simp⟩

theorem GoodG.withCode {Γ₀ : List (List Name)} {g : Gen P} (h : GoodG Γ₀ g) {c : List (Node P)}
    (hc : Kept Γ₀ g.ctx g.code c) : GoodG Γ₀ { g with code := c } ∧ declared c = declared g.code :=
  ⟨⟨hc.1, by rw [hc.2]; exact h.names⟩, hc.2⟩

theorem GoodG.push {Γ₀ : List (List Name)} {g : Gen P} (h : GoodG Γ₀ g) {n : Node P} (hn : Scoped g.ctx n)
    (hd : declares n = []) : GoodG Γ₀ (g.emit [n]) ∧ declared (g.emit [n]).code = declared g.code :=
  h.withCode (h.good.push hn hd)

@[simp] theorem note_ctx (g : Gen P) (n : Name) : (g.note n).ctx = g.ctx := rfl
@[simp] theorem note_code (g : Gen P) (n : Name) : (g.note n).code = g.code := rfl
@[simp] theorem declare_code (g : Gen P) (n : Name) : (g.declare n).code = g.code := rfl
@[simp] theorem declare_ctx (g : Gen P) (n : Name) :
    (g.declare n).ctx = g.ctx.modifyHead fun c => if n ∈ c then c else c ++ [n] := rfl
@[simp] theorem emit_ctx (g : Gen P) (l : List (Node P)) : (g.emit l).ctx = g.ctx := rfl
@[simp] theorem emit_code (g : Gen P) (l : List (Node P)) : (g.emit l).code = g.code ++ l := rfl
@[simp] theorem emit_names (g : Gen P) (l : List (Node P)) : (g.emit l).names = g.names := rfl
@[simp] theorem foldl_declare_code (ns : List Name) (g : Gen P) : (ns.foldl Gen.declare g).code = g.code := by
  induction ns generalizing g with
  | nil => rfl
  | cons n ns ih => simp [ih]

theorem sub_declare (n : Name) (Γ : List (List Name)) :
    Sub (Γ.modifyHead fun c => if n ∈ c then c else c ++ [n]) (addHead [n] Γ) := by
  cases Γ with
  | nil => exact Sub.nil _
  | cons c Γ =>
    simp only [List.modifyHead_cons, addHead_cons]
    refine Sub.cons ?_ (Sub.refl _)
    split <;> intro x hx <;> simp_all

/-- The names that have been declared, but for which no node has been generated yet. -/
structure Pending (Γ₀ : List (List Name)) (ns : List Name) (g : Gen P) : Prop where
  seq : ScopedSeq Γ₀ g.code
  sub : Sub g.ctx (addHead (declared g.code ++ ns) Γ₀)
  names : declared g.code ++ ns ⊆ g.names

theorem GoodG.pending {Γ₀ : List (List Name)} {g : Gen P} (h : GoodG Γ₀ g) : Pending Γ₀ [] g :=
  ⟨h.good.1, by simpa using h.good.2, by simpa using h.names⟩

theorem Pending.declare {Γ₀ : List (List Name)} {ns : List Name} {g : Gen P} (h : Pending Γ₀ ns g) (n : Name) :
    Pending Γ₀ (ns ++ [n]) (g.declare n) := by
  refine ⟨h.seq, ?_, ?_⟩
  · refine (sub_declare n g.ctx).trans ?_
    have := h.sub.addHead [n]
    simpa using this
  · intro x hx
    simp only [declare_code, List.mem_append, List.mem_singleton] at hx
    have h4 : x ∈ g.names ∨ x = n := by
      rcases hx with hx | hx | hx
      · exact .inl (h.names (by simp [hx]))
      · exact .inl (h.names (by simp [hx]))
      · exact .inr hx
    simp only [Gen.declare, Gen.note]
    split
    · rcases h4 with h4 | rfl <;> assumption
    · rcases h4 with h4 | rfl <;> simp_all

theorem Pending.declares {Γ₀ : List (List Name)} (ms : List Name) : ∀ {ns : List Name} {g : Gen P}, Pending Γ₀ ns g →
    Pending Γ₀ (ns ++ ms) (ms.foldl Gen.declare g) := by
  induction ms with
  | nil => intro ns g h; simpa using h
  | cons m ms ih =>
    intro ns g h
    have := ih (h.declare m)
    simpa using this

theorem scopedSeq_flat {Γ : List (List Name)} (l : List (Node P)) (h : ∀ n ∈ l, ∀ Γ, Scoped Γ n) : ScopedSeq Γ l := by
  induction l generalizing Γ with
  | nil => simp only [ScopedSeq]
  | cons n ns ih =>
    simp only [ScopedSeq]
    exact ⟨h n (by simp) _, ih fun m hm => h m (by simp [hm])⟩

/-- The nodes for the pending names are generated. -/
theorem Pending.emit {Γ₀ : List (List Name)} {ns : List Name} {g : Gen P} (h : Pending Γ₀ ns g) {l : List (Node P)}
    (hl : ∀ n ∈ l, ∀ Γ, Scoped Γ n) (hd : declared l = ns) : GoodG Γ₀ (g.emit l) := by
  refine ⟨⟨(scopedSeq_append _ _).2 ⟨h.seq, scopedSeq_flat l hl⟩, ?_⟩, ?_⟩
  · simpa [hd] using h.sub
  · simpa [hd] using h.names

theorem Gen.declares_ctx (ns : List Name) (g : Gen P) (Γ : List (List Name)) (c : List Name) (h : g.ctx = c :: Γ) :
    ∃ c', (ns.foldl Gen.declare g).ctx = c' :: Γ ∧ c' ⊆ c ++ ns := by
  induction ns generalizing g c with
  | nil => exact ⟨c, h, by simp⟩
  | cons n ns ih =>
    obtain ⟨c', h1, h2⟩ := ih (g.declare n) (if n ∈ c then c else c ++ [n]) (by simp [h])
    refine ⟨c', h1, fun x hx => ?_⟩
    have := h2 hx
    split at this <;> simp at this ⊢ <;> tauto

theorem Gen.declares_names (ns : List Name) (g : Gen P) : g.names ⊆ (ns.foldl Gen.declare g).names := by
  induction ns generalizing g with
  | nil => exact fun _ h => h
  | cons n ns ih =>
    refine fun x hx => ih (g.declare n) ?_
    simp only [Gen.declare, Gen.note]
    split <;> simp [hx]

set_option maxHeartbeats 1000000 in
mutual

theorem genUnit_kept (o : Opts) (e : Emit P X) : ∀ (u : XUnit X) {Γ₀ Γ : List (List Name)} {ptc : Ptc}
    {code c : List (Node P)}, Good Γ₀ Γ code → genUnit o e Γ ptc u code = .ok c → Kept Γ₀ Γ code c
  | u, Γ₀, Γ, ptc, code, c, hg, h => by
    unfold genUnit at h
    split at h
    · cases h; exact hg.kept
    · cases u with
      | literal v => simp only [Res.ok.injEq] at h; subst h; exact hg.push (by simp only [Scoped]) rfl
      | localRef n =>
        simp only at h
        obtain ⟨d, h1, h2⟩ := bind_ok h
        cases d with
        | some d =>
          simp only [Res.ok.injEq] at h2; subst h2
          obtain ⟨j, h3, h4⟩ := lookup_ok h1
          obtain rfl : d = j := by omega
          exact hg.push (by simpa only [Scoped] using h4) rfl
        | none =>
          simp only at h2
          split at h2
          · simp only [Res.ok.injEq] at h2; subst h2; exact hg.push (by simp only [Scoped]) rfl
          · simp at h2
      | closure ps va b =>
        simp only at h
        obtain ⟨g, h1, rfl⟩ := map_ok h
        have := genStmts_good o e b (GoodG.nil (ps :: Γ)) h1
        exact hg.push (by simpa only [Scoped] using this.1.good.1) rfl
      | branch bs a =>
        simp only at h
        obtain ⟨l, h1, h2⟩ := bind_ok h
        obtain ⟨n, h3, rfl⟩ := map_ok h2
        have := genBranch_scoped h3 (genBranches_each o e bs h1)
        exact hg.push this.1 this.2
      | call args =>
        simp only at h
        split at h
        · obtain ⟨c', h1, rfl⟩ := map_ok h
          have h2 : Kept Γ₀ Γ code (code ++ [.altClear]) := hg.push (by simp only [Scoped]) rfl
          have h3 := genArgs_kept o e args h2.1 h1
          exact h2.trans (h3.trans (h3.1.push (by simp only [Scoped]) rfl))
        · obtain ⟨c', h1, rfl⟩ := map_ok h
          have h3 := genArgs_kept o e args hg h1
          exact h3.trans (h3.1.push (by simp only [Scoped]) rfl)
      | op x a => simp only [Res.ok.injEq] at h; subst h; exact genOp_kept o e x a hg
      | array n => simp only [Res.ok.injEq] at h; subst h; exact hg.push (by simp only [Scoped]) rfl
      | object n => simp only [Res.ok.injEq] at h; subst h; exact hg.push (by simp only [Scoped]) rfl
      | globalRef n => simp only [Res.ok.injEq] at h; subst h; exact hg.push (by simp only [Scoped]) rfl
      | checkArg r =>
        simp only at h
        split at h
        · simp only [Res.ok.injEq] at h; subst h; exact hg.kept
        · simp only [Res.ok.injEq] at h; subst h; exact hg.push (by simp only [Scoped]) rfl
      | catchE us =>
        simp only at h
        obtain ⟨c', h1, rfl⟩ := map_ok h
        exact hg.push (by simpa only [Scoped] using (genUnits_kept o e us (Good.nil Γ) h1).each) rfl
termination_by structural x => x


theorem genUnits_kept (o : Opts) (e : Emit P X) : ∀ (us : List (XUnit X)) {Γ₀ Γ : List (List Name)} {ptc : Ptc}
    {code c : List (Node P)}, Good Γ₀ Γ code → genUnits o e Γ ptc us code = .ok c → Kept Γ₀ Γ code c
  | [], _, _, _, _, _, hg, h => by simp only [genUnits, Res.ok.injEq] at h; subst h; exact hg.kept
  | u :: us, _, _, _, _, _, hg, h => by
    simp only [genUnits] at h
    obtain ⟨c', h1, h2⟩ := bind_ok h
    have h3 := genUnit_kept o e u hg h1
    exact h3.trans (genUnits_kept o e us h3.1 h2)
termination_by structural x => x


theorem genBranches_each (o : Opts) (e : Emit P X) : ∀ (bs : List (Branch X)) {Γ : List (List Name)} {ptc : Ptc}
    {l : List (BranchKind × List (Node P))}, genBranches o e Γ ptc bs = .ok l → ∀ p ∈ l, ScopedEach Γ p.2
  | [], _, _, _, h => by simp only [genBranches, Res.ok.injEq] at h; subst h; simp
  | .mk k us :: bs, Γ, _, _, h => by
    simp only [genBranches] at h
    obtain ⟨c, h1, h2⟩ := bind_ok h
    obtain ⟨l, h3, rfl⟩ := map_ok h2
    intro p hp
    rcases List.mem_cons.1 hp with rfl | hp
    · exact (genUnits_kept o e us (Good.nil Γ) h1).each
    · exact genBranches_each o e bs h3 p hp
termination_by structural x => x


theorem genArgs_kept (o : Opts) (e : Emit P X) : ∀ (as : List (Arg X)) {Γ₀ Γ : List (List Name)}
    {code c : List (Node P)}, Good Γ₀ Γ code → genArgs o e Γ as code = .ok c → Kept Γ₀ Γ code c
  | [], _, _, _, _, hg, h => by simp only [genArgs, Res.ok.injEq] at h; subst h; exact hg.kept
  | .mk us :: as, _, _, _, _, hg, h => by
    simp only [genArgs] at h
    obtain ⟨c', h1, h2⟩ := bind_ok h
    have h3 := genUnits_kept o e us hg h1
    exact h3.trans (genArgs_kept o e as h3.1 h2)
termination_by structural x => x


theorem genStmt_good (o : Opts) (e : Emit P X) : ∀ (s : Stmt X) {Γ₀ : List (List Name)} {ptc : Ptc} {g g' : Gen P},
    GoodG Γ₀ g → genStmt o e ptc s g = .ok g' →
    GoodG Γ₀ g' ∧ (s.isScopeless = true → declared g'.code = declared g.code)
  | s, Γ₀, ptc, g, g', hg, h => by
    unfold genStmt at h
    split at h
    · cases h; exact ⟨hg, fun _ => rfl⟩
    · cases s with
      | expr us =>
        simp only at h
        obtain ⟨c, h1, rfl⟩ := map_ok h
        have h2 := genClear_kept o e hg.good
        have h3 := hg.withCode (h2.trans (genUnits_kept o e us h2.1 h1))
        exact ⟨h3.1, fun _ => h3.2⟩
      | block b =>
        simp only at h
        split at h
        · rename_i hf
          obtain ⟨g₁, h1, rfl⟩ := map_ok h
          have h2 := genFlat_good o e b hg h1
          have h3 := h2.2 hf
          exact ⟨⟨h2.1.good, by simp only [h3]; exact hg.names⟩, fun _ => h3⟩
        · obtain ⟨g₁, h1, rfl⟩ := map_ok h
          have h2 := genStmts_good o e b (GoodG.nil ([] :: g.ctx)) h1
          have h3 := hg.push (n := .block g₁.code) (by simpa only [Scoped] using h2.1.good.1) rfl
          exact ⟨h3.1, fun _ => h3.2⟩
      | vars imm ds => exact ⟨genDecls_good o e ds hg h, fun h => by simp [Stmt.isScopeless] at h⟩
      | func n ps va b =>
        simp only at h
        obtain ⟨g₁, h1, rfl⟩ := map_ok h
        refine ⟨?_, fun h => by simp [Stmt.isScopeless] at h⟩
        have h2 := (genStmts_good o e b (GoodG.nil _) h1).1.good.1
        have h3 := (hg.pending.declare n).emit (l := [.declareVar n]) (by simp [Scoped]) rfl
        have h4 := (h3.push (n := .defineFunc ps va g₁.code) (by simpa only [Scoped, emit_ctx] using h2) rfl).1
        have h5 := (h4.push (n := .initVar true) (by simp only [Scoped]) rfl).1
        simpa [Gen.emit] using h5
      | ifS neg c t f =>
        simp only at h
        split at h
        · simp at h
        · obtain ⟨c', h1, h2⟩ := bind_ok h
          obtain ⟨gt, h3, h4⟩ := bind_ok h2
          obtain ⟨gf, h5, rfl⟩ := map_ok h4
          have h6 := genClear_kept o e hg.good
          have h7 := h6.trans (genUnits_kept o e c h6.1 h1)
          have h8 := (genStmts_good o e t (GoodG.nil _) h3).1.good.1
          have h9 := (genStmts_good o e f (GoodG.nil _) h5).1.good.1
          have h10 := hg.withCode (h7.trans (h7.1.push (n := .ifS neg gt.code gf.code)
            (by simpa only [Scoped] using ⟨h8, h9⟩) rfl))
          exact ⟨h10.1, fun _ => h10.2⟩
      | switchS c cs =>
        simp only at h
        split at h
        · simp at h
        · obtain ⟨c', h1, h2⟩ := bind_ok h
          obtain ⟨l, h3, rfl⟩ := map_ok h2
          have h6 := genClear_kept o e hg.good
          have h7 := h6.trans (genUnits_kept o e c h6.1 h1)
          have h10 := hg.withCode (h7.trans (h7.1.push (n := .switchS l)
            (by simpa only [Scoped] using genClauses_scoped o e cs h3) rfl))
          exact ⟨h10.1, fun _ => h10.2⟩
      | doWhile b neg c k =>
        simp only at h
        obtain ⟨gb, h1, h2⟩ := bind_ok h
        split at h2
        · simp at h2
        · obtain ⟨c', h3, h4⟩ := bind_ok h2
          obtain ⟨gk, h5, rfl⟩ := map_ok h4
          have h6 := genClear_kept o e (Good.nil g.ctx) (P := P)
          have h7 := (h6.trans (genUnits_kept o e c h6.1 h3)).each
          have h8 := (genStmts_good o e b (GoodG.nil _) h1).1.good.1
          have h9 := (genStmts_good o e k (GoodG.nil _) h5).1.good.1
          have h10 := hg.push (n := .doWhile gb.code neg c' gk.code) (by simpa only [Scoped] using ⟨h8, h7, h9⟩) rfl
          exact ⟨h10.1, fun _ => h10.2⟩
      | whileS neg c b k =>
        simp only at h
        split at h
        · simp at h
        · obtain ⟨c', h3, h2⟩ := bind_ok h
          obtain ⟨gb, h1, h4⟩ := bind_ok h2
          obtain ⟨gk, h5, rfl⟩ := map_ok h4
          have h6 := genClear_kept o e (Good.nil g.ctx) (P := P)
          have h7 := (h6.trans (genUnits_kept o e c h6.1 h3)).each
          have h8 := (genStmts_good o e b (GoodG.nil _) h1).1.good.1
          have h9 := (genStmts_good o e k (GoodG.nil _) h5).1.good.1
          have h10 := hg.push (n := .whileS neg c' gb.code gk.code) (by simpa only [Scoped] using ⟨h7, h8, h9⟩) rfl
          exact ⟨h10.1, fun _ => h10.2⟩
      | forEach kn mn i b k =>
        simp only at h
        split at h
        · simp at h
        · obtain ⟨c', h3, h2⟩ := bind_ok h
          obtain ⟨gb, h1, h4⟩ := bind_ok h2
          obtain ⟨gk, h5, rfl⟩ := map_ok h4
          obtain ⟨ns, hn, hn'⟩ := Gen.declares_ctx (kn.toList ++ [mn]) { g with ctx := [] :: g.ctx } g.ctx [] rfl
          simp only [List.nil_append] at hn'
          rw [hn] at h3 h1
          have h6 := genClear_kept o e (Good.nil (ns :: g.ctx)) (P := P)
          have h7 := ScopedEach.mono _ (Sub.cons hn' (Sub.refl g.ctx)) (h6.trans (genUnits_kept o e i h6.1 h3)).each
          have h8 := ScopedSeq.mono _ (Sub.cons hn' (Sub.refl g.ctx)).same (genStmts_good o e b (GoodG.nil _) h1).1.good.1
          have h9 := (genStmts_good o e k (GoodG.nil _) h5).1.good.1
          have h10 := hg.push (n := .forEach kn mn c' gb.code gk.code) (by simpa only [Scoped] using ⟨h7, h8, h9⟩) rfl
          exact ⟨⟨h10.1.good, fun x hx => Gen.declares_names (kn.toList ++ [mn]) { g with ctx := [] :: g.ctx }
            (h10.1.names hx)⟩, fun _ => h10.2⟩
      | forS i c s b k =>
        simp only at h
        obtain ⟨gi, h1, h2⟩ := bind_ok h
        obtain ⟨c', h3, h4⟩ := bind_ok h2
        obtain ⟨s', h5, h6⟩ := bind_ok h4
        obtain ⟨gb, h7, h8⟩ := bind_ok h6
        obtain ⟨gk, h9, rfl⟩ := map_ok h8
        have hi := (genStmts_good o e i (GoodG.nil ([] :: g.ctx)) h1).1.good
        have hs : Sub gi.ctx (declared gi.code :: g.ctx) := by simpa using hi.2
        have h10 := genClear_kept o e (Good.nil gi.ctx) (P := P)
        have hc := ScopedEach.mono _ hs (h10.trans (genUnits_kept o e c h10.1 h3)).each
        have hst := ScopedEach.mono _ hs (h10.trans (genUnits_kept o e s h10.1 h5)).each
        have hb := ScopedSeq.mono _ hs.same (genStmts_good o e b (GoodG.nil _) h7).1.good.1
        have hk := (genStmts_good o e k (GoodG.nil _) h9).1.good.1
        have h12 := hg.push (n := .forS gi.code c' s' gb.code gk.code)
          (by simpa only [Scoped] using ⟨hi.1, hc, hst, hb, hk⟩) rfl
        exact ⟨h12.1, fun _ => h12.2⟩
      | tryS b n hd =>
        simp only at h
        obtain ⟨gb, h1, h2⟩ := bind_ok h
        obtain ⟨gh, h3, rfl⟩ := map_ok h2
        obtain ⟨ns, hn, hn'⟩ := Gen.declares_ctx [n] { g with ctx := [] :: g.ctx } g.ctx [] rfl
        simp only [List.nil_append] at hn'
        simp only [List.foldl_cons, List.foldl_nil] at hn
        rw [hn] at h3
        have h8 := ScopedSeq.mono _ (Sub.cons hn' (Sub.refl g.ctx)) (genStmts_good o e hd (GoodG.nil _) h3).1.good.1
        have h9 := (genStmts_good o e b (GoodG.nil _) h1).1.good.1
        have h10 := hg.push (n := .tryS gb.code n gh.code) (by simpa only [Scoped] using ⟨h9, h8⟩) rfl
        exact ⟨⟨h10.1.good, fun x hx => Gen.declares_names [n] { g with ctx := [] :: g.ctx } (h10.1.names hx)⟩,
          fun _ => h10.2⟩
      | breakS t =>
        simp only [Res.ok.injEq] at h; subst h
        have h3 := hg.push (n := .simpleStatus (match t with
          | .none => .brk | .switch => .brkSwitch | .while => .brkWhile | .for => .brkFor)) (by simp only [Scoped]) rfl
        exact ⟨h3.1, fun _ => h3.2⟩
      | contS t =>
        have h3 := fun s => hg.push (n := .simpleStatus s) (by simp only [Scoped]) rfl
        cases t <;> simp only [Res.ok.injEq, reduceCtorEq] at h
        all_goals (subst h; exact ⟨(h3 _).1, fun _ => (h3 _).2⟩)
      | throwS us =>
        simp only at h
        split at h
        · simp at h
        · obtain ⟨c, h1, rfl⟩ := map_ok h
          have h2 := genClear_kept o e hg.good
          have h4 := h2.trans (genUnits_kept o e us h2.1 h1)
          have h3 := hg.withCode (h4.trans (h4.1.push (n := .throwS) (by simp only [Scoped]) rfl))
          exact ⟨h3.1, fun _ => h3.2⟩
      | returnS r us =>
        simp only at h
        split at h
        · simp only [Res.ok.injEq] at h; subst h
          have h3 := hg.push (n := .returnS false true) (by simp only [Scoped]) rfl
          exact ⟨h3.1, fun _ => h3.2⟩
        · obtain ⟨c, h1, rfl⟩ := map_ok h
          have h2 := genClear_kept o e hg.good
          have h4 := h2.trans (genUnits_kept o e us h2.1 h1)
          have h3 := hg.withCode (h4.trans (genReturn_kept o r (us.length == 1) h4.1))
          exact ⟨h3.1, fun _ => h3.2⟩
      | assertS us =>
        simp only at h
        split at h
        · simp at h
        · obtain ⟨c, h1, rfl⟩ := map_ok h
          have h2 := genClear_kept o e hg.good
          have h4 := h2.trans (genUnits_kept o e us h2.1 h1)
          have h3 := hg.withCode (h4.trans (h4.1.push (n := .assertS) (by simp only [Scoped]) rfl))
          exact ⟨h3.1, fun _ => h3.2⟩
      | deferS us =>
        simp only at h
        split at h
        · simp at h
        · obtain ⟨c, h1, rfl⟩ := map_ok h
          have h6 := genClear_kept o e (Good.nil g.ctx) (P := P)
          have h7 := (h6.trans (genUnits_kept o e us h6.1 h1)).each
          have h3 := hg.push (n := .deferE c) (by simpa only [Scoped] using h7) rfl
          exact ⟨h3.1, fun _ => h3.2⟩
      | refs ds => exact ⟨genRefs_good o e ds hg h, fun h => by simp [Stmt.isScopeless] at h⟩
termination_by structural x => x


theorem genStmts_good (o : Opts) (e : Emit P X) : ∀ (ss : List (Stmt X)) {Γ₀ : List (List Name)} {ptc : Ptc} {g g' : Gen P},
    GoodG Γ₀ g → genStmts o e ptc ss g = .ok g' →
    GoodG Γ₀ g' ∧ (ss.all Stmt.isScopeless = true → declared g'.code = declared g.code)
  | [], _, _, _, _, hg, h => by simp only [genStmts, Res.ok.injEq] at h; subst h; exact ⟨hg, fun _ => rfl⟩
  | s :: ss, _, _, _, _, hg, h => by
    simp only [genStmts] at h
    obtain ⟨g₁, h1, h2⟩ := bind_ok h
    have h3 := genStmt_good o e s hg h1
    have h4 := genStmts_good o e ss h3.1 h2
    refine ⟨h4.1, fun hs => ?_⟩
    simp only [List.all_cons, Bool.and_eq_true] at hs
    rw [h4.2 hs.2, h3.2 hs.1]
termination_by structural x => x


theorem genFlat_good (o : Opts) (e : Emit P X) : ∀ (ss : List (Stmt X)) {Γ₀ : List (List Name)} {ptc : Ptc} {g g' : Gen P},
    GoodG Γ₀ g → genFlat o e ptc ss g = .ok g' →
    GoodG Γ₀ g' ∧ (flat ss = true → declared g'.code = declared g.code)
  | [], _, _, _, _, hg, h => by simp only [genFlat, Res.ok.injEq] at h; subst h; exact ⟨hg, fun _ => rfl⟩
  | s :: ss, Γ₀, ptc, g, g', hg, h => by
    have step (hb : ¬ ∃ b, s = .block b ∧ ss = []) :
        GoodG Γ₀ g' ∧ (flat (s :: ss) = true → declared g'.code = declared g.code) := by
      have h0 : genFlat o e ptc (s :: ss) g = (genStmt o e (ptcOf ptc ss) s g).bind fun g => genStmts o e ptc ss g := by
        rw [genFlat]
        intro b h1 h2; exact hb ⟨b, h1, h2⟩
      have hf : flat (s :: ss) = (s.isScopeless && ss.all Stmt.isScopeless) := by
        cases ss with
        | cons s' ss => rw [flat]
        | nil =>
          cases s with
          | block b => exact absurd ⟨b, rfl, rfl⟩ hb
          | _ => simp [flat, flatOne]
      rw [h0] at h
      obtain ⟨g₁, h1, h2⟩ := bind_ok h
      have h3 := genStmt_good o e s hg h1
      have h4 := genStmts_good o e ss h3.1 h2
      refine ⟨h4.1, fun hs => ?_⟩
      rw [hf, Bool.and_eq_true] at hs
      rw [h4.2 hs.2, h3.2 hs.1]
    cases ss with
    | cons s' ss => exact step (by simp)
    | nil =>
      cases s with
      | block b =>
        simp only [genFlat] at h
        simp only [flat, flatOne]
        exact genFlat_good o e b hg h
      | _ => exact step (by simp)
termination_by structural x => x


theorem genDecls_good (o : Opts) (e : Emit P X) : ∀ (ds : List (Decl X)) {imm : Bool} {Γ₀ : List (List Name)} {g g' : Gen P},
    GoodG Γ₀ g → genDecls o e imm ds g = .ok g' → GoodG Γ₀ g'
  | [], _, _, _, _, hg, h => by simp only [genDecls, Res.ok.injEq] at h; subst h; exact hg
  | .scalar n us :: ds, imm, Γ₀, g, _, hg, h => by
    simp only [genDecls] at h
    split at h
    · exact genDecls_good o e ds ((hg.pending.declare n).emit (l := [.defineNull imm n]) (by simp [Scoped]) rfl) h
    · obtain ⟨c, h1, h2⟩ := bind_ok h
      have h3 : GoodG Γ₀ ((g.declare n).emit [.clearStack, .declareVar n]) :=
        (hg.pending.declare n).emit (by simp [Scoped]) rfl
      have h4 := genTrap_kept o e h3.good
      have h5 := h4.trans (genUnits_kept o e us h4.1 h1)
      have h6 := h5.trans (h5.1.push (n := .initVar imm) (by simp only [Scoped]) rfl)
      exact genDecls_good o e ds (h3.withCode h6).1 h2
  | .array ns us :: ds, imm, Γ₀, g, _, hg, h => by
    simp only [genDecls] at h
    split at h
    · exact genDecls_good o e ds ((hg.pending.declares ns).emit (l := ns.map fun n => .defineNull imm n) (by simp [Scoped])
        (by simp [declared, declares, List.flatMap_map])) h
    · obtain ⟨c, h1, h2⟩ := bind_ok h
      have h3 : GoodG Γ₀ ((ns.foldl Gen.declare g).emit (.clearStack :: ns.map fun n => .declareVar n)) :=
        (hg.pending.declares ns).emit (by simp [Scoped])
          (by simp [declared, declares, List.flatMap_map])
      have h4 := genTrap_kept o e h3.good
      have h5 := h4.trans (genUnits_kept o e us h4.1 h1)
      have h6 := h5.trans (h5.1.push (n := .prim (e.unpackArray imm ns.length)) (by simp only [Scoped]) rfl)
      exact genDecls_good o e ds (h3.withCode h6).1 h2
  | .object ns us :: ds, imm, Γ₀, g, _, hg, h => by
    simp only [genDecls] at h
    split at h
    · exact genDecls_good o e ds ((hg.pending.declares ns).emit (l := ns.map fun n => .defineNull imm n) (by simp [Scoped])
        (by simp [declared, declares, List.flatMap_map])) h
    · obtain ⟨c, h1, h2⟩ := bind_ok h
      have h3 : GoodG Γ₀ ((ns.foldl Gen.declare g).emit (.clearStack :: ns.map fun n => .declareVar n)) :=
        (hg.pending.declares ns).emit (by simp [Scoped])
          (by simp [declared, declares, List.flatMap_map])
      have h4 := genTrap_kept o e h3.good
      have h5 := h4.trans (genUnits_kept o e us h4.1 h1)
      have h6 := h5.trans (h5.1.push (n := .prim (e.unpackObject imm ns)) (by simp only [Scoped]) rfl)
      exact genDecls_good o e ds (h3.withCode h6).1 h2
termination_by structural x => x


theorem genRefs_good (o : Opts) (e : Emit P X) : ∀ (ds : List (RefDecl X)) {Γ₀ : List (List Name)} {g g' : Gen P},
    GoodG Γ₀ g → genRefs o e ds g = .ok g' → GoodG Γ₀ g'
  | [], _, _, _, hg, h => by simp only [genRefs, Res.ok.injEq] at h; subst h; exact hg
  | .mk n us :: ds, Γ₀, g, _, hg, h => by
    simp only [genRefs] at h
    obtain ⟨c, h1, h2⟩ := bind_ok h
    have h3 : GoodG Γ₀ ((g.declare n).emit [.clearStack, .declareRef n]) :=
      (hg.pending.declare n).emit (by simp [Scoped]) rfl
    have h4 := genTrap_kept o e h3.good
    have h5 := h4.trans (genUnits_kept o e us h4.1 h1)
    have h6 := h5.trans (h5.1.push (n := .initRef n) (by simp only [Scoped]) rfl)
    exact genRefs_good o e ds (h3.withCode h6).1 h2
termination_by structural x => x


theorem genClauses_scoped (o : Opts) (e : Emit P X) : ∀ (cs : List (SClause X)) {Γ : List (List Name)} {Δ : List Name}
    {l : List (Clause P)}, genClauses o e Γ Δ cs = .ok l → ScopedClauses Γ Δ l
  | [], _, _, _, h => by simp only [genClauses, Res.ok.injEq] at h; subst h; simp only [ScopedClauses]
  | .mk k lo up b :: cs, Γ, Δ, _, h => by
    simp only [genClauses] at h
    obtain ⟨l₁, h1, h2⟩ := bind_ok h
    obtain ⟨l₂, h3, h4⟩ := bind_ok h2
    obtain ⟨g, h5, h6⟩ := bind_ok h4
    obtain ⟨l, h7, rfl⟩ := map_ok h6
    have hl₁ : Kept Γ Γ [] l₁ := by
      split at h1
      · cases h1; exact (Good.nil Γ).kept
      · have h8 := genClear_kept o e (Good.nil Γ) (P := P)
        exact h8.trans (genUnits_kept o e lo h8.1 h1)
    have hl₂ : Kept Γ Γ [] l₂ := by
      split at h3
      · cases h3; exact hl₁
      · have h8 := genTrap_kept o e hl₁.1
        exact hl₁.trans (h8.trans (genUnits_kept o e up h8.1 h3))
    have hb := (genStmts_good o e b (Γ₀ := Δ :: Γ) (g := ⟨[], Δ :: Γ, []⟩) ⟨Good.nil _, by simp⟩ h5).1
    simp only [ScopedClauses]
    refine ⟨hl₂.each, hb.good.1, hb.names, ScopedClauses.mono l (Sub.refl Γ) ?_ (genClauses_scoped o e cs h7)⟩
    have h8 := hb.good.2
    cases hc : g.ctx with
    | nil => simp
    | cons c Γ' =>
      rw [hc] at h8
      simp only [addHead_cons] at h8
      simpa using h8.head
termination_by structural x => x

end

end Asteria.Compile
