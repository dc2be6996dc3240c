import Verif.Proof.SafeGen
import Verif.Proof.OptSim

/-! What the code generator makes at optimization levels 0 and 1 does the same. -/

namespace Asteria.Exec.Opt

variable {P : Type} {sem : Sem P}

theorem den_append (b : List (Node P)) : ∀ (a : List (Node P)) (w : World) (l : List Ref),
    den sem (a ++ b) w l = match den sem a w l with
      | .ok w' l' => den sem b w' l'
      | .throw e w' l' => .throw e w' l'
      | .ub => .ub
  | [], w, l => by simp [den]
  | n :: a, w, l => by
    cases n <;> simp only [List.cons_append, den]
    · exact den_append b a _ _
    · cases sem.prim _ w l <;> simp only
      exact den_append b a _ _

/-- Code that does the same as a constant may stand for it. -/
theorem _root_.Asteria.Exec.SameCode.subst {k k' : Nat} {v : Value} {a r x : List (Node P)} (h : SameCode sem 0 1 a [.pushConst v])
    (h' : SameCode sem k k' (.pushConst v :: r) x) : SameCode sem k k' (a ++ r) x := by
  refine ⟨fun n hn => ?_, h'.right, fun w X B B' hX => ?_⟩
  · rcases List.mem_append.1 hn with hn | hn
    · exact h.left n hn
    · exact h'.left n (List.mem_cons_of_mem _ hn)
  · have h1 := h.same w [] (X ++ B) (X ++ B) rfl
    have h2 := h'.same w X B B' hX
    rw [den_append]
    simp only [List.nil_append, den] at h1 h2
    revert h1
    cases den sem a w (X ++ B) <;> simp only [PrimOut.Same, imp_false, not_false_eq_true, false_imp_iff]
    rintro ⟨rfl, Y, _, rfl, hY⟩
    have : Y ++ (X ++ B) = .temp v [] :: (X ++ B) := hY.symm
    rw [this]
    exact h2

theorem SameCode.refl_const (v : Value) : SameCode sem 0 1 [.pushConst v] [.pushConst v] := by
  refine ⟨by simp [isPure], by simp [isPure], fun w X B B' hX => ?_⟩
  obtain rfl := List.length_eq_zero_iff.1 hX
  exact ⟨rfl, [.temp v []], rfl, rfl, rfl⟩

end Asteria.Exec.Opt

namespace Asteria.Compile

open Exec Exec.Opt

variable {P X : Type} {sem : Sem P} {sig : P → Sig} {ar : X → Nat}

/-- Options with another level of optimization. -/
abbrev lv (o : Opts) (l : Nat) : Opts := { o with level := l }

/-- Code of an expression: what follows `a'` on the left is a constant if the last node on the right is one. -/
structure GE (sem : Sem P) (m : Opt.Mode) (k : Nat) (a b : List (Node P)) : Prop where
  e : E sem m k a b
  ne : 0 < k → a ≠ [] ∧ b ≠ []
  last : ∀ b' nd v, b = b' ++ [nd] → constant nd = some v → 1 ≤ k ∧ nd = .pushConst v ∧
    ∃ a' a2, a = a' ++ a2 ∧ E sem m (k - 1) a' b' ∧ SameCode sem 0 1 a2 [.pushConst v]

/-- Code of an expression after other code. -/
structure UR (sem : Sem P) (m : Opt.Mode) (k : Nat) (c₀ d₀ : List (Node P)) (ptc : Ptc) (c d : List (Node P)) : Prop where
  ge : ∃ a b, c = c₀ ++ a ∧ d = d₀ ++ b ∧ GE sem m k a b
  same : endsInTerminator d = endsInTerminator c
  open_ : ptc = .none → endsInTerminator c = false

theorem UR.nil {m : Opt.Mode} {c d : List (Node P)} {ptc : Ptc} (hc : endsInTerminator c = false)
    (hd : endsInTerminator d = false) : UR sem m 0 c d ptc c d :=
  ⟨⟨[], [], by simp, by simp, .nil m, by simp, by simp⟩, by rw [hc, hd], fun _ => hc⟩

theorem UR.push {m : Opt.Mode} {k k' : Nat} {c₀ d₀ c d x y : List (Node P)} {l r : Node P} {ptc ptc' : Ptc}
    (h : UR sem m k c₀ d₀ ptc' c d)
    (he : ∀ a b, E sem m k a b → E sem m k' (a ++ (x ++ [l])) (b ++ (y ++ [r]))) (hc : constant r = none)
    (ht : isTerminator r = isTerminator l) (hn : ptc = .none → isTerminator l = false) :
    UR sem m k' c₀ d₀ ptc (c ++ (x ++ [l])) (d ++ (y ++ [r])) := by
  obtain ⟨⟨a, b, rfl, rfl, h1⟩, _, _⟩ := h
  refine ⟨⟨a ++ (x ++ [l]), b ++ (y ++ [r]), by simp, by simp, he a b h1.e, by simp, ?_⟩, ?_, ?_⟩
  · intro b' nd v h2 h3
    have h4 : r = nd := by
      have := congrArg List.getLast? h2
      simpa [← List.append_assoc] using this
    rw [h4, h3] at hc; cases hc
  · rw [← List.append_assoc, ended_snoc, ← List.append_assoc (c₀ ++ a), ended_snoc, ht]
  · intro h0; rw [← List.append_assoc, ended_snoc]; exact hn h0

theorem UR.push1 {m : Opt.Mode} {k k' : Nat} {c₀ d₀ c d : List (Node P)} {l r : Node P} {ptc ptc' : Ptc}
    (h : UR sem m k c₀ d₀ ptc' c d) (he : ∀ a b, E sem m k a b → E sem m k' (a ++ [l]) (b ++ [r])) (hc : constant r = none)
    (ht : isTerminator r = isTerminator l) (hn : ptc = .none → isTerminator l = false) :
    UR sem m k' c₀ d₀ ptc (c ++ [l]) (d ++ [r]) :=
  UR.push (x := []) (y := []) h he hc ht hn

theorem E.prim {e : Emit P X} (hf : FoldSem sem e sig ar) {m : Opt.Mode} {k a c : Nat} {A B : List (Node P)} (h : E sem m k A B)
    {p : P} (hp : sig p = ⟨a, 0, c⟩) (ha : a ≤ k) : E sem m (k - a + c) (A ++ [.prim p]) (B ++ [.prim p]) := by
  have h1 := hf.frame p
  rw [hp] at h1
  refine E.pure (k₀ := k - a) (k := a) ?_ h1
  rwa [Nat.sub_add_cancel ha]

theorem UR.prim {e : Emit P X} (hf : FoldSem sem e sig ar) {m : Opt.Mode} {k a n : Nat} {c₀ d₀ c d : List (Node P)} {ptc ptc' : Ptc}
    (h : UR sem m k c₀ d₀ ptc' c d) {p : P} (hp : sig p = ⟨a, 0, n⟩) (ha : a ≤ k) :
    UR sem m (k - a + n) c₀ d₀ ptc (c ++ [.prim p]) (d ++ [.prim p]) :=
  h.push1 (fun _ _ h => E.prim hf h hp ha) rfl rfl fun _ => rfl

/-- An expression within another one. -/
theorem E.append {m : Opt.Mode} {j : Nat} {a₀ b₀ : List (Node P)} (h₀ : E sem m j a₀ b₀) : ∀ {k : Nat} {a b : List (Node P)},
    E sem m k a b → E sem m (j + k) (a₀ ++ a) (b₀ ++ b)
  | _, _, _, .nil _ => by simpa using h₀
  | _, _, _, .pure h hs => by
    have h1 := E.append h₀ h
    rw [← Nat.add_assoc] at h1 ⊢
    rw [← List.append_assoc, ← List.append_assoc]
    exact .pure h1 hs
  | _, _, _, .loc dp n h => by
    rw [← List.append_assoc, ← List.append_assoc]; exact .loc dp n (E.append h₀ h)
  | _, _, _, .bound r h => by
    rw [← List.append_assoc, ← List.append_assoc]; exact .bound r (E.append h₀ h)
  | _, _, _, .func ps va h hb => by
    rw [← List.append_assoc, ← List.append_assoc]; exact .func ps va (E.append h₀ h) hb
  | _, _, _, .branch a h ht hf => by
    rw [← List.append_assoc, ← List.append_assoc]; exact .branch a (E.append h₀ h) ht hf
  | _, _, _, .coal a h ht => by
    rw [← List.append_assoc, ← List.append_assoc]; exact .coal a (E.append h₀ h) ht
  | _, _, _, .check r h => by
    rw [← List.append_assoc, ← List.append_assoc]; exact .check r (E.append h₀ h)
  | _, _, _, .call (k := k) (n := n) ptc hm h => by
    rw [← List.append_assoc, ← List.append_assoc]
    have h1 := E.append h₀ h
    refine .call (k := j + k) ptc hm ?_
    have : j + k + 1 + n = j + (k + 1 + n) := by omega
    rw [this]; exact h1
  | _, _, _, .alt ptc h ha hx hy => by
    rw [← List.append_assoc, ← List.append_assoc]; exact .alt ptc (E.append h₀ h) ha hx hy
  | _, _, _, .catchE hm h hb => by
    rw [← List.append_assoc, ← List.append_assoc]; exact .catchE hm (E.append h₀ h) hb

/-! ### Operators -/

theorem genOp_rel {o : Opts} {e : Emit P X} (har : Arity e sig ar) (hf : FoldSem sem e sig ar) (x : X) (assign : Bool)
    {m : Opt.Mode} {k n : Nat} {c₀ d₀ c d : List (Node P)} {ptc : Ptc} (h : UR sem m k c₀ d₀ .none c d)
    (hx : effect ar (.op x assign) k = some n) :
    UR sem m n c₀ d₀ ptc (genOp (lv o 0) e x assign c) (genOp (lv o 1) e x assign d) := by
  simp only [effect] at hx
  split at hx
  case isFalse => cases hx
  rename_i ha
  cases hx
  have h0 : genOp (lv o 0) e x assign c = c ++ [.prim (e.apply x assign)] := by
    unfold genOp; exact if_neg (by simp [lv])
  rw [h0]
  have plain : UR sem m (k - ar x + 1) c₀ d₀ ptc (c ++ [.prim (e.apply x assign)]) (d ++ [.prim (e.apply x assign)]) :=
    UR.prim hf h (har.apply x assign) ha.2
  unfold genOp
  dsimp only
  rw [if_pos (by simp [lv])]
  split
  · exact plain
  · rename_i v hv
    obtain ⟨⟨a, b, rfl, rfl, hg⟩, hs, hop⟩ := h
    have hd := hop rfl
    rcases List.eq_nil_or_concat b with rfl | ⟨l, nd, rfl⟩
    · exact absurd rfl (hg.ne (by omega)).2
    rw [List.concat_eq_append] at *
    have hv : constant nd = some v := by simpa [← List.append_assoc] using hv
    obtain ⟨hk, rfl, a', a2, rfl, h1, h2⟩ := hg.last _ _ _ rfl hv
    have fold : ∀ (p : P), SameCode sem (ar x - 1) 1 [.pushConst v, .prim (e.apply x assign)] [.prim p] →
        UR sem m (k - ar x + 1) c₀ d₀ ptc (c₀ ++ (a' ++ a2) ++ [.prim (e.apply x assign)])
          ((d₀ ++ (l ++ [Node.pushConst v])).dropLast ++ [.prim p]) := by
      intro p hp
      rw [← List.append_assoc d₀, List.dropLast_concat]
      refine ⟨⟨a' ++ (a2 ++ [.prim (e.apply x assign)]), l ++ [.prim p], by simp, by simp, ?_, by simp, ?_⟩, ?_, ?_⟩
      · refine E.pure (k₀ := k - ar x) (k := ar x - 1) ?_ (h2.subst hp)
        have : k - ar x + (ar x - 1) = k - 1 := by omega
        rwa [this]
      · intro b' nd w h3 h4
        obtain ⟨_, h5⟩ := List.append_inj' h3 rfl
        cases h5; cases h4
      · rw [ended_snoc, ended_snoc]; rfl
      · intro _; rw [ended_snoc]; rfl
    split
    · rename_i hpos
      have h3 := har.pos x hpos.1
      obtain rfl := hpos.2
      have h4 := h2.subst (hf.pos x v hpos.1)
      refine ⟨⟨a' ++ (a2 ++ [.prim (e.apply x false)]), l ++ [.pushConst v], by simp, rfl, ?_, by simp, ?_⟩, ?_, ?_⟩
      · have := E.pure (k₀ := k - 1) (k := 0) h1 h4
        rwa [h3]
      · intro b' nd w h5 h6
        obtain ⟨rfl, h7⟩ := List.append_inj' h5 rfl
        cases h7; cases h6
        exact ⟨by omega, rfl, a', _, rfl, by rw [h3]; simpa using h1, h4⟩
      · rw [← List.append_assoc, ended_snoc, ended_snoc]; rfl
      · intro _; rw [ended_snoc]; rfl
    · split
      · rename_i hn _
        refine fold _ ?_
        rw [har.nullTest x _ hn]
        exact hf.null x assign _ hn
      · split
        · rename_i hi
          refine fold _ ?_
          rw [har.index x hi]
          exact hf.member x assign _ hi
        · exact plain
      · split
        · rename_i i _ _ _ hi
          have h3 := har.notb x hi
          have h4 := h2.subst (hf.notb x assign _ hi)
          rw [← List.append_assoc d₀, List.dropLast_concat]
          refine ⟨⟨a' ++ (a2 ++ [.prim (e.apply x assign)]), l ++ [_], by simp, by rw [List.append_assoc], ?_, by simp, ?_⟩, ?_, ?_⟩
          · have := E.pure (k₀ := k - 1) (k := 0) h1 h4
            rwa [h3]
          · intro b' nd w h5 h6
            obtain ⟨rfl, h7⟩ := List.append_inj' h5 rfl
            cases h7; cases h6
            exact ⟨by omega, rfl, a', _, rfl, by rw [h3]; simpa using h1, h4⟩
          · rw [ended_snoc, ended_snoc]; rfl
          · intro _; rw [ended_snoc]; rfl
        · split
          · rename_i hi
            refine fold _ ?_
            have h3 : Int.bmod _ (2 ^ 32) = _ := of_decide_eq_true hi.1
            rw [h3]
            exact hf.const x assign _ hi.2 hi.1
          · exact plain
      · exact plain

/-! ### The end of `return` statements -/

theorem genReturn_rel {o : Opts} (byRef one : Bool) {k₀ : Nat} {c₀ d₀ c d : List (Node P)} {ptc : Ptc} (h₀ : St sem k₀ c₀ d₀)
    (h : UR sem .any 1 c₀ d₀ ptc c d) : (∃ k, St sem k (genReturn (lv o 0) byRef one c) (genReturn (lv o 1) byRef one d)) ∧
      endsInTerminator (genReturn (lv o 1) byRef one d) = endsInTerminator (genReturn (lv o 0) byRef one c) := by
  have h0 : genReturn (lv o 0) byRef one c = c ++ [.returnS byRef false] := by
    unfold genReturn; exact if_neg (by simp [lv])
  rw [h0, ended_snoc]
  obtain ⟨⟨a, b, rfl, rfl, hg⟩, _, _⟩ := h
  have plain : (∃ k, St sem k (c₀ ++ a ++ [.returnS byRef false]) (d₀ ++ b ++ [.returnS byRef false])) ∧
      endsInTerminator (d₀ ++ b ++ [.returnS byRef false]) = isTerminator (.returnS byRef false : Node P) :=
    ⟨⟨0, .ret (k := k₀) byRef (.expr h₀ hg.e)⟩, ended_snoc _ _⟩
  have fold : ∀ l nd v, b = l ++ [nd] → constant nd = some v →
      (∃ k, St sem k (c₀ ++ a ++ [.returnS byRef false]) ((d₀ ++ b).dropLast ++ [.returnConst v])) ∧
      endsInTerminator ((d₀ ++ b).dropLast ++ [.returnConst v]) = isTerminator (.returnS byRef false : Node P) := by
    intro l nd v hb hv
    subst hb
    obtain ⟨_, rfl, a', a2, rfl, h1, h2⟩ := hg.last _ _ _ rfl hv
    rw [← List.append_assoc d₀, List.dropLast_concat, ended_snoc]
    refine ⟨⟨0, ?_⟩, rfl⟩
    have h3 := St.retConst v (St.expr h₀ h1) (x := a2 ++ [.returnS byRef false]) (y := [.returnConst v])
      (.inr ⟨a2, byRef, h2, rfl⟩) (.inl rfl)
    simpa using h3
  rcases List.eq_nil_or_concat b with hb | ⟨l, nd, hb⟩
  · exact absurd hb (hg.ne (by omega)).2
  rw [List.concat_eq_append] at hb
  have hl : (d₀ ++ b).getLast? = some nd := by rw [hb, ← List.append_assoc]; simp
  unfold genReturn
  dsimp only
  rw [hl]
  split
  · simp only [Option.bind_some]
    split
    · exact fold _ _ _ hb ‹_›
    · exact fold _ _ _ hb ‹_›
    · split
      · rename_i i hv hi
        have h3 : Int.bmod _ (2 ^ 32) = _ := of_decide_eq_true hi
        rw [h3]
        exact fold _ _ _ hb hv
      · exact plain
    · exact plain
  · exact plain

/-! ### Branches -/

/-- The code of a branch. -/
structure ArmR (sem : Sem P) (m : Opt.Mode) (ptc : Ptc) (p p' : BranchKind × List (Node P)) : Prop where
  kind : p'.1 = p.1
  arm : Arm sem m p.2 p'.2
  same : endsInTerminator p'.2 = endsInTerminator p.2
  open_ : ptc = .none → endsInTerminator p.2 = false

/-- A node that follows an expression. -/
structure NodeR (sem : Sem P) (m : Opt.Mode) (ptc : Ptc) (n n' : Node P) : Prop where
  app : ∀ k a b, E sem m (k + 1) a b → E sem m (k + 1) (a ++ [n]) (b ++ [n'])
  noConst : constant n' = none
  same : isTerminator n' = isTerminator n
  open_ : ptc = .none → isTerminator n = false

theorem genBranch_rel {m : Opt.Mode} {ptc : Ptc} (assign : Bool) {l l' : List (BranchKind × List (Node P))}
    (h : List.Forall₂ (ArmR sem m ptc) l l') : RR (NodeR sem m ptc) (genBranch assign l) (genBranch assign l') := by
  have br : ∀ {t t' f f' : List (Node P)}, Arm sem m t t' → Arm sem m f f' → endsInTerminator t' = endsInTerminator t →
      endsInTerminator f' = endsInTerminator f → (ptc = .none → (endsInTerminator t && endsInTerminator f) = false) →
      NodeR sem m ptc (.branchE t f assign) (.branchE t' f' assign) := fun ht hf h1 h2 h3 =>
    ⟨fun k a b he => .branch assign he ht hf, rfl, by simp only [isTerminator, h1, h2], fun h0 => by
      simp only [isTerminator]; exact h3 h0⟩
  have nil : Arm sem m [] [] := .nil m
  cases h with
  | nil => exact br nil nil rfl rfl fun _ => rfl
  | cons hp h =>
    rename_i p p' l l'
    obtain ⟨k₁, c⟩ := p
    obtain ⟨k, c'⟩ := p'
    obtain ⟨h1, h2, h3, h4⟩ := hp
    simp only at h1 h2 h3 h4
    subst h1
    cases h with
    | nil =>
      cases k
      · exact br h2 nil h3 rfl fun h0 => by rw [h4 h0]; rfl
      · exact br nil h2 rfl h3 fun h0 => rfl
      · exact ⟨fun k a b he => .coal assign he h2, rfl, by simp [isTerminator], fun _ => by simp [isTerminator]⟩
    | cons hq h =>
      rename_i q q' l l'
      obtain ⟨k₂, d⟩ := q
      obtain ⟨k', d'⟩ := q'
      obtain ⟨h5, h6, h7, h8⟩ := hq
      simp only at h5 h6 h7 h8
      subst h5
      cases h with
      | nil =>
        cases k <;> cases k' <;> first | trivial | skip
        · exact br h6 nil h7 rfl fun h0 => by rw [h8 h0]; rfl
        · exact br h2 h6 h3 h7 fun h0 => by rw [h4 h0]; rfl
        · exact br h6 h2 h7 h3 fun h0 => by rw [h8 h0]; rfl
        · exact br nil h6 rfl h7 fun h0 => rfl
      | cons _ _ =>
        cases k <;> cases k' <;> trivial

/-! ### Everything -/

/-- The states of the code generator. -/
structure SG (sem : Sem P) (g g' : Gen P) : Prop where
  ctx : g'.ctx = g.ctx
  names : g'.names = g.names
  st : ∃ k, St sem k g.code g'.code
  same : endsInTerminator g'.code = endsInTerminator g.code

theorem SG.nil (Γ : List (List Name)) : SG sem ⟨[], Γ, []⟩ ⟨[], Γ, []⟩ := ⟨rfl, rfl, ⟨0, .nil⟩, rfl⟩

theorem SG.body {g g' : Gen P} (h : SG sem g g') : Body sem g.code g'.code := by
  obtain ⟨_, _, ⟨k, h⟩, _⟩ := h; exact .mk h

theorem genTrap_st {o : Opts} {e : Emit P X} (har : Arity e sig ar) (hf : FoldSem sem e sig ar) {k : Nat} {c d : List (Node P)}
    (h : St sem k c d) : St sem k (genTrap o e c) (genTrap o e d) := by
  unfold genTrap
  split
  · have h1 := hf.frame e.trap
    rw [har.trap] at h1
    exact .pure (k₀ := k) (k := 0) h h1
  · exact h

theorem genClear_st {o : Opts} {e : Emit P X} (har : Arity e sig ar) (hf : FoldSem sem e sig ar) {k : Nat} {c d : List (Node P)}
    (h : St sem k c d) : St sem 0 (genClear o e c) (genClear o e d) := genTrap_st har hf h.clear

/-- An expression on its own. -/
theorem genTrap_ur {o : Opts} {e : Emit P X} (har : Arity e sig ar) (hf : FoldSem sem e sig ar) {k : Nat} {c₀ d₀ c d : List (Node P)}
    (h : UR sem .any k c₀ d₀ .none c d) : UR sem .any k c₀ d₀ .none (genTrap o e c) (genTrap o e d) := by
  unfold genTrap
  split
  · exact UR.prim hf h har.trap (Nat.zero_le _)
  · exact h

theorem UR.whole {k : Nat} {ptc : Ptc} {c d : List (Node P)} (h : UR sem .any k [.clearStack] [.clearStack] ptc c d) :
    Ex sem k c d := by
  obtain ⟨⟨a, b, rfl, rfl, h⟩, _, _⟩ := h
  exact .mk h.e

theorem genClear_ur {o : Opts} {e : Emit P X} (har : Arity e sig ar) (hf : FoldSem sem e sig ar) :
    UR sem .any 0 [.clearStack] [.clearStack] .none (genClear o e []) (genClear o e []) :=
  genTrap_ur har hf (UR.nil rfl rfl)

theorem UR.st {k₀ k : Nat} {ptc : Ptc} {c₀ d₀ c d : List (Node P)} (h₀ : St sem k₀ c₀ d₀) (h : UR sem .any k c₀ d₀ ptc c d) :
    St sem (k₀ + k) c d := by
  obtain ⟨⟨a, b, rfl, rfl, h⟩, _, _⟩ := h
  exact .expr h₀ h.e

theorem foldl_declare_eq : ∀ (ns : List Name) (g g' : Gen P), g'.ctx = g.ctx → g'.names = g.names →
    (ns.foldl Gen.declare g').ctx = (ns.foldl Gen.declare g).ctx ∧
    (ns.foldl Gen.declare g').names = (ns.foldl Gen.declare g).names := by
  intro ns
  induction ns with
  | nil => intro g g' h1 h2; exact ⟨h1, h2⟩
  | cons n ns ih =>
    intro g g' h1 h2
    exact ih _ _ (by simp only [Gen.declare]; rw [h1]) (by simp only [Gen.declare, Gen.note]; rw [h2])

theorem SG.declares {g g' : Gen P} (h : SG sem g g') (ns : List Name) :
    SG sem (ns.foldl Gen.declare g) (ns.foldl Gen.declare g') := by
  obtain ⟨h1, h2⟩ := foldl_declare_eq ns g g' h.ctx h.names
  exact ⟨h1, h2, by rw [foldl_declare_code, foldl_declare_code]; exact h.st, by
    rw [foldl_declare_code, foldl_declare_code]; exact h.same⟩

theorem SG.defineNulls (imm : Bool) : ∀ (ns : List Name) {g g' : Gen P}, SG sem g g' →
    SG sem (g.emit (ns.map fun n => .defineNull imm n)) (g'.emit (ns.map fun n => .defineNull imm n))
  | [], _, _, h => by simpa [Gen.emit] using h
  | n :: ns, g, g', h => by
    have h1 : SG sem (g.emit [.defineNull imm n]) (g'.emit [.defineNull imm n]) := by
      obtain ⟨h1, h2, ⟨k, h3⟩, _⟩ := h
      exact ⟨h1, h2, ⟨k, .defineNull imm n h3⟩, by simp only [Gen.emit]; rw [ended_snoc, ended_snoc]⟩
    have := SG.defineNulls imm ns h1
    simpa [Gen.emit] using this

theorem declareVars_st : ∀ (ns : List Name) {k : Nat} {c d : List (Node P)}, St sem k c d →
    St sem (k + ns.length) (c ++ ns.map fun n => .declareVar n) (d ++ ns.map fun n => .declareVar n)
  | [], _, _, _, h => by simpa using h
  | n :: ns, k, c, d, h => by
    have := declareVars_st ns (h.declareVar n)
    simp only [List.append_assoc, List.singleton_append] at this
    have hl : k + 1 + ns.length = k + (n :: ns).length := by simp; omega
    rwa [hl] at this

/-- Before the initializer of a structured binding. -/
theorem declareVars_start {o : Opts} {e : Emit P X} (har : Arity e sig ar) (hf : FoldSem sem e sig ar) {g g' : Gen P} (h : SG sem g g')
    (ns : List Name) :
    St sem ns.length (genTrap o e (g.code ++ (.clearStack :: ns.map fun n => .declareVar n)))
      (genTrap o e (g'.code ++ (.clearStack :: ns.map fun n => .declareVar n))) ∧
    UR sem .any 0 (genTrap o e (g.code ++ (.clearStack :: ns.map fun n => .declareVar n)))
      (genTrap o e (g'.code ++ (.clearStack :: ns.map fun n => .declareVar n))) .none
      (genTrap o e (g.code ++ (.clearStack :: ns.map fun n => .declareVar n)))
      (genTrap o e (g'.code ++ (.clearStack :: ns.map fun n => .declareVar n))) := by
  obtain ⟨_, _, ⟨k, hst⟩, _⟩ := h
  refine ⟨?_, UR.nil (genTrap_ended ?_) (genTrap_ended ?_)⟩
  · have := genTrap_st (o := o) har hf (declareVars_st ns hst.clear)
    simpa using this
  · rw [ended_append (by simp)]; exact not_ended_of _ (by simp [isTerminator])
  · rw [ended_append (by simp)]; exact not_ended_of _ (by simp [isTerminator])

/-- After the initializer of a structured binding. -/
theorem unpack_sg {e : Emit P X} (hf : FoldSem sem e sig ar) {g g' : Gen P} (h : SG sem g g') {n : Nat} {c₀ d₀ c d : List (Node P)}
    {p : P} (hp : sig p = ⟨1, n, 0⟩) (h₀ : St sem n c₀ d₀) (hcd : UR sem .any 1 c₀ d₀ .none c d) :
    SG sem { g with code := c ++ [.prim p] } { g' with code := d ++ [.prim p] } := by
  refine ⟨h.ctx, h.names, ⟨0, ?_⟩, by simp only; rw [ended_snoc, ended_snoc]⟩
  have h1 := hf.frame p
  rw [hp] at h1
  have h2 := hcd.st h₀
  refine St.pure (k₀ := 0) (k := 1 + n) ?_ h1
  rwa [Nat.zero_add, Nat.add_comm]

mutual
theorem genUnit_rel (o : Opts) {e : Emit P X} (har : Arity e sig ar) (hf : FoldSem sem e sig ar) : ∀ (u : XUnit X)
    {Γ : List (List Name)} {ptc : Ptc} {c₀ d₀ c d : List (Node P)} {m : Opt.Mode} {k n : Nat}, WfU (lv o 1) ar u →
    UR sem m k c₀ d₀ .none c d → effect ar u k = some n → (m = .simple → clobbers u = false) →
    (m = .plain → callFree u = true) →
    RR (UR sem m n c₀ d₀ ptc) (genUnit (lv o 0) e Γ ptc u c) (genUnit (lv o 1) e Γ ptc u d)
  | u, Γ, ptc, c₀, d₀, c, d, m, k, n, hw, h, hx, hs, hp => by
    unfold genUnit
    rw [h.same, h.open_ rfl]
    simp only [Bool.false_eq_true, if_false]
    cases u with
    | literal v =>
      cases hx
      obtain ⟨⟨a, b, rfl, rfl, hg⟩, _, _⟩ := h
      refine ⟨⟨a ++ [.pushConst v], b ++ [.pushConst v], by simp, by simp, ?_, by simp, ?_⟩, ?_, ?_⟩
      · exact .pure (k₀ := k) (k := 0) hg.e (SameCode.refl_const v)
      · intro b' nd w h5 h6
        obtain ⟨rfl, h7⟩ := List.append_inj' h5 rfl
        cases h7; cases h6
        exact ⟨by omega, rfl, a, _, rfl, by simpa using hg.e, SameCode.refl_const v⟩
      · rw [ended_snoc, ended_snoc]
      · intro _; rw [ended_snoc]; rfl
    | localRef nm =>
      cases hx
      dsimp only
      cases lookup nm Γ 0 with
      | throw => trivial
      | ub => trivial
      | ok x =>
        cases x with
        | some x => exact h.push1 (fun _ _ h => .loc x nm h) rfl rfl fun _ => rfl
        | none =>
          dsimp only [Res.bind]
          split
          · exact UR.prim hf h (har.global nm) (Nat.zero_le _)
          · trivial
    | closure ps va b =>
      cases hx
      unfold WfU at hw
      refine (genStmts_rel o har hf b (ptc := .void) hw (SG.nil (ps :: Γ))).map fun g g' hg => ?_
      exact h.push1 (fun _ _ h => .func ps va h hg.body) rfl (by simp [isTerminator]) fun _ => by simp [isTerminator]
    | branch bs a =>
      simp only [effect] at hx
      split at hx
      case isFalse => cases hx
      rename_i hc
      cases hx
      unfold WfU at hw
      simp only [clobbers, callFree] at hs hp
      refine (genBranches_rel o har hf bs (ptc := if a = true then .none else ptc) hw hs hp).bind fun l l' hl => ?_
      refine (genBranch_rel a hl).map fun nd nd' hn => ?_
      obtain ⟨k, rfl⟩ : ∃ j, k = j + 1 := ⟨k - 1, by omega⟩
      exact h.push1 (hn.app k) hn.noConst hn.same fun h0 => hn.open_ (by rw [h0]; cases a <;> rfl)
    | call args =>
      simp only [effect] at hx
      split at hx
      case isFalse => cases hx
      rename_i hc
      cases hx
      unfold WfU at hw
      have hm : m = .any := by
        cases m
        · simpa [clobbers] using hs rfl
        · simpa [callFree] using hp rfl
        · rfl
      subst hm
      obtain ⟨k, rfl⟩ : ∃ j, k = j + 1 := ⟨k - 1, by omega⟩
      have h0 : onAlt (lv o 0) args = false := by simp [onAlt, lv]
      have h1 : onAlt (lv o 1) args = !clobbersArgs args := by simp [onAlt, lv]
      simp only [h0, h1, Bool.false_eq_true, if_false]
      have hop : ptc = .none → isTerminator (.funcCall args.length (ptcIf (lv o 0) ptc) : Node P) = false := fun h0 => by
        rw [h0, ptcIf_none]; rfl
      split
      · rename_i hcl
        have hcl : clobbersArgs args = false := by simpa using hcl
        have h2 : UR sem .simple 0 c (d ++ [.altClear]) .none c (d ++ [.altClear]) :=
          UR.nil (h.open_ rfl) (by rw [ended_snoc]; rfl)
        refine (genArgs_rel o har hf args (Γ := Γ) hw h2 (fun _ => hcl) (by decide)).map fun A A' hA => ?_
        obtain ⟨⟨A, A', rfl, rfl, hA⟩, _, _⟩ := hA
        rw [Nat.zero_add] at hA
        have h3 := h.push (k' := k + 1) (ptc := ptc) (x := A) (y := .altClear :: A')
          (l := .funcCall args.length (ptcIf (lv o 0) ptc)) (r := .altCall (ptcIf (lv o 1) ptc))
          (fun a b hab => .alt (ptcIf o ptc) hab hA.e (.inl rfl) (.inr rfl)) rfl rfl hop
        simpa using h3
      · refine (genArgs_rel o har hf args (Γ := Γ) hw h (by simp) (by decide)).map fun A A' hA => ?_
        refine hA.push1 (fun a b hab => ?_) rfl rfl hop
        exact .call (k := k) (ptcIf o ptc) (by decide) hab
    | op x a => exact genOp_rel har hf x a h hx
    | array k =>
      simp only [effect] at hx
      split at hx
      case isFalse => cases hx
      cases hx
      exact UR.prim hf h (har.array k) ‹_›
    | object ks =>
      simp only [effect] at hx
      split at hx
      case isFalse => cases hx
      cases hx
      exact UR.prim hf h (har.object ks) ‹_›
    | globalRef nm => cases hx; exact UR.prim hf h (har.global nm) (Nat.zero_le _)
    | checkArg r =>
      simp only [effect] at hx
      split at hx
      case isFalse => cases hx
      cases hx
      obtain ⟨k, rfl⟩ : ∃ j, k = j + 1 := ⟨k - 1, by omega⟩
      simp only [lv]
      rw [if_neg (by decide), if_neg (by decide)]
      exact h.push1 (fun _ _ h => .check r h) rfl rfl fun _ => rfl
    | catchE us =>
      cases hx
      unfold WfU at hw
      obtain ⟨j, hj⟩ := Option.isSome_iff_exists.1 hw.2.1
      have hc : callFreeU us = true := hw.2.2.resolve_left (by simp [lv])
      have h1 : UR sem .plain 0 [] [] .none ([] : List (Node P)) [] := UR.nil rfl rfl
      refine (genUnits_rel o har hf us (Γ := Γ) (ptc := .none) hw.1 h1 hj (by simp) fun _ => hc).map fun b b' hb => ?_
      obtain ⟨⟨_, _, rfl, rfl, hb⟩, _, _⟩ := hb
      have hm : m ≠ .simple := by rintro rfl; simpa [clobbers] using hs rfl
      exact h.push1 (fun _ _ h => .catchE hm h hb.e) rfl (by simp [isTerminator]) fun _ => by simp [isTerminator]
termination_by structural x => x

theorem genUnits_rel (o : Opts) {e : Emit P X} (har : Arity e sig ar) (hf : FoldSem sem e sig ar) : ∀ (us : List (XUnit X))
    {Γ : List (List Name)} {ptc : Ptc} {c₀ d₀ c d : List (Node P)} {m : Opt.Mode} {k n : Nat}, WfUs (lv o 1) ar us →
    UR sem m k c₀ d₀ .none c d → effects ar us k = some n → (m = .simple → clobbersUnits us = false) →
    (m = .plain → callFreeU us = true) →
    RR (UR sem m n c₀ d₀ ptc) (genUnits (lv o 0) e Γ ptc us c) (genUnits (lv o 1) e Γ ptc us d)
  | [], Γ, ptc, c₀, d₀, c, d, m, k, n, hw, h, hx, hs, hp => by
    cases hx
    simp only [genUnits]
    exact ⟨h.ge, h.same, fun _ => h.open_ rfl⟩
  | u :: us, Γ, ptc, c₀, d₀, c, d, m, k, n, hw, h, hx, hs, hp => by
    unfold genUnits
    unfold WfUs at hw
    unfold effects at hx
    obtain ⟨j, hx1, hx2⟩ := Option.bind_eq_some_iff.1 hx
    have hs1 : m = .simple → clobbers u = false := fun h => by
      have := hs h; simp [clobbersUnits] at this; exact this.1
    have hs2 : m = .simple → clobbersUnits us = false := fun h => by
      have := hs h; simp [clobbersUnits] at this; exact this.2
    have hp1 : m = .plain → callFree u = true := fun h => by
      have := hp h; simp [callFreeU] at this; exact this.1
    have hp2 : m = .plain → callFreeU us = true := fun h => by
      have := hp h; simp [callFreeU] at this; exact this.2
    refine (genUnit_rel o har hf u (ptc := if us.isEmpty then ptc else .none) hw.1 h hx1 hs1 hp1).bind fun c' d' h' => ?_
    cases us with
    | nil =>
      simp only [genUnits]
      cases hx2
      exact h'
    | cons u' us => exact genUnits_rel o har hf (u' :: us) hw.2 h' hx2 hs2 hp2
termination_by structural x => x

theorem genBranches_rel (o : Opts) {e : Emit P X} (har : Arity e sig ar) (hf : FoldSem sem e sig ar) : ∀ (bs : List (Branch X))
    {Γ : List (List Name)} {ptc : Ptc} {m : Opt.Mode}, WfBs (lv o 1) ar bs →
    (m = .simple → clobbersBranches bs = false) → (m = .plain → callFreeB bs = true) →
    RR (List.Forall₂ (ArmR sem m ptc)) (genBranches (lv o 0) e Γ ptc bs) (genBranches (lv o 1) e Γ ptc bs)
  | [], Γ, ptc, m, hw, hs, hp => by simp only [genBranches]; exact .nil
  | .mk k us :: bs, Γ, ptc, m, hw, hs, hp => by
    unfold genBranches
    unfold WfBs at hw
    have hs1 : m = .simple → clobbersUnits us = false := fun h => by
      have := hs h; simp [clobbersBranches] at this; exact this.1
    have hs2 : m = .simple → clobbersBranches bs = false := fun h => by
      have := hs h; simp [clobbersBranches] at this; exact this.2
    have hp1 : m = .plain → callFreeU us = true := fun h => by
      have := hp h; simp [callFreeB] at this; exact this.1
    have hp2 : m = .plain → callFreeB bs = true := fun h => by
      have := hp h; simp [callFreeB] at this; exact this.2
    have hu : RR (fun c d => ArmR sem m ptc (k, c) (k, d)) (genUnits (lv o 0) e Γ ptc us []) (genUnits (lv o 1) e Γ ptc us []) := by
      rcases hw.1.2 with rfl | h0
      · simp only [genUnits]; exact ⟨rfl, .nil m, rfl, fun _ => rfl⟩
      · have h1 : UR sem m 0 [] [] .none ([] : List (Node P)) [] := UR.nil rfl rfl
        have h2 := genUnits_rel o har hf us (Γ := Γ) (ptc := ptc) hw.1.1 h1 h0 hs1 hp1
        revert h2
        cases genUnits (lv o 0) e Γ ptc us [] <;> cases genUnits (lv o 1) e Γ ptc us [] <;> simp only [RR, imp_self]
        rintro ⟨⟨a, b, rfl, rfl, h3⟩, h4, h5⟩
        exact ⟨rfl, .code (h3.ne (by omega)).1 (h3.ne (by omega)).2 h3.e, h4, h5⟩
    refine hu.bind fun c d hcd => ?_
    exact (genBranches_rel o har hf bs hw.2 hs2 hp2).map fun l l' hl => .cons hcd hl
termination_by structural x => x

theorem genArgs_rel (o : Opts) {e : Emit P X} (har : Arity e sig ar) (hf : FoldSem sem e sig ar) : ∀ (as : List (Arg X))
    {Γ : List (List Name)} {c₀ d₀ c d : List (Node P)} {m : Opt.Mode} {k : Nat}, WfAs (lv o 1) ar as →
    UR sem m k c₀ d₀ .none c d → (m = .simple → clobbersArgs as = false) → m ≠ .plain →
    RR (UR sem m (k + as.length) c₀ d₀ .none) (genArgs (lv o 0) e Γ as c) (genArgs (lv o 1) e Γ as d)
  | [], Γ, c₀, d₀, c, d, m, k, hw, h, hs, hp => by simp only [genArgs]; exact h
  | .mk us :: as, Γ, c₀, d₀, c, d, m, k, hw, h, hs, hp => by
    unfold genArgs
    unfold WfAs at hw
    have hs1 : m = .simple → clobbersUnits us = false := fun h => by
      have := hs h; simp [clobbersArgs] at this; exact this.1
    have hs2 : m = .simple → clobbersArgs as = false := fun h => by
      have := hs h; simp [clobbersArgs] at this; exact this.2
    refine (genUnits_rel o har hf us (Γ := Γ) (ptc := .none) hw.1.1 h (one_at hw.1.2 _) hs1 fun h => absurd h hp).bind
      fun c' d' h' => ?_
    have h2 := genArgs_rel o har hf as (Γ := Γ) hw.2 h' hs2 hp
    have hlen : k + 1 + as.length = k + (Arg.mk us :: as).length := by simp; omega
    rwa [hlen] at h2
termination_by structural x => x

theorem genStmt_rel (o : Opts) {e : Emit P X} (har : Arity e sig ar) (hf : FoldSem sem e sig ar) : ∀ (s : Stmt X)
    {ptc : Ptc} {g g' : Gen P}, WfS (lv o 1) ar s → SG sem g g' →
    RR (SG sem) (genStmt (lv o 0) e ptc s g) (genStmt (lv o 1) e ptc s g')
  | s, ptc, g, g', hw, h => by
    unfold genStmt
    have hend : g'.ended = g.ended := h.same
    rw [hend]
    split
    · exact h
    obtain ⟨code, ctx, names⟩ := g
    obtain ⟨code', ctx', names'⟩ := g'
    obtain ⟨h1, h2, ⟨k₀, hst⟩, hsame⟩ := h
    simp only at h1 h2 hst hsame
    subst h1 h2
    have clear : St sem 0 (genClear (lv o 0) e code) (genClear (lv o 1) e code') := genClear_st (o := o) har hf hst
    have start : UR sem .any 0 (genClear (lv o 0) e code) (genClear (lv o 1) e code') .none
        (genClear (lv o 0) e code) (genClear (lv o 1) e code') := UR.nil genClear_ended genClear_ended
    have start0 : UR sem .any 0 [.clearStack] [.clearStack] .none (genClear (lv o 0) e []) (genClear (lv o 1) e []) :=
      genClear_ur (o := o) har hf
    have snoc : ∀ {ctx names : _} {c d : List (Node P)} {n n' : Node P} {k : Nat}, St sem k (c ++ [n]) (d ++ [n']) →
        isTerminator n' = isTerminator n → SG sem ⟨c ++ [n], ctx, names⟩ ⟨d ++ [n'], ctx, names⟩ := fun hs ht =>
      ⟨rfl, rfl, ⟨_, hs⟩, by rw [ended_snoc, ended_snoc, ht]⟩
    have any1 : ∀ {p : Prop}, Opt.Mode.any = .simple → p := fun h => by cases h
    have any2 : ∀ {p : Prop}, Opt.Mode.any = .plain → p := fun h => by cases h
    cases s with
    | expr us =>
      unfold WfS at hw
      obtain ⟨k, hk⟩ := Option.isSome_iff_exists.1 hw.2
      refine (genUnits_rel o har hf us hw.1 start hk any1 any2).map fun c d hcd => ?_
      exact ⟨rfl, rfl, ⟨_, hcd.st clear⟩, hcd.same⟩
    | block b =>
      unfold WfS at hw
      simp only
      split
      · refine (genFlat_rel o har hf b hw (g := ⟨code, ctx', names'⟩) (g' := ⟨code', ctx', names'⟩) ⟨rfl, rfl, ⟨_, hst⟩, hsame⟩).map fun g g' hg => ?_
        exact ⟨hg.ctx, rfl, hg.st, hg.same⟩
      · refine (genStmts_rel o har hf b hw (SG.nil _)).map fun g g' hg => ?_
        exact snoc (.block hst hg.body) (by simp only [isTerminator]; exact hg.same)
    | vars imm ds => unfold WfS at hw; exact genDecls_rel o har hf ds hw ⟨rfl, rfl, ⟨_, hst⟩, hsame⟩
    | func n ps va b =>
      unfold WfS at hw
      simp only
      refine (genStmts_rel o har hf b hw (SG.nil _)).map fun g g' hg => ?_
      have h5 := St.initVar (k := k₀) true (St.expr (k := k₀ + 1) (k' := 0 + 1) (St.declareVar n hst) (E.func ps va (.nil _) hg.body))
      refine ⟨rfl, rfl, ⟨k₀, ?_⟩, ?_⟩
      · simpa [Gen.emit, Gen.declare, Gen.note] using h5
      · simp only [Gen.emit]
        rw [ended_append (by simp), ended_append (by simp)]; rfl
    | ifS neg c t f =>
      unfold WfS at hw
      simp only
      split
      · trivial
      refine (genUnits_rel o har hf c hw.1.1 start hw.1.2 any1 any2).bind fun c d hcd => ?_
      refine (genStmts_rel o har hf t hw.2.1 (SG.nil _)).bind fun gt gt' ht => ?_
      refine (genStmts_rel o har hf f hw.2.2 (SG.nil _)).map fun gf gf' hf' => ?_
      exact snoc (.ifS (k := 0) neg (hcd.st clear) ht.body hf'.body) (by simp only [isTerminator]; rw [ht.same, hf'.same])
    | switchS c cs =>
      unfold WfS at hw
      simp only
      split
      · trivial
      refine (genUnits_rel o har hf c hw.1.1 start hw.1.2 any1 any2).bind fun c d hcd => ?_
      refine (genClauses_rel o har hf cs hw.2).map fun l l' hl => ?_
      exact snoc (.switchS (k := 0) (hcd.st clear) hl) (by simp [isTerminator])
    | doWhile b neg c k =>
      unfold WfS at hw
      simp only
      refine (genStmts_rel o har hf b hw.1 (SG.nil _)).bind fun gb gb' hb => ?_
      split
      · trivial
      refine (genUnits_rel o har hf c (ptc := .none) hw.2.1.1 start0 hw.2.1.2 any1 any2).bind fun c d hcd => ?_
      refine (genStmts_rel o har hf k hw.2.2 (SG.nil _)).map fun gk gk' hk => ?_
      exact snoc (.doWhile neg hst hb.body hcd.whole hk.body) (by simp [isTerminator])
    | whileS neg c b k =>
      unfold WfS at hw
      simp only
      split
      · trivial
      refine (genUnits_rel o har hf c (ptc := .none) hw.1.1 start0 hw.1.2 any1 any2).bind fun c d hcd => ?_
      refine (genStmts_rel o har hf b hw.2.1 (SG.nil _)).bind fun gb gb' hb => ?_
      refine (genStmts_rel o har hf k hw.2.2 (SG.nil _)).map fun gk gk' hk => ?_
      exact snoc (.whileS neg hst hcd.whole hb.body hk.body) (by simp [isTerminator])
    | forEach kn mn i b k =>
      unfold WfS at hw
      simp only
      split
      · trivial
      obtain ⟨e1, e2⟩ := foldl_declare_eq (kn.toList ++ [mn]) ⟨code, [] :: ctx', names'⟩ ⟨code', [] :: ctx', names'⟩ rfl rfl
      rw [e1, e2]
      refine (genUnits_rel o har hf i (ptc := .none) hw.1.1 start0 hw.1.2 any1 any2).bind fun c d hcd => ?_
      refine (genStmts_rel o har hf b hw.2.1 (SG.nil _)).bind fun gb gb' hb => ?_
      refine (genStmts_rel o har hf k hw.2.2 (SG.nil _)).map fun gk gk' hk => ?_
      exact snoc (.forEach kn mn hst hcd.whole hb.body hk.body) (by simp [isTerminator])
    | forS i c s b k =>
      unfold WfS at hw
      obtain ⟨⟨wi, _⟩, ⟨wc, wc'⟩, ⟨ws, ws'⟩, wb, wk⟩ := hw
      obtain ⟨kc, hkc⟩ := Option.isSome_iff_exists.1 wc'
      obtain ⟨ks, hks⟩ := Option.isSome_iff_exists.1 ws'
      simp only
      refine (genStmts_rel o har hf i wi (SG.nil _)).bind fun gi gi' hi => ?_
      rw [hi.ctx]
      refine (genUnits_rel o har hf c (ptc := .none) wc start0 hkc any1 any2).bind fun c d hcd => ?_
      refine (genUnits_rel o har hf s (ptc := .none) ws start0 hks any1 any2).bind fun s t hs => ?_
      refine (genStmts_rel o har hf b wb (SG.nil _)).bind fun gb gb' hb => ?_
      refine (genStmts_rel o har hf k wk (SG.nil _)).map fun gk gk' hk => ?_
      exact snoc (.forS hst hi.body hcd.whole hs.whole hb.body hk.body) (by simp [isTerminator])
    | tryS b n hd =>
      unfold WfS at hw
      simp only
      refine (genStmts_rel o har hf b hw.1 (SG.nil _)).bind fun gb gb' hb => ?_
      refine (genStmts_rel o har hf hd hw.2 (SG.nil _)).map fun gh gh' hh => ?_
      exact snoc (.tryS n hst hb.body hh.body) (by simp [isTerminator])
    | breakS t =>
      exact snoc (.status _ (by cases t <;> simp) hst) rfl
    | contS t =>
      cases t
      · exact snoc (.status _ (by simp) hst) rfl
      · trivial
      · exact snoc (.status _ (by simp) hst) rfl
      · exact snoc (.status _ (by simp) hst) rfl
    | throwS us =>
      unfold WfS at hw
      simp only
      split
      · trivial
      refine (genUnits_rel o har hf us hw.1 start hw.2 any1 any2).map fun c d hcd => ?_
      exact snoc (.throwS (k := 0) (hcd.st clear)) rfl
    | returnS r us =>
      unfold WfS at hw
      simp only
      split
      · exact snoc (.retVoid false hst) rfl
      · rename_i hne
        have ho : one ar us := hw.2.resolve_left fun h => hne (by simp [h])
        refine (genUnits_rel o har hf us hw.1 start ho any1 any2).map fun c d hcd => ?_
        obtain ⟨h5, h6⟩ := genReturn_rel (o := o) r (us.length == 1) clear hcd
        exact ⟨rfl, rfl, h5, h6⟩
    | assertS us =>
      unfold WfS at hw
      simp only
      split
      · trivial
      refine (genUnits_rel o har hf us hw.1 start hw.2 any1 any2).map fun c d hcd => ?_
      exact snoc (.assertS (k := 0) (hcd.st clear)) rfl
    | deferS us =>
      unfold WfS at hw
      simp only
      split
      · trivial
      obtain ⟨k, hk⟩ := Option.isSome_iff_exists.1 hw.2
      refine (genUnits_rel o har hf us (ptc := .none) hw.1 start0 hk any1 any2).map fun c d hcd => ?_
      exact snoc (.deferE hst hcd.whole) (by simp [isTerminator])
    | refs ds => unfold WfS at hw; exact genRefs_rel o har hf ds hw ⟨rfl, rfl, ⟨_, hst⟩, hsame⟩
termination_by structural x => x

theorem genStmts_rel (o : Opts) {e : Emit P X} (har : Arity e sig ar) (hf : FoldSem sem e sig ar) : ∀ (ss : List (Stmt X))
    {ptc : Ptc} {g g' : Gen P}, WfSs (lv o 1) ar ss → SG sem g g' →
    RR (SG sem) (genStmts (lv o 0) e ptc ss g) (genStmts (lv o 1) e ptc ss g')
  | [], _, _, _, _, h => by simp only [genStmts]; exact h
  | s :: ss, ptc, g, g', hw, h => by
    unfold genStmts
    unfold WfSs at hw
    exact (genStmt_rel o har hf s hw.1 h).bind fun g g' hg => genStmts_rel o har hf ss hw.2 hg
termination_by structural x => x

theorem genFlat_rel (o : Opts) {e : Emit P X} (har : Arity e sig ar) (hf : FoldSem sem e sig ar) : ∀ (ss : List (Stmt X))
    {ptc : Ptc} {g g' : Gen P}, WfSs (lv o 1) ar ss → SG sem g g' →
    RR (SG sem) (genFlat (lv o 0) e ptc ss g) (genFlat (lv o 1) e ptc ss g')
  | [], _, _, _, _, h => by simp only [genFlat]; exact h
  | s :: ss, ptc, g, g', hw, h => by
    simp only [WfSs] at hw
    have step (hb : ¬ ∃ b, s = .block b ∧ ss = []) :
        RR (SG sem) (genFlat (lv o 0) e ptc (s :: ss) g) (genFlat (lv o 1) e ptc (s :: ss) g') := by
      have h0 : ∀ (o : Opts) (g : Gen P), genFlat o e ptc (s :: ss) g =
          (genStmt o e (ptcOf ptc ss) s g).bind fun g => genStmts o e ptc ss g := by
        intro o g
        rw [genFlat]
        intro b h1 h2; exact hb ⟨b, h1, h2⟩
      rw [h0, h0]
      exact (genStmt_rel o har hf s hw.1 h).bind fun g g' hg => genStmts_rel o har hf ss hw.2 hg
    cases ss with
    | cons s' ss => exact step (by simp)
    | nil =>
      cases s with
      | block b =>
        simp only [genFlat]
        simp only [WfS] at hw
        exact genFlat_rel o har hf b hw.1 h
      | _ => exact step (by simp)
termination_by structural x => x

theorem genDecls_rel (o : Opts) {e : Emit P X} (har : Arity e sig ar) (hf : FoldSem sem e sig ar) : ∀ (ds : List (Decl X))
    {imm : Bool} {g g' : Gen P}, WfDs (lv o 1) ar ds → SG sem g g' →
    RR (SG sem) (genDecls (lv o 0) e imm ds g) (genDecls (lv o 1) e imm ds g')
  | [], _, _, _, _, h => by simp only [genDecls]; exact h
  | .scalar n us :: ds, imm, g, g', hw, h => by
    unfold genDecls
    unfold WfDs at hw
    obtain ⟨code, ctx, names⟩ := g
    obtain ⟨code', ctx', names'⟩ := g'
    obtain ⟨h1, h2, ⟨k₀, hst⟩, hsame⟩ := h
    simp only at h1 h2 hst hsame
    subst h1 h2
    simp only
    split
    · refine genDecls_rel o har hf ds hw.2 ⟨rfl, rfl, ⟨_, .defineNull imm n hst⟩, ?_⟩
      simp only [Gen.emit, Gen.declare, Gen.note]; rw [ended_snoc, ended_snoc]
    · rename_i hne
      have ho : one ar us := hw.1.2.resolve_left fun h => hne (by simp [h])
      have h5 := genTrap_st (o := o) har hf (St.declareVar n (St.clear hst))
      rw [List.append_assoc, List.append_assoc] at h5
      have h6 : UR sem .any 0 (genTrap o e (code ++ ([.clearStack] ++ [.declareVar n])))
          (genTrap o e (code' ++ ([.clearStack] ++ [.declareVar n]))) .none _ _ :=
        UR.nil (genTrap_ended (by rw [ended_append (by simp)]; rfl)) (genTrap_ended (by rw [ended_append (by simp)]; rfl))
      refine (genUnits_rel o har hf us (ptc := .none) hw.1.1 h6 ho (by simp) (by simp)).bind fun c d hcd => ?_
      refine genDecls_rel o har hf ds hw.2 ⟨rfl, rfl, ⟨_, .initVar (k := 0) imm (by have := hcd.st h5; exact this)⟩, ?_⟩
      rw [ended_snoc, ended_snoc]
  | .array ns us :: ds, imm, g, g', hw, h => by
    unfold genDecls
    unfold WfDs at hw
    have hG := h.declares ns
    dsimp only
    split
    · exact genDecls_rel o har hf ds hw.2 (hG.defineNulls imm ns)
    · rename_i hne
      have ho : one ar us := hw.1.2.resolve_left fun h => hne (by simp [h])
      obtain ⟨h5, h6⟩ := declareVars_start (o := o) har hf hG ns
      rw [hG.ctx]
      refine (genUnits_rel o har hf us (ptc := .none) hw.1.1 h6 ho (by simp) (by simp)).bind fun c d hcd => ?_
      have := genDecls_rel o har hf ds (imm := imm) hw.2 (unpack_sg hf hG (har.unpackArray imm _) h5 hcd)
      rwa [hG.ctx] at this
  | .object ns us :: ds, imm, g, g', hw, h => by
    unfold genDecls
    unfold WfDs at hw
    have hG := h.declares ns
    dsimp only
    split
    · exact genDecls_rel o har hf ds hw.2 (hG.defineNulls imm ns)
    · rename_i hne
      have ho : one ar us := hw.1.2.resolve_left fun h => hne (by simp [h])
      obtain ⟨h5, h6⟩ := declareVars_start (o := o) har hf hG ns
      rw [hG.ctx]
      refine (genUnits_rel o har hf us (ptc := .none) hw.1.1 h6 ho (by simp) (by simp)).bind fun c d hcd => ?_
      have := genDecls_rel o har hf ds (imm := imm) hw.2 (unpack_sg hf hG (har.unpackObject imm _) h5 hcd)
      rwa [hG.ctx] at this
termination_by structural x => x

theorem genRefs_rel (o : Opts) {e : Emit P X} (har : Arity e sig ar) (hf : FoldSem sem e sig ar) : ∀ (ds : List (RefDecl X))
    {g g' : Gen P}, WfRs (lv o 1) ar ds → SG sem g g' →
    RR (SG sem) (genRefs (lv o 0) e ds g) (genRefs (lv o 1) e ds g')
  | [], _, _, _, h => by simp only [genRefs]; exact h
  | .mk n us :: ds, g, g', hw, h => by
    unfold genRefs
    unfold WfRs at hw
    obtain ⟨code, ctx, names⟩ := g
    obtain ⟨code', ctx', names'⟩ := g'
    obtain ⟨h1, h2, ⟨k₀, hst⟩, hsame⟩ := h
    simp only at h1 h2 hst hsame
    subst h1 h2
    simp only
    have h5 := genTrap_st (o := o) har hf (St.declareRef n (St.clear hst))
    rw [List.append_assoc, List.append_assoc] at h5
    have h6 : UR sem .any 0 (genTrap o e (code ++ ([.clearStack] ++ [.declareRef n])))
        (genTrap o e (code' ++ ([.clearStack] ++ [.declareRef n]))) .none _ _ :=
      UR.nil (genTrap_ended (by rw [ended_append (by simp)]; rfl)) (genTrap_ended (by rw [ended_append (by simp)]; rfl))
    refine (genUnits_rel o har hf us (ptc := .none) hw.1.1 h6 hw.1.2 (by simp) (by simp)).bind fun c d hcd => ?_
    refine genRefs_rel o har hf ds hw.2 ⟨rfl, rfl, ⟨_, .initRef (k := 0) n (hcd.st h5)⟩, ?_⟩
    rw [ended_snoc, ended_snoc]
termination_by structural x => x

theorem genClauses_rel (o : Opts) {e : Emit P X} (har : Arity e sig ar) (hf : FoldSem sem e sig ar) : ∀ (cs : List (SClause X))
    {Γ : List (List Name)} {Δ : List Name}, WfCs (lv o 1) ar cs →
    RR (Cl sem) (genClauses (lv o 0) e Γ Δ cs) (genClauses (lv o 1) e Γ Δ cs)
  | [], _, _, _ => by simp only [genClauses]; exact .nil
  | .mk k lo up b :: cs, Γ, Δ, hw => by
    unfold genClauses
    unfold WfCs at hw
    obtain ⟨⟨⟨w1, w2⟩, w3, w4⟩, w5⟩ := hw
    have start0 : UR sem .any 0 [.clearStack] [.clearStack] .none (genClear (lv o 0) e []) (genClear (lv o 1) e []) :=
      genClear_ur (o := o) har hf
    have lower : one ar lo → RR (UR sem .any 1 [.clearStack] [.clearStack] .none)
        (genUnits (lv o 0) e Γ .none lo (genClear (lv o 0) e [])) (genUnits (lv o 1) e Γ .none lo (genClear (lv o 1) e [])) :=
      fun w => genUnits_rel o har hf lo w1 start0 w (by simp) (by simp)
    have rest : ∀ {l l' : List (Node P)},
        (∀ {b b' cs cs'} (ns : List Name), Body sem b b' → Cl sem cs cs' → Cl sem (.mk k l b ns :: cs) (.mk k l' b' ns :: cs')) →
        RR (Cl sem) ((genStmts (lv o 0) e .none b ⟨[], Δ :: Γ, []⟩).bind fun g =>
            (genClauses (lv o 0) e Γ (g.ctx.headD []) cs).map fun cs => .mk k l g.code g.names :: cs)
          ((genStmts (lv o 1) e .none b ⟨[], Δ :: Γ, []⟩).bind fun g =>
            (genClauses (lv o 1) e Γ (g.ctx.headD []) cs).map fun cs => .mk k l' g.code g.names :: cs) := by
      intro l l' hl
      refine (genStmts_rel o har hf b w4 (SG.nil _)).bind fun g g' hg => ?_
      rw [hg.ctx, hg.names]
      exact (genClauses_rel o har hf cs w5).map fun cs cs' hcs => hl _ hg.body hcs
    cases k with
    | default =>
      obtain ⟨rfl, rfl⟩ := w3
      simp only [List.isEmpty_nil, if_true, Res.bind]
      exact rest fun ns hb hcs => .default ns .nil hb hcs
    | case =>
      obtain ⟨w3, rfl⟩ := w3
      rw [if_neg (by simpa using one_ne w3), if_neg (by simpa using one_ne w3)]
      refine (lower w3).bind fun c d hcd => ?_
      simp only [List.isEmpty_nil, if_true]
      exact rest fun ns hb hcs => .case ns hcd.whole hb hcs
    | each lc uc =>
      obtain ⟨w3, w6⟩ := w3
      rw [if_neg (by simpa using one_ne w3), if_neg (by simpa using one_ne w3)]
      refine (lower w3).bind fun c d hcd => ?_
      rw [if_neg (by simpa using one_ne w6), if_neg (by simpa using one_ne w6)]
      refine (genUnits_rel o har hf up (ptc := .none) w2 (genTrap_ur (o := o) har hf hcd) (one_at w6 _) (by simp) (by simp)).bind
        fun c d hcd => ?_
      exact rest fun ns hb hcs => .each lc uc ns hcd.whole hb hcs
termination_by structural x => x
end

end Asteria.Compile
