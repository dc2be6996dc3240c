import Verif.Proof.OptExpr

/-! Statements that do the same. -/

namespace Asteria.Exec.Opt

open Safe

variable {P : Type} {sem : Sem P}

section
variable {n k k' : Nat} {s s' : State P}

theorem Top.zero (s s' : State P) : Top 0 s s' := ⟨[], s.stack, s'.stack, rfl, rfl, rfl⟩

theorem Top.cons (h : Top (k + 1) s s') : ∃ (r : Ref) (X l l' : List Ref), X.length = k ∧ s.stack = r :: (X ++ l) ∧ s'.stack = r :: (X ++ l') := by
  obtain ⟨X, l, l', h1, h2, h3⟩ := h
  cases X with
  | nil => simp at h1
  | cons r X => exact ⟨r, X, l, l', by simpa using h1, h2, h3⟩

theorem Top.weaken {r : Ref} {l l' : List Ref} (h1 : s.stack = r :: l) (h2 : s'.stack = r :: l') : Top 1 s s' := ⟨[r], l, l', rfl, h1, h2⟩

theorem SOk.begin (hb : Bs sem n s s') (hf : s.swapped = false) (hf' : s'.swapped = false) (h1 : s.status = .next) (h2 : s'.status = .next) : SOk sem n 0 s s' :=
  ⟨hb, hf, hf', h1.trans h2.symm, fun _ => Top.zero s s', fun h => by rw [h1] at h; cases h⟩

theorem SOk.stop (h : SOk sem n k s s') (hs : s.status ≠ .next) : SOk sem n k' s s' :=
  ⟨h.bs, h.sw, h.sw', h.status, fun h' => absurd h' hs, h.ret⟩

theorem SOk.zero (h : SOk sem n k s s') : SOk sem n 0 s s' := ⟨h.bs, h.sw, h.sw', h.status, fun _ => Top.zero s s', h.ret⟩

/-- The state is changed, and what comes next is executed. -/
theorem SOk.put {t t' : State P} (hb : Bs sem n t t') (hf : t.swapped = false) (hf' : t'.swapped = false) (h1 : t.status = .next) (h2 : t'.status = .next)
    (ht : Top k t t') : SOk sem n k t t' :=
  ⟨hb, hf, hf', h1.trans h2.symm, fun _ => ht, fun h => by rw [h1] at h; cases h⟩

theorem SOk.done {t t' : State P} (hb : Bs sem n t t') (hf : t.swapped = false) (hf' : t'.swapped = false) (h12 : t.status = t'.status) 
    (ht : t.status = .ret → Top 1 t t') : SOk sem n 0 t t' :=
  ⟨hb, hf, hf', h12, fun _ => Top.zero _ _, ht⟩

theorem SOk.toE (h : SOk sem n k s s') (hs : s.status = .next) : ∃ F : Frame, F.τ = false ∧ F.τ' = false ∧ EOk sem .any n k F s s' := by
  obtain ⟨X, l, l', h1, h2, h3⟩ := h.top hs
  exact ⟨⟨l, l', s.alt, s'.alt, false, false⟩, rfl, rfl, h.bs, h.sw, h.sw', h.status, fun _ => ⟨X, h1, h2, h3⟩, fun h' => absurd hs h', fun h' => by cases h'⟩

theorem EOk.toS {m : Mode} {F : Frame} (h : EOk sem m n k F s s') (hf : F.τ = false) (hf' : F.τ' = false) : SOk sem n k s s' := by
  refine ⟨h.bs, h.sw.trans hf, h.sw'.trans hf', h.status, fun hs => ?_, fun hs => (h.ret (by rw [hs]; simp)).2.2⟩
  obtain ⟨Y, h1, h2, h3⟩ := h.stk hs
  exact ⟨Y, _, _, h1, h2, h3⟩

theorem snocS {R : Task P → State P → Option (Out P)} {c d a b : List (Node P)} (h1 : s.status = .next) (h2 : s'.status = .next)
    (h : Sim (PostS sem n k) (runSeq sem R c s) (runSeq sem (run sem) d s'))
    (hk : ∀ s1 s1', SOk sem n k s1 s1' → s1.status = .next → s1'.status = .next →
      Sim (PostS sem n k') (runSeq sem R a s1) (runSeq sem (run sem) b s1')) :
    Sim (PostS sem n k') (runSeq sem R (c ++ a) s) (runSeq sem (run sem) (d ++ b) s') := by
  rw [runSeq_append R _ _ _ h1, runSeq_append (run sem) _ _ _ h2]
  refine h.andThen (fun s1 s1' ho => Sim.ite (by rw [ho.status]) (fun hs => hk s1 s1' ho hs (ho.status ▸ hs)) fun hs => .ok (ho.stop hs)) fun _ _ hx => hx

theorem snocN {R : Task P → State P → Option (Out P)} {c d : List (Node P)} {a b : Node P} (h1 : s.status = .next) (h2 : s'.status = .next)
    (h : Sim (PostS sem n k) (runSeq sem R c s) (runSeq sem (run sem) d s'))
    (hk : ∀ s1 s1', SOk sem n k s1 s1' → s1.status = .next → s1'.status = .next →
      Sim (PostS sem n k') (runNode sem R a s1) (runNode sem (run sem) b s1')) :
    Sim (PostS sem n k') (runSeq sem R (c ++ [a]) s) (runSeq sem (run sem) (d ++ [b]) s') :=
  snocS h1 h2 h fun s1 s1' ho hs hs' => by rw [runSeq_single, runSeq_single]; exact hk s1 s1' ho hs hs'

theorem WX.bs' (h : WX sem n s s') : Bs sem n s s' := h.bs

theorem newVar_swapped (s : State P) : (newVar s).2.swapped = s.swapped := rfl
theorem newVar_stack (s : State P) : (newVar s).2.stack = s.stack := rfl
theorem newVar_status (s : State P) : (newVar s).2.status = s.status := rfl
theorem initVar_swapped (s : State P) (i : Nat) (v : Value) (b : Bool) : (initVar s i v b).swapped = s.swapped := rfl
theorem initVar_stack (s : State P) (i : Nat) (v : Value) (b : Bool) : (initVar s i v b).stack = s.stack := rfl
theorem initVar_status (s : State P) (i : Nat) (v : Value) (b : Bool) : (initVar s i v b).status = s.status := rfl

/-- Changes of names do not concern the stacks. -/
theorem names_swapped (s : State P) (f : List (Name × Ref) → List (Name × Ref)) : (s.modScope fun a => { a with names := f a.names }).swapped = s.swapped := by
  unfold State.modScope State.swapped; cases h : s.scopes <;> simp [h]

theorem names_stack (s : State P) (f : List (Name × Ref) → List (Name × Ref)) : (s.modScope fun a => { a with names := f a.names }).stack = s.stack := by
  have h := names_swapped s f
  unfold State.stack
  rw [h]
  unfold State.modScope; cases s.scopes <;> rfl

theorem names_status (s : State P) (f : List (Name × Ref) → List (Name × Ref)) : (s.modScope fun a => { a with names := f a.names }).status = s.status :=
  modScope_status _ _

end

section
variable {n k : Nat} {s s' : State P} {R : Task P → State P → Option (Out P)}

theorem declareVar_sim (ho : SOk sem n k s s') (h1 : s.status = .next) (h2 : s'.status = .next) (x : Name) :
    Sim (PostS sem n (k + 1)) (runNode sem R (.declareVar x) s) (runNode sem (run sem) (.declareVar x) s') := by
  simp only [runNode]
  obtain ⟨X, l, l', a1, a2, a3⟩ := ho.top h1
  obtain ⟨e, hb⟩ := ho.bs.newVar
  rw [← e]
  refine .ok (SOk.put ((hb.setName x _).push _ _) ?_ ?_ ?_ ?_ ⟨.var (newVar s).1 [] :: X, l, l', by simp [a1], ?_, ?_⟩)
  · rw [push_swapped, names_swapped]; exact ho.sw
  · rw [push_swapped, names_swapped]; exact ho.sw'
  · rw [push_status, names_status]; exact h1
  · rw [push_status, names_status]; exact h2
  · rw [push_stack, names_stack, newVar_stack, a2]; rfl
  · rw [push_stack, names_stack, newVar_stack, a3]; rfl

theorem defineNull_sim (ho : SOk sem n k s s') (h1 : s.status = .next) (h2 : s'.status = .next) (imm : Bool) (x : Name) :
    Sim (PostS sem n k) (runNode sem R (.defineNull imm x) s) (runNode sem (run sem) (.defineNull imm x) s') := by
  simp only [runNode]
  obtain ⟨X, l, l', a1, a2, a3⟩ := ho.top h1
  obtain ⟨e, hb⟩ := ho.bs.newVar
  rw [← e]
  refine .ok (SOk.put ((hb.setName x _).initVar _ _ _) ?_ ?_ ?_ ?_ ⟨X, l, l', a1, ?_, ?_⟩)
  · rw [initVar_swapped, names_swapped]; exact ho.sw
  · rw [initVar_swapped, names_swapped]; exact ho.sw'
  · rw [initVar_status, names_status]; exact h1
  · rw [initVar_status, names_status]; exact h2
  · rw [initVar_stack, names_stack]; exact a2
  · rw [initVar_stack, names_stack]; exact a3

theorem declareRef_sim (ho : SOk sem n k s s') (h1 : s.status = .next) (h2 : s'.status = .next) (x : Name) :
    Sim (PostS sem n k) (runNode sem R (.declareRef x) s) (runNode sem (run sem) (.declareRef x) s') := by
  simp only [runNode]
  obtain ⟨X, l, l', a1, a2, a3⟩ := ho.top h1
  refine .ok (SOk.put (ho.bs.setName x _) ?_ ?_ ?_ ?_ ⟨X, l, l', a1, ?_, ?_⟩)
  · rw [names_swapped]; exact ho.sw
  · rw [names_swapped]; exact ho.sw'
  · rw [names_status]; exact h1
  · rw [names_status]; exact h2
  · rw [names_stack]; exact a2
  · rw [names_stack]; exact a3

theorem initRef_sim (ho : SOk sem n (k + 1) s s') (h1 : s.status = .next) (h2 : s'.status = .next) (x : Name) :
    Sim (PostS sem n k) (runNode sem R (.initRef x) s) (runNode sem (run sem) (.initRef x) s') := by
  simp only [runNode]
  obtain ⟨r, X, l, l', a1, a2, a3⟩ := (ho.top h1).cons
  refine Sim.top a2 a3 (.ok (SOk.put ((ho.bs.setName x _).setStack _ _) ?_ ?_ ?_ ?_ ⟨X, l, l', a1, ?_, ?_⟩))
  · rw [setStack_swapped, names_swapped]; exact ho.sw
  · rw [setStack_swapped, names_swapped]; exact ho.sw'
  · rw [setStack_status, names_status]; exact h1
  · rw [setStack_status, names_status]; exact h2
  · rw [setStack_stack]
  · rw [setStack_stack]

theorem initVar_sim (ho : SOk sem n (k + 2) s s') (h1 : s.status = .next) (h2 : s'.status = .next) (imm : Bool) :
    Sim (PostS sem n k) (runNode sem R (.initVar imm) s) (runNode sem (run sem) (.initVar imm) s') := by
  simp only [runNode]
  obtain ⟨X, l, l', a1, a2, a3⟩ := ho.top h1
  obtain ⟨r, r1, X, rfl⟩ : ∃ r r1 X', X = r :: r1 :: X' := by
    match X, a1 with
    | r :: r1 :: X', _ => exact ⟨r, r1, X', rfl⟩
  rw [a2, a3, ← ho.bs.world]
  simp only [List.cons_append]
  refine Sim.value rfl ho.bs fun v => ?_
  cases r1.var? with
  | none => exact .ub
  | some id =>
    refine Sim.ite Iff.rfl (fun _ => .ok (SOk.put ((ho.bs.initVar _ _ _).setStack _ _) ?_ ?_ ?_ ?_ ⟨X, l, l', by simpa using a1, ?_, ?_⟩)) fun _ => .ub
    · rw [setStack_swapped]; exact ho.sw
    · rw [setStack_swapped]; exact ho.sw'
    · rw [setStack_status]; exact h1
    · rw [setStack_status]; exact h2
    · rw [setStack_stack]
    · rw [setStack_stack]

theorem block_sim (ih : IH sem R) (hb : Bs sem n s s') (hf : s.swapped = false) (hf' : s'.swapped = false) {b b' : List (Node P)} (hbd : Body sem b b') :
    Sim (PostW sem n) (R (block b) s) (run sem (block b') s') :=
  ih.app (.within [] (.rod hbd) hb hf hf' (.inr ⟨b, rfl⟩))

theorem PostW.toS {o o' : Option (Out P)} (h : Sim (PostW sem n) o o') : Sim (PostS sem n 0) o o' := h.mono (fun _ _ h => h) fun _ _ h => h.bs

theorem if_sim (ih : IH sem R) (ho : SOk sem n (k + 1) s s') (h1 : s.status = .next) (neg : Bool) {t t' f f' : List (Node P)} (ht : Body sem t t') (hf : Body sem f f') :
    Sim (PostS sem n 0) (runNode sem R (.ifS neg t f) s) (runNode sem (run sem) (.ifS neg t' f') s') := by
  simp only [runNode]
  obtain ⟨r, X, l, l', a1, a2, a3⟩ := (ho.top h1).cons
  exact Sim.top a2 a3 (Sim.value (deref_eq ho.bs.world r) ho.bs fun v => Sim.ite Iff.rfl (fun _ => PostW.toS (block_sim ih ho.bs ho.sw ho.sw' ht))
    fun _ => PostW.toS (block_sim ih ho.bs ho.sw ho.sw' hf))

theorem switch_sim (ih : IH sem R) (hn : 1 ≤ n) (ho : SOk sem n (k + 1) s s') (h1 : s.status = .next) (h2 : s'.status = .next) {cs cs' : List (Clause P)} (hc : Cl sem cs cs') :
    Sim (PostS sem n 0) (runNode sem R (.switchS cs) s) (runNode sem (run sem) (.switchS cs') s') := by
  simp only [runNode]
  obtain ⟨r, X, l, l', a1, a2, a3⟩ := (ho.top h1).cons
  exact Sim.top a2 a3 (Sim.value (deref_eq ho.bs.world r) ho.bs fun v => ih.app (.st (.find v 0 none hc hc) ho.bs hn ho.sw ho.sw' (.inl ⟨h1, h2⟩)))

theorem kp_swapped {s t : State P} (h : Kp s t) : t.swapped = s.swapped := by unfold State.swapped; rw [h.scopes]
theorem kp_stack {s t : State P} (h : Kp s t) : t.stack = s.stack := by unfold State.stack; rw [kp_swapped h, h.stk0, h.stk1]
theorem kp_alt {s t : State P} (h : Kp s t) : t.alt = s.alt := by unfold State.alt; rw [kp_swapped h, h.stk0, h.stk1]

theorem try_sim (ih : IH sem R) (ho : SOk sem n k s s') (x : Name) {b b' h h' : List (Node P)} (hb : Body sem b b') (hh : Body sem h h') :
    Sim (PostS sem n 0) (runNode sem R (.tryS b x h) s) (runNode sem (run sem) (.tryS b' x h') s') := by
  simp only [runNode]
  refine Sim.onOut (Q := SOk sem n 0) (X := WX sem n) trivial (Sim.andThen (block_sim ih ho.bs ho.sw ho.sw' hb) (fun t t' hq => ?_) fun _ _ h => h) (fun t t' hq => .ok hq)
    fun e t t' hq => PostW.toS (ih.app (.within _ (.rod hh) hq.bs hq.sw hq.sw' (.inr ⟨h, rfl⟩)))
  refine Sim.ite (by rw [hq.status]) (fun hr => ?_) fun _ => .ok hq
  obtain ⟨r, X, l, l', a1, a2, a3⟩ := (hq.ret hr).cons
  refine Sim.top a2 a3 (Sim.andThen (ih.app (.check r hq.bs)) (fun u u' hu => .ok ?_) fun u u' hu => ?_)
  · refine SOk.done (hu.bs.setStack _ _) ?_ ?_ ?_ fun _ => ?_
    · rw [setStack_swapped, kp_swapped hu.kp]; exact hq.sw
    · rw [setStack_swapped, kp_swapped hu.kp']; exact hq.sw'
    · rw [setStack_status, setStack_status, hu.kp.status, hu.kp'.status]; exact hq.status
    · refine Top.weaken (r := u.result) (l' := u'.stack.tail) (setStack_stack _ _) ?_
      rw [setStack_stack, hu.bs.result]
  · exact ⟨hu.bs, (kp_swapped hu.kp).trans hq.sw, (kp_swapped hu.kp').trans hq.sw'⟩

theorem throw_sim (ho : SOk sem n (k + 1) s s') (h1 : s.status = .next) :
    Sim (PostS sem n 0) (runNode sem R .throwS s) (runNode sem (run sem) .throwS s') := by
  simp only [runNode]
  obtain ⟨r, X, l, l', a1, a2, a3⟩ := (ho.top h1).cons
  refine Sim.top a2 a3 (Sim.value (derefCopy_eq ho.bs.world r) ho.bs fun v => ?_)
  cases v <;> first | exact .exc _ ho.bs | exact .exc _ (ho.bs.setStack _ _)

theorem assert_sim (ho : SOk sem n (k + 1) s s') (h1 : s.status = .next) :
    Sim (PostS sem n 0) (runNode sem R .assertS s) (runNode sem (run sem) .assertS s') := by
  simp only [runNode]
  obtain ⟨r, X, l, l', a1, a2, a3⟩ := (ho.top h1).cons
  exact Sim.top a2 a3 (Sim.value (deref_eq ho.bs.world r) ho.bs fun v => Sim.ite Iff.rfl (fun _ => .ok ho.zero) fun _ => .exc _ ho.bs)

theorem defer_sim (ho : SOk sem n k s s') (h1 : s.status = .next) (h2 : s'.status = .next) {j : Nat} {b b' : List (Node P)} (hb : Ex sem j b b') :
    Sim (PostS sem n 0) (runNode sem R (.deferE b) s) (runNode sem (run sem) (.deferE b') s') := by
  simp only [runNode]
  have h3 := Ex.rebind (contexts s) hb
  rw [← ho.bs.contexts]
  revert h3
  cases rebindAll (contexts s) b <;> cases rebindAll (contexts s) b' <;> simp only [RR] <;> intro h3 <;> first | exact h3.elim | skip
  · have hsw : ∀ (u : State P) (d : Nat × List (Node P)), (u.modScope fun a => { a with defers := a.defers ++ [d] }).swapped = u.swapped := by
      intro u d; unfold State.modScope State.swapped; cases h : u.scopes <;> simp [h]
    refine .ok (SOk.put ?_ ?_ ?_ ?_ ?_ (Top.zero _ _))
    · rw [← ho.bs.trace]
      refine Bs.log (ho.bs.modScope ?_) _
      intro a c hac
      exact ⟨hac.1, f2_append hac.2 (.cons ⟨rfl, j, h3⟩ .nil)⟩
    · exact (hsw s _).trans ho.sw
    · exact (hsw s' _).trans ho.sw'
    · exact (modScope_status _ _).trans h1
    · exact (modScope_status _ _).trans h2
  · exact .exc _ ho.bs
  · exact .ub

theorem ret_sim (ho : SOk sem n (k + 1) s s') (h1 : s.status = .next) (byRef : Bool) :
    Sim (PostS sem n 0) (runNode sem R (.returnS byRef false) s) (runNode sem (run sem) (.returnS byRef false) s') := by
  simp only [runNode, Bool.false_eq_true, if_false]
  obtain ⟨r, X, l, l', a1, a2, a3⟩ := (ho.top h1).cons
  have hd : SOk sem n 0 (s.setStatus .ret) (s'.setStatus .ret) := SOk.done (ho.bs.setStatus _ _) ho.sw ho.sw' rfl fun _ => Top.weaken a2 a3
  have key : Sim (PostS sem n 0)
      (if byRef then withValue s (deref s.world r) fun _ => some (.ok (s.setStatus .ret))
        else withValue s (derefCopy s.world r) fun v => some (.ok ((s.setStack (.temp v [] :: (X ++ l))).setStatus .ret)))
      (if byRef then withValue s' (deref s'.world r) fun _ => some (.ok (s'.setStatus .ret))
        else withValue s' (derefCopy s'.world r) fun v => some (.ok ((s'.setStack (.temp v [] :: (X ++ l'))).setStatus .ret))) := by
    refine Sim.ite Iff.rfl (fun _ => Sim.value (deref_eq ho.bs.world r) ho.bs fun _ => .ok hd) fun _ => Sim.value (derefCopy_eq ho.bs.world r) ho.bs fun v => .ok ?_
    refine SOk.done ((ho.bs.setStack _ _).setStatus _ _) ?_ ?_ rfl fun _ => Top.weaken (r := .temp v []) (l := X ++ l) (l' := X ++ l') ?_ ?_
    · exact (setStack_swapped s _).trans ho.sw
    · exact (setStack_swapped s' _).trans ho.sw'
    · exact setStack_stack s _
    · exact setStack_stack s' _
  refine Sim.top a2 a3 ?_
  cases r <;> first | exact .ok hd | exact key

/-- The code that returns a constant. -/
theorem ret_run {v : Value} {x : List (Node P)} (h : Ret sem v x) (rec : Task P → State P → Option (Out P)) (s : State P) (h1 : s.status = .next) :
    runSeq sem rec x s = some (.ok ((s.push (.temp v [])).setStatus .ret)) := by
  rcases h with rfl | ⟨a, byRef, hs, rfl⟩
  · rw [runSeq_single]; rfl
  · rw [runSeq_append rec _ _ _ h1, runSeq_pure rec hs.left h1]
    have h2 := hs.same s.world [] s.stack s.stack rfl
    simp only [List.nil_append, den] at h2
    revert h2
    cases den sem a s.world s.stack <;> simp only [PrimOut.Same] <;> intro h2 <;> first | exact h2.elim | skip
    rename_i w l
    obtain ⟨rfl, Y, hY, hl, hl'⟩ := h2
    have hl2 : l = .temp v [] :: s.stack := by
      match Y, hY with
      | [r], _ =>
        simp only [List.singleton_append, List.cons.injEq] at hl'
        rw [hl, hl'.1]; rfl
    subst hl2
    simp only [andThen, onOut]
    have h3 : (({ s with world := s.world } : State P).setStack (.temp v [] :: s.stack)) = s.push (.temp v []) := rfl
    rw [h3, if_pos (by rw [push_status]; exact h1), runSeq_single]
    simp only [runNode, Bool.false_eq_true, if_false, withTop, push_stack]
    have d1 : deref (s.push (.temp v [])).world (.temp v []) = .ok v := by simp [deref, Ref.toSub, Subscript.Ref.readonly, Subscript.readPath]
    have d2 : derefCopy (s.push (.temp v [])).world (.temp v []) = .ok v := by simp [derefCopy, Ref.toSub, Subscript.Ref.copy, Subscript.copyPath]
    have h4 : (s.push (.temp v [])).setStack (.temp v [] :: s.stack) = s.push (.temp v []) := by
      unfold State.push State.setStack State.swapped
      cases s with
      | mk world funcs ptcs scopes stk0 stk1 status result trace =>
        cases scopes with
        | nil => rfl
        | cons sc ss => cases hsw : sc.swapped <;> simp [hsw]
    rw [d1, d2]
    simp only [withValue, h4]
    split <;> rfl

/-- Statements that do the same. -/
theorem s_sim (ih : IH sem R) (hn : 1 ≤ n) {c d : List (Node P)} {k : Nat} : St sem k c d →
    ∀ {s s' : State P}, Bs sem n s s' → s.swapped = false → s'.swapped = false → s.status = .next → s'.status = .next →
      Sim (PostS sem n k) (runSeq sem R c s) (runSeq sem (run sem) d s')
  | .nil, _, _, hb, hf, hf', h1, h2 => .ok (SOk.begin hb hf hf' h1 h2)
  | .clear h, _, _, hb, hf, hf', h1, h2 => snocN h1 h2 (s_sim ih hn h hb hf hf' h1 h2) fun t t' ho g1 g2 =>
      .ok (SOk.put (ho.bs.setStack _ _) ((setStack_swapped _ _).trans ho.sw) ((setStack_swapped _ _).trans ho.sw') ((setStack_status _ _).trans g1)
        ((setStack_status _ _).trans g2) (Top.zero _ _))
  | .expr h he, _, _, hb, hf, hf', h1, h2 => snocS h1 h2 (s_sim ih hn h hb hf hf' h1 h2) fun t t' ho g1 g2 =>
      (e_sim ih hn he ho.bs g1 g2).mono (fun u u' hu => by
        refine ⟨hu.bs, hu.sw.trans ho.sw, hu.sw'.trans ho.sw', hu.status, fun hs => ?_, fun hs => (hu.ret (by rw [hs]; simp)).2.2⟩
        obtain ⟨Y, b1, b2, b3⟩ := hu.stk hs
        obtain ⟨X, l, l', a1, a2, a3⟩ := ho.top g1
        simp only [frame] at b2 b3
        exact ⟨Y ++ X, l, l', by simp [a1, b1, Nat.add_comm], by rw [b2, a2]; simp, by rw [b3, a3]; simp⟩) fun _ _ hu => hu.bs
  | .pure h hs, _, _, hb, hf, hf', h1, h2 => snocS h1 h2 (s_sim ih hn h hb hf hf' h1 h2) fun t t' ho g1 g2 => by
      obtain ⟨F, f1, f2, he⟩ := ho.toE g1
      exact (pure_sim hs he g1 g2).mono (fun _ _ hu => hu.toS f1 f2) fun _ _ hu => hu.bs
  | .declareVar x h, _, _, hb, hf, hf', h1, h2 => snocN h1 h2 (s_sim ih hn h hb hf hf' h1 h2) fun _ _ ho g1 g2 => declareVar_sim ho g1 g2 x
  | .initVar i h, _, _, hb, hf, hf', h1, h2 => snocN h1 h2 (s_sim ih hn h hb hf hf' h1 h2) fun _ _ ho g1 g2 => initVar_sim ho g1 g2 i
  | .defineNull i x h, _, _, hb, hf, hf', h1, h2 => snocN h1 h2 (s_sim ih hn h hb hf hf' h1 h2) fun _ _ ho g1 g2 => defineNull_sim ho g1 g2 i x
  | .declareRef x h, _, _, hb, hf, hf', h1, h2 => snocN h1 h2 (s_sim ih hn h hb hf hf' h1 h2) fun _ _ ho g1 g2 => declareRef_sim ho g1 g2 x
  | .initRef x h, _, _, hb, hf, hf', h1, h2 => snocN h1 h2 (s_sim ih hn h hb hf hf' h1 h2) fun _ _ ho g1 g2 => initRef_sim ho g1 g2 x
  | .block h hbd, _, _, hb, hf, hf', h1, h2 => snocN h1 h2 (s_sim ih hn h hb hf hf' h1 h2) fun _ _ ho _ _ => PostW.toS (block_sim ih ho.bs ho.sw ho.sw' hbd)
  | .ifS neg h ht hf2, _, _, hb, hf, hf', h1, h2 => snocN h1 h2 (s_sim ih hn h hb hf hf' h1 h2) fun _ _ ho g1 _ => if_sim ih ho g1 neg ht hf2
  | .switchS h hc, _, _, hb, hf, hf', h1, h2 => snocN h1 h2 (s_sim ih hn h hb hf hf' h1 h2) fun _ _ ho g1 g2 => switch_sim ih hn ho g1 g2 hc
  | .doWhile neg h a1 a2 a3, _, _, hb, hf, hf', h1, h2 => snocN h1 h2 (s_sim ih hn h hb hf hf' h1 h2) fun _ _ ho g1 g2 =>
      ih.app (.st (.doL neg a1 a2 a3) ho.bs hn ho.sw ho.sw' (.inl ⟨g1, g2⟩))
  | .whileS neg h a1 a2 a3, _, _, hb, hf, hf', h1, h2 => snocN h1 h2 (s_sim ih hn h hb hf hf' h1 h2) fun _ _ ho g1 g2 =>
      ih.app (.st (.whileL neg a1 a2 a3) ho.bs hn ho.sw ho.sw' (.inl ⟨g1, g2⟩))
  | .forEach kn mn h a1 a2 a3, _, _, hb, hf, hf', h1, h2 => snocN h1 h2 (s_sim ih hn h hb hf hf' h1 h2) fun _ _ ho g1 g2 =>
      PostW.toS (ih.app (.within _ (.eachInit kn mn a1 a2 a3) ho.bs ho.sw ho.sw' (.inl ⟨g1, g2⟩)))
  | .forS h a1 a2 a3 a4 a5, _, _, hb, hf, hf', h1, h2 => snocN h1 h2 (s_sim ih hn h hb hf hf' h1 h2) fun _ _ ho g1 g2 =>
      PostW.toS (ih.app (.within _ (.forInit a1 a2 a3 a4 a5) ho.bs ho.sw ho.sw' (.inl ⟨g1, g2⟩)))
  | .tryS x h a1 a2, _, _, hb, hf, hf', h1, h2 => snocN h1 h2 (s_sim ih hn h hb hf hf' h1 h2) fun _ _ ho _ _ => try_sim ih ho x a1 a2
  | .throwS h, _, _, hb, hf, hf', h1, h2 => snocN h1 h2 (s_sim ih hn h hb hf hf' h1 h2) fun _ _ ho g1 _ => throw_sim ho g1
  | .assertS h, _, _, hb, hf, hf', h1, h2 => snocN h1 h2 (s_sim ih hn h hb hf hf' h1 h2) fun _ _ ho g1 _ => assert_sim ho g1
  | .status q hq h, _, _, hb, hf, hf', h1, h2 => snocN h1 h2 (s_sim ih hn h hb hf hf' h1 h2) fun _ _ ho _ _ =>
      .ok (SOk.done (ho.bs.setStatus _ _) ho.sw ho.sw' rfl fun h' => absurd h' hq)
  | .deferE h hb2, _, _, hb, hf, hf', h1, h2 => snocN h1 h2 (s_sim ih hn h hb hf hf' h1 h2) fun _ _ ho g1 g2 => defer_sim ho g1 g2 hb2
  | .ret r h, _, _, hb, hf, hf', h1, h2 => snocN h1 h2 (s_sim ih hn h hb hf hf' h1 h2) fun _ _ ho g1 _ => ret_sim ho g1 r
  | .retVoid r h, _, _, hb, hf, hf', h1, h2 => snocN h1 h2 (s_sim ih hn h hb hf hf' h1 h2) fun _ _ ho _ _ =>
      .ok (SOk.done (ho.bs.setStatus _ _) ho.sw ho.sw' rfl fun h' => by cases h')
  | .retConst v h hx hy, _, _, hb, hf, hf', h1, h2 => snocS h1 h2 (s_sim ih hn h hb hf hf' h1 h2) fun t t' ho g1 g2 => by
      rw [ret_run hx R t g1, ret_run hy (run sem) t' g2]
      exact .ok (SOk.done ((ho.bs.push _ _).setStatus _ _) ((push_swapped t _).trans ho.sw) ((push_swapped t' _).trans ho.sw') rfl
        fun _ => Top.weaken (push_stack t _) (push_stack t' _))

end

end Asteria.Exec.Opt
