import Verif.Spec.Syntax
import Verif.Proof.Compile

/-!
# Code in which every jump has a place to go to

Helper judgement for `Verif.Props.Jump`, and the code generator.
-/

namespace Asteria.Exec.Jump

open Syntax (Around)

variable {P : Type}

/-- The statuses that code within some statements can end with. -/
def Allowed (l : List Around) : Status → Prop
  | .next | .retVoid | .ret => True
  | .brk => l ≠ []
  | .brkSwitch => .switch ∈ l
  | .brkWhile => .while ∈ l
  | .brkFor => .for ∈ l
  | .cont => .while ∈ l ∨ .for ∈ l
  | .contWhile => .while ∈ l
  | .contFor => .for ∈ l

theorem Allowed.mono {l : List Around} {s : Status} (h : Allowed [] s) : Allowed l s := by
  cases s <;> simp_all [Allowed]

mutual
/-- Every jump in a node has a place to go to. -/
def OkN (l : List Around) : Node P → Prop
  | .simpleStatus s => Allowed l s
  | .block b => OkNs l b
  | .ifS _ t f => OkNs l t ∧ OkNs l f
  | .switchS cs => OkCs (.switch :: l) cs
  | .doWhile b _ c k => OkNs (.while :: l) b ∧ OkNs [] c ∧ OkNs l k
  | .whileS _ c b k => OkNs [] c ∧ OkNs (.while :: l) b ∧ OkNs l k
  | .forEach _ _ i b k => OkNs [] i ∧ OkNs (.for :: l) b ∧ OkNs l k
  | .forS i c s b k => OkNs [] i ∧ OkNs [] c ∧ OkNs [] s ∧ OkNs (.for :: l) b ∧ OkNs l k
  | .tryS b _ h => OkNs l b ∧ OkNs l h
  | .defineFunc _ _ b => OkNs [] b
  | .branchE t f _ => OkNs [] t ∧ OkNs [] f
  | .coalesceE c _ => OkNs [] c
  | .deferE b => OkNs [] b
  | .catchE b => OkNs [] b
  | _ => True

/-- The same for a list. -/
def OkNs (l : List Around) : List (Node P) → Prop
  | [] => True
  | n :: ns => OkN l n ∧ OkNs l ns

/-- The same for clauses. -/
def OkCs (l : List Around) : List (Clause P) → Prop
  | [] => True
  | .mk _ la b _ :: cs => (OkNs [] la ∧ OkNs l b) ∧ OkCs l cs
end

theorem okNs_append (l : List Around) : ∀ (a b : List (Node P)), OkNs l (a ++ b) ↔ OkNs l a ∧ OkNs l b
  | [], b => by simp [OkNs]
  | n :: a, b => by simp [OkNs, okNs_append l a b, and_assoc]

theorem okNs_iff (l : List Around) : ∀ (a : List (Node P)), OkNs l a ↔ ∀ n ∈ a, OkN l n
  | [] => by simp [OkNs]
  | n :: a => by simp [OkNs, okNs_iff l a]

theorem OkNs.dropLast {l : List Around} {a : List (Node P)} (h : OkNs l a) : OkNs l a.dropLast := by
  rw [okNs_iff] at *
  exact fun n hn => h n (List.dropLast_subset _ hn)

theorem OkNs.push {l : List Around} {a : List (Node P)} (h : OkNs l a) {n : Node P} (hn : OkN l n) : OkNs l (a ++ [n]) := by
  rw [okNs_append]; exact ⟨h, by simpa only [OkNs, and_true] using hn⟩

theorem okNs_map {α : Type} {l : List Around} (f : α → Node P) (h : ∀ x, OkN l (f x)) (xs : List α) : OkNs l (xs.map f) := by
  rw [okNs_iff]; simp only [List.mem_map]; rintro _ ⟨x, _, rfl⟩; exact h x

/-! ### Capture -/

mutual
theorem cap_node : ∀ (n : Node P) {ctx : List (Option (List (Name × Ref)))} {l : List Around} {n' : Node P}, OkN l n →
    rebind ctx n = .ok n' → OkN l n'
  | .block b, _, _, _, h, h' => by
    simp only [rebind] at h'
    obtain ⟨x, h1, rfl⟩ := Compile.map_ok h'
    simp only [OkN] at *
    exact cap_seq b h h1
  | .ifS _ t f, _, _, _, h, h' => by
    simp only [rebind] at h'
    obtain ⟨x, h1, h2⟩ := Compile.bind_ok h'
    obtain ⟨y, h3, rfl⟩ := Compile.map_ok h2
    simp only [OkN] at *
    exact ⟨cap_seq t h.1 h1, cap_seq f h.2 h3⟩
  | .switchS cs, _, _, _, h, h' => by
    simp only [rebind] at h'
    obtain ⟨x, h1, rfl⟩ := Compile.map_ok h'
    simp only [OkN] at *
    exact cap_clauses cs h h1
  | .doWhile b _ c k, _, _, _, h, h' => by
    simp only [rebind] at h'
    obtain ⟨x, h1, h2⟩ := Compile.bind_ok h'
    obtain ⟨y, h3, h4⟩ := Compile.bind_ok h2
    obtain ⟨z, h5, rfl⟩ := Compile.map_ok h4
    simp only [OkN] at *
    exact ⟨cap_seq b h.1 h1, cap_seq c h.2.1 h3, cap_seq k h.2.2 h5⟩
  | .whileS _ c b k, _, _, _, h, h' => by
    simp only [rebind] at h'
    obtain ⟨x, h1, h2⟩ := Compile.bind_ok h'
    obtain ⟨y, h3, h4⟩ := Compile.bind_ok h2
    obtain ⟨z, h5, rfl⟩ := Compile.map_ok h4
    simp only [OkN] at *
    exact ⟨cap_seq c h.1 h1, cap_seq b h.2.1 h3, cap_seq k h.2.2 h5⟩
  | .forEach kn mn i b k, _, _, _, h, h' => by
    simp only [rebind] at h'
    obtain ⟨x, h1, h2⟩ := Compile.bind_ok h'
    obtain ⟨y, h3, h4⟩ := Compile.bind_ok h2
    obtain ⟨z, h5, rfl⟩ := Compile.map_ok h4
    simp only [OkN] at *
    exact ⟨cap_seq i h.1 h1, cap_seq b h.2.1 h3, cap_seq k h.2.2 h5⟩
  | .forS i c s b k, _, _, _, h, h' => by
    simp only [rebind] at h'
    obtain ⟨x, h1, h2⟩ := Compile.bind_ok h'
    obtain ⟨y, h3, h4⟩ := Compile.bind_ok h2
    obtain ⟨z, h5, h6⟩ := Compile.bind_ok h4
    obtain ⟨u, h7, h8⟩ := Compile.bind_ok h6
    obtain ⟨v, h9, rfl⟩ := Compile.map_ok h8
    simp only [OkN] at *
    exact ⟨cap_seq i h.1 h1, cap_seq c h.2.1 h3, cap_seq s h.2.2.1 h5, cap_seq b h.2.2.2.1 h7, cap_seq k h.2.2.2.2 h9⟩
  | .tryS b n e, _, _, _, h, h' => by
    simp only [rebind] at h'
    obtain ⟨x, h1, h2⟩ := Compile.bind_ok h'
    obtain ⟨y, h3, rfl⟩ := Compile.map_ok h2
    simp only [OkN] at *
    exact ⟨cap_seq b h.1 h1, cap_seq e h.2 h3⟩
  | .pushLocal d n, ctx, _, n', h, h' => by
    simp only [rebind, rebindLocal] at h'
    split at h'
    · simp at h'
    · cases h'; simp only [OkN]
    · split at h'
      · cases h'; simp only [OkN]
      · simp at h'
      · cases h'; simp only [OkN]
  | .defineFunc ps _ b, _, _, _, h, h' => by
    simp only [rebind] at h'
    obtain ⟨x, h1, rfl⟩ := Compile.map_ok h'
    simp only [OkN] at *
    exact cap_seq b h h1
  | .branchE t f _, _, _, _, h, h' => by
    simp only [rebind] at h'
    obtain ⟨x, h1, h2⟩ := Compile.bind_ok h'
    obtain ⟨y, h3, rfl⟩ := Compile.map_ok h2
    simp only [OkN] at *
    exact ⟨cap_seq t h.1 h1, cap_seq f h.2 h3⟩
  | .coalesceE c _, _, _, _, h, h' => by
    simp only [rebind] at h'
    obtain ⟨x, h1, rfl⟩ := Compile.map_ok h'
    simp only [OkN] at *
    exact cap_seq c h h1
  | .deferE b, _, _, _, h, h' => by
    simp only [rebind] at h'
    obtain ⟨x, h1, rfl⟩ := Compile.map_ok h'
    simp only [OkN] at *
    exact cap_seq b h h1
  | .catchE b, _, _, _, h, h' => by
    simp only [rebind] at h'
    obtain ⟨x, h1, rfl⟩ := Compile.map_ok h'
    simp only [OkN] at *
    exact cap_seq b h h1
  | .clearStack, _, _, _, h, h' | .declareVar _, _, _, _, h, h' | .initVar _, _, _, _, h, h' | .throwS, _, _, _, h, h'
  | .assertS, _, _, _, h, h' | .simpleStatus _, _, _, _, h, h' | .checkArg _, _, _, _, h, h' | .pushBound _, _, _, _, h, h'
  | .pushConst _, _, _, _, h, h' | .funcCall _ _, _, _, _, h, h' | .altClear, _, _, _, h, h' | .altCall _, _, _, _, h, h'
  | .returnS _ _, _, _, _, h, h' | .returnConst _, _, _, _, h, h' | .defineNull _ _, _, _, _, h, h'
  | .declareRef _, _, _, _, h, h' | .initRef _, _, _, _, h, h' | .prim _, _, _, _, h, h' => by
    simp only [rebind, Res.ok.injEq] at h'; subst h'; exact h

theorem cap_seq : ∀ (b : List (Node P)) {ctx : List (Option (List (Name × Ref)))} {l : List Around} {b' : List (Node P)},
    OkNs l b → rebindAll ctx b = .ok b' → OkNs l b'
  | [], _, _, _, h, h' => by simp only [rebindAll, Res.ok.injEq] at h'; subst h'; exact h
  | n :: ns, _, _, _, h, h' => by
    simp only [rebindAll] at h'
    obtain ⟨x, h1, h2⟩ := Compile.bind_ok h'
    obtain ⟨y, h3, rfl⟩ := Compile.map_ok h2
    simp only [OkNs] at *
    exact ⟨cap_node n h.1 h1, cap_seq ns h.2 h3⟩

theorem cap_clauses : ∀ (b : List (Clause P)) {ctx : List (Option (List (Name × Ref)))} {l : List Around}
    {b' : List (Clause P)}, OkCs l b → rebindClauses ctx b = .ok b' → OkCs l b'
  | [], _, _, _, h, h' => by simp only [rebindClauses, Res.ok.injEq] at h'; subst h'; exact h
  | .mk _ la b names :: cs, _, _, _, h, h' => by
    simp only [rebindClauses] at h'
    obtain ⟨x, h1, h2⟩ := Compile.bind_ok h'
    obtain ⟨y, h3, h4⟩ := Compile.bind_ok h2
    obtain ⟨z, h5, rfl⟩ := Compile.map_ok h4
    simp only [OkCs] at *
    exact ⟨⟨cap_seq la h.1.1 h1, cap_seq b h.1.2 h3⟩, cap_clauses cs h.2 h5⟩
end

end Asteria.Exec.Jump

namespace Asteria.Compile

open Exec Exec.Jump Syntax

variable {P X : Type}

theorem genOp_ok (o : Opts) (e : Emit P X) (x : X) (a : Bool) {l : List Around} {code : List (Node P)} (h : OkNs l code) :
    OkNs l (genOp o e x a code) := by
  have plain : OkNs l (code ++ [.prim (e.apply x a)]) := h.push (by simp only [OkN])
  have repl : ∀ p, OkNs l (code.dropLast ++ [.prim p]) := fun p => h.dropLast.push (by simp only [OkN])
  unfold genOp
  simp only
  split
  · split
    · exact plain
    · split
      · exact h
      · split
        · exact repl _
        · split
          · exact repl _
          · exact plain
        · split
          · exact h.dropLast.push (by simp only [OkN])
          · split
            · exact repl _
            · exact plain
        · exact plain
  · exact plain

theorem genReturn_ok (o : Opts) (r one : Bool) {l : List Around} {code : List (Node P)} (h : OkNs l code) :
    OkNs l (genReturn o r one code) := by
  have plain : OkNs l (code ++ [.returnS r false]) := h.push (by simp only [OkN])
  have repl : ∀ v, OkNs l (code.dropLast ++ [.returnConst v]) := fun p => h.dropLast.push (by simp only [OkN])
  unfold genReturn
  simp only
  split
  · split
    · exact repl _
    · exact repl _
    · split
      · exact repl _
      · exact plain
    · exact plain
  · exact plain

theorem genTrap_ok (o : Opts) (e : Emit P X) {l : List Around} {code : List (Node P)} (h : OkNs l code) :
    OkNs l (genTrap o e code) := by
  unfold genTrap
  split
  · exact h.push (by simp only [OkN])
  · exact h

theorem genClear_ok (o : Opts) (e : Emit P X) {l : List Around} {code : List (Node P)} (h : OkNs l code) :
    OkNs l (genClear o e code) := genTrap_ok o e (h.push (by simp only [OkN]))

theorem okNil (l : List Around) : OkNs l ([] : List (Node P)) := by simp only [OkNs]

theorem genBranch_ok {l : List Around} {a : Bool} {bs : List (BranchKind × List (Node P))} {n : Node P}
    (h : genBranch a bs = .ok n) (hb : ∀ p ∈ bs, OkNs [] p.2) : OkN l n := by
  unfold genBranch at h
  split at h <;> first
    | (cases h; simp_all [OkN, OkNs])
    | simp at h

set_option maxHeartbeats 1000000 in
mutual

theorem genUnit_ok (o : Opts) (e : Emit P X) : ∀ (u : XUnit X) {l : List Around} {Γ : List (List Name)} {ptc : Ptc}
    {code c : List (Node P)}, JumpU u → OkNs l code → genUnit o e Γ ptc u code = .ok c → OkNs l c
  | u, l, Γ, ptc, code, c, hj, hg, h => by
    unfold genUnit at h
    split at h
    · cases h; exact hg
    · cases u with
      | literal v => simp only [Res.ok.injEq] at h; subst h; exact hg.push (by simp only [OkN])
      | localRef n =>
        simp only at h
        obtain ⟨d, h1, h2⟩ := bind_ok h
        cases d with
        | some d => simp only [Res.ok.injEq] at h2; subst h2; exact hg.push (by simp only [OkN])
        | none =>
          simp only at h2
          split at h2
          · simp only [Res.ok.injEq] at h2; subst h2; exact hg.push (by simp only [OkN])
          · simp at h2
      | closure ps va b =>
        simp only [JumpU] at h hj
        obtain ⟨g, h1, rfl⟩ := map_ok h
        exact hg.push (by simpa only [OkN] using genStmts_ok o e b hj (okNil []) h1)
      | branch bs a =>
        simp only [JumpU] at h hj
        obtain ⟨l, h1, h2⟩ := bind_ok h
        obtain ⟨n, h3, rfl⟩ := map_ok h2
        exact hg.push (genBranch_ok h3 (genBranches_ok o e bs hj h1))
      | call args =>
        simp only [JumpU] at h hj
        split at h
        · obtain ⟨c', h1, rfl⟩ := map_ok h
          exact (genArgs_ok o e args hj (hg.push (by simp only [OkN])) h1).push (by simp only [OkN])
        · obtain ⟨c', h1, rfl⟩ := map_ok h
          exact (genArgs_ok o e args hj hg h1).push (by simp only [OkN])
      | op x a => simp only [Res.ok.injEq] at h; subst h; exact genOp_ok o e x a hg
      | array n => simp only [Res.ok.injEq] at h; subst h; exact hg.push (by simp only [OkN])
      | object n => simp only [Res.ok.injEq] at h; subst h; exact hg.push (by simp only [OkN])
      | globalRef n => simp only [Res.ok.injEq] at h; subst h; exact hg.push (by simp only [OkN])
      | checkArg r =>
        simp only at h
        split at h
        · simp only [Res.ok.injEq] at h; subst h; exact hg
        · simp only [Res.ok.injEq] at h; subst h; exact hg.push (by simp only [OkN])
      | catchE us =>
        simp only [JumpU] at h hj
        obtain ⟨c', h1, rfl⟩ := map_ok h
        exact hg.push (by simpa only [OkN] using genUnits_ok o e us hj (okNil []) h1)
termination_by structural x => x

theorem genUnits_ok (o : Opts) (e : Emit P X) : ∀ (us : List (XUnit X)) {l : List Around} {Γ : List (List Name)} {ptc : Ptc}
    {code c : List (Node P)}, JumpUs us → OkNs l code → genUnits o e Γ ptc us code = .ok c → OkNs l c
  | [], _, _, _, _, _, _, hg, h => by simp only [genUnits, Res.ok.injEq] at h; subst h; exact hg
  | u :: us, _, _, _, _, _, hj, hg, h => by
    simp only [genUnits, JumpUs] at h hj
    obtain ⟨c', h1, h2⟩ := bind_ok h
    exact genUnits_ok o e us hj.2 (genUnit_ok o e u hj.1 hg h1) h2
termination_by structural x => x

theorem genBranches_ok (o : Opts) (e : Emit P X) : ∀ (bs : List (Branch X)) {Γ : List (List Name)} {ptc : Ptc}
    {l : List (BranchKind × List (Node P))}, JumpBs bs → genBranches o e Γ ptc bs = .ok l → ∀ p ∈ l, OkNs [] p.2
  | [], _, _, _, _, h => by simp only [genBranches, Res.ok.injEq] at h; subst h; simp
  | .mk k us :: bs, Γ, _, _, hj, h => by
    simp only [genBranches, JumpBs] at h hj
    obtain ⟨c, h1, h2⟩ := bind_ok h
    obtain ⟨l, h3, rfl⟩ := map_ok h2
    intro p hp
    rcases List.mem_cons.1 hp with rfl | hp
    · exact genUnits_ok o e us hj.1 (okNil []) h1
    · exact genBranches_ok o e bs hj.2 h3 p hp
termination_by structural x => x

theorem genArgs_ok (o : Opts) (e : Emit P X) : ∀ (as : List (Arg X)) {l : List Around} {Γ : List (List Name)}
    {code c : List (Node P)}, JumpAs as → OkNs l code → genArgs o e Γ as code = .ok c → OkNs l c
  | [], _, _, _, _, _, hg, h => by simp only [genArgs, Res.ok.injEq] at h; subst h; exact hg
  | .mk us :: as, _, _, _, _, hj, hg, h => by
    simp only [genArgs, JumpAs] at h hj
    obtain ⟨c', h1, h2⟩ := bind_ok h
    exact genArgs_ok o e as hj.2 (genUnits_ok o e us hj.1 hg h1) h2
termination_by structural x => x

theorem genStmt_ok (o : Opts) (e : Emit P X) : ∀ (s : Stmt X) {l : List Around} {ptc : Ptc} {g g' : Gen P},
    JumpS l s → OkNs l g.code → genStmt o e ptc s g = .ok g' → OkNs l g'.code
  | s, l, ptc, g, g', hj, hg, h => by
    have cl := genClear_ok o e hg
    have cl0 := genClear_ok o e (okNil (P := P) [])
    unfold genStmt at h
    split at h
    · cases h; exact hg
    · cases s with
      | expr us =>
        simp only [JumpS] at h hj
        obtain ⟨c, h1, rfl⟩ := map_ok h
        exact genUnits_ok o e us hj cl h1
      | block b =>
        simp only [JumpS] at h hj
        split at h
        · obtain ⟨g₁, h1, rfl⟩ := map_ok h
          have h2 := genFlat_ok o e b hj hg h1
          exact h2
        · obtain ⟨g₁, h1, rfl⟩ := map_ok h
          exact hg.push (by simpa only [OkN] using genStmts_ok o e b hj (okNil l) h1)
      | vars imm ds => simp only [JumpS] at hj; exact genDecls_ok o e ds hj hg h
      | func n ps va b =>
        simp only [JumpS] at h hj
        obtain ⟨g₁, h1, rfl⟩ := map_ok h
        have h2 := genStmts_ok o e b hj (okNil []) h1
        simp only [emit_code, declare_code, okNs_append]
        simpa only [OkNs, OkN, true_and, and_true] using ⟨hg, h2⟩
      | ifS neg c t f =>
        simp only [JumpS] at h hj
        split at h
        · simp at h
        · obtain ⟨c', h1, h2⟩ := bind_ok h
          obtain ⟨gt, h3, h4⟩ := bind_ok h2
          obtain ⟨gf, h5, rfl⟩ := map_ok h4
          have h8 := genStmts_ok o e t hj.2.1 (okNil l) h3
          have h9 := genStmts_ok o e f hj.2.2 (okNil l) h5
          exact (genUnits_ok o e c hj.1 cl h1).push (by simpa only [OkN] using ⟨h8, h9⟩)
      | switchS c cs =>
        simp only [JumpS] at h hj
        split at h
        · simp at h
        · obtain ⟨c', h1, h2⟩ := bind_ok h
          obtain ⟨l, h3, rfl⟩ := map_ok h2
          exact (genUnits_ok o e c hj.1 cl h1).push (by simpa only [OkN] using genClauses_ok o e cs hj.2 h3)
      | doWhile b neg c k =>
        simp only [JumpS] at h hj
        obtain ⟨gb, h1, h2⟩ := bind_ok h
        split at h2
        · simp at h2
        · obtain ⟨c', h3, h4⟩ := bind_ok h2
          obtain ⟨gk, h5, rfl⟩ := map_ok h4
          have h7 := genUnits_ok o e c hj.2.1 cl0 h3
          have h8 := genStmts_ok o e b hj.1 (okNil _) h1
          have h9 := genStmts_ok o e k hj.2.2 (okNil _) h5
          exact hg.push (by simpa only [OkN] using ⟨h8, h7, h9⟩)
      | whileS neg c b k =>
        simp only [JumpS] at h hj
        split at h
        · simp at h
        · obtain ⟨c', h3, h2⟩ := bind_ok h
          obtain ⟨gb, h1, h4⟩ := bind_ok h2
          obtain ⟨gk, h5, rfl⟩ := map_ok h4
          have h7 := genUnits_ok o e c hj.1 cl0 h3
          have h8 := genStmts_ok o e b hj.2.1 (okNil _) h1
          have h9 := genStmts_ok o e k hj.2.2 (okNil _) h5
          exact hg.push (by simpa only [OkN] using ⟨h7, h8, h9⟩)
      | forEach kn mn i b k =>
        simp only [JumpS] at h hj
        split at h
        · simp at h
        · obtain ⟨c', h3, h2⟩ := bind_ok h
          obtain ⟨gb, h1, h4⟩ := bind_ok h2
          obtain ⟨gk, h5, rfl⟩ := map_ok h4
          have h7 := genUnits_ok o e i hj.1 cl0 h3
          have h8 := genStmts_ok o e b hj.2.1 (okNil _) h1
          have h9 := genStmts_ok o e k hj.2.2 (okNil _) h5
          exact hg.push (by simpa only [OkN] using ⟨h7, h8, h9⟩)
      | forS i c s b k =>
        simp only [JumpS] at h hj
        obtain ⟨gi, h1, h2⟩ := bind_ok h
        obtain ⟨c', h3, h4⟩ := bind_ok h2
        obtain ⟨s', h5, h6⟩ := bind_ok h4
        obtain ⟨gb, h7, h8⟩ := bind_ok h6
        obtain ⟨gk, h9, rfl⟩ := map_ok h8
        have hi := genStmts_ok o e i hj.1 (okNil _) h1
        have hc := genUnits_ok o e c hj.2.1 cl0 h3
        have hst := genUnits_ok o e s hj.2.2.1 cl0 h5
        have hb := genStmts_ok o e b hj.2.2.2.1 (okNil _) h7
        have hk := genStmts_ok o e k hj.2.2.2.2 (okNil _) h9
        exact hg.push (by simpa only [OkN] using ⟨hi, hc, hst, hb, hk⟩)
      | tryS b n hd =>
        simp only [JumpS] at h hj
        obtain ⟨gb, h1, h2⟩ := bind_ok h
        obtain ⟨gh, h3, rfl⟩ := map_ok h2
        have h8 := genStmts_ok o e hd hj.2 (okNil _) h3
        have h9 := genStmts_ok o e b hj.1 (okNil _) h1
        exact hg.push (by simpa only [OkN] using ⟨h9, h8⟩)
      | breakS t =>
        simp only [Res.ok.injEq, JumpS] at h hj; subst h
        refine hg.push ?_
        cases t <;> simpa only [OkN, Allowed, CanBreak] using hj
      | contS t =>
        simp only [JumpS] at hj
        cases t <;> simp only [Res.ok.injEq, reduceCtorEq] at h
        all_goals (subst h; exact hg.push (by simpa only [OkN, Allowed, CanContinue] using hj))
      | throwS us =>
        simp only [JumpS] at h hj
        split at h
        · simp at h
        · obtain ⟨c, h1, rfl⟩ := map_ok h
          exact (genUnits_ok o e us hj cl h1).push (by simp only [OkN])
      | returnS r us =>
        simp only [JumpS] at h hj
        split at h
        · simp only [Res.ok.injEq] at h; subst h
          exact hg.push (by simp only [OkN])
        · obtain ⟨c, h1, rfl⟩ := map_ok h
          exact genReturn_ok o r _ (genUnits_ok o e us hj cl h1)
      | assertS us =>
        simp only [JumpS] at h hj
        split at h
        · simp at h
        · obtain ⟨c, h1, rfl⟩ := map_ok h
          exact (genUnits_ok o e us hj cl h1).push (by simp only [OkN])
      | deferS us =>
        simp only [JumpS] at h hj
        split at h
        · simp at h
        · obtain ⟨c, h1, rfl⟩ := map_ok h
          exact hg.push (by simpa only [OkN] using genUnits_ok o e us hj cl0 h1)
      | refs ds => simp only [JumpS] at hj; exact genRefs_ok o e ds hj hg h
termination_by structural x => x

theorem genStmts_ok (o : Opts) (e : Emit P X) : ∀ (ss : List (Stmt X)) {l : List Around} {ptc : Ptc} {g g' : Gen P},
    JumpSs l ss → OkNs l g.code → genStmts o e ptc ss g = .ok g' → OkNs l g'.code
  | [], _, _, _, _, _, hg, h => by simp only [genStmts, Res.ok.injEq] at h; subst h; exact hg
  | s :: ss, _, _, _, _, hj, hg, h => by
    simp only [genStmts, JumpSs] at h hj
    obtain ⟨g₁, h1, h2⟩ := bind_ok h
    exact genStmts_ok o e ss hj.2 (genStmt_ok o e s hj.1 hg h1) h2
termination_by structural x => x

theorem genFlat_ok (o : Opts) (e : Emit P X) : ∀ (ss : List (Stmt X)) {l : List Around} {ptc : Ptc} {g g' : Gen P},
    JumpSs l ss → OkNs l g.code → genFlat o e ptc ss g = .ok g' → OkNs l g'.code
  | [], _, _, _, _, _, hg, h => by simp only [genFlat, Res.ok.injEq] at h; subst h; exact hg
  | s :: ss, l, ptc, g, g', hj, hg, h => by
    simp only [JumpSs] at hj
    have step (hb : ¬ ∃ b, s = .block b ∧ ss = []) : OkNs l g'.code := by
      have h0 : genFlat o e ptc (s :: ss) g = (genStmt o e (ptcOf ptc ss) s g).bind fun g => genStmts o e ptc ss g := by
        rw [genFlat]
        intro b h1 h2; exact hb ⟨b, h1, h2⟩
      rw [h0] at h
      obtain ⟨g₁, h1, h2⟩ := bind_ok h
      exact genStmts_ok o e ss hj.2 (genStmt_ok o e s hj.1 hg h1) h2
    cases ss with
    | cons s' ss => exact step (by simp)
    | nil =>
      cases s with
      | block b =>
        simp only [genFlat] at h
        exact genFlat_ok o e b (by simpa only [JumpS] using hj.1) hg h
      | _ => exact step (by simp)
termination_by structural x => x

theorem genDecls_ok (o : Opts) (e : Emit P X) : ∀ (ds : List (Decl X)) {imm : Bool} {l : List Around} {g g' : Gen P},
    JumpDs ds → OkNs l g.code → genDecls o e imm ds g = .ok g' → OkNs l g'.code
  | [], _, _, _, _, _, hg, h => by simp only [genDecls, Res.ok.injEq] at h; subst h; exact hg
  | .scalar n us :: ds, imm, l, g, _, hj, hg, h => by
    simp only [genDecls, JumpDs] at h hj
    split at h
    · exact genDecls_ok o e ds hj.2 (by simpa using hg.push (n := .defineNull imm n) (by simp only [OkN])) h
    · obtain ⟨c, h1, h2⟩ := bind_ok h
      have h3 : OkNs l (g.code ++ [.clearStack, .declareVar n]) := by simpa [okNs_append, OkNs, OkN] using hg
      exact genDecls_ok o e ds hj.2 ((genUnits_ok o e us hj.1 (genTrap_ok o e h3) h1).push (by simp only [OkN])) h2
  | .array ns us :: ds, imm, l, g, _, hj, hg, h => by
    simp only [genDecls, JumpDs] at h hj
    split at h
    · exact genDecls_ok o e ds hj.2 (by
        simp only [emit_code, foldl_declare_code, okNs_append]
        exact ⟨hg, okNs_map _ (fun _ => by simp only [OkN]) _⟩) h
    · obtain ⟨c, h1, h2⟩ := bind_ok h
      have h3 : OkNs l (g.code ++ (.clearStack :: ns.map fun n => .declareVar n)) := by
        rw [okNs_append]
        exact ⟨hg, by simp only [OkNs, OkN, true_and]; exact okNs_map _ (fun _ => by simp only [OkN]) _⟩
      rw [foldl_declare_code] at h1
      exact genDecls_ok o e ds hj.2 ((genUnits_ok o e us hj.1 (genTrap_ok o e h3) h1).push (by simp only [OkN])) h2
  | .object ns us :: ds, imm, l, g, _, hj, hg, h => by
    simp only [genDecls, JumpDs] at h hj
    split at h
    · exact genDecls_ok o e ds hj.2 (by
        simp only [emit_code, foldl_declare_code, okNs_append]
        exact ⟨hg, okNs_map _ (fun _ => by simp only [OkN]) _⟩) h
    · obtain ⟨c, h1, h2⟩ := bind_ok h
      have h3 : OkNs l (g.code ++ (.clearStack :: ns.map fun n => .declareVar n)) := by
        rw [okNs_append]
        exact ⟨hg, by simp only [OkNs, OkN, true_and]; exact okNs_map _ (fun _ => by simp only [OkN]) _⟩
      rw [foldl_declare_code] at h1
      exact genDecls_ok o e ds hj.2 ((genUnits_ok o e us hj.1 (genTrap_ok o e h3) h1).push (by simp only [OkN])) h2
termination_by structural x => x

theorem genRefs_ok (o : Opts) (e : Emit P X) : ∀ (ds : List (RefDecl X)) {l : List Around} {g g' : Gen P},
    JumpRs ds → OkNs l g.code → genRefs o e ds g = .ok g' → OkNs l g'.code
  | [], _, _, _, _, hg, h => by simp only [genRefs, Res.ok.injEq] at h; subst h; exact hg
  | .mk n us :: ds, l, g, _, hj, hg, h => by
    simp only [genRefs, JumpRs] at h hj
    obtain ⟨c, h1, h2⟩ := bind_ok h
    have h3 : OkNs l (g.code ++ [.clearStack, .declareRef n]) := by simpa [okNs_append, OkNs, OkN] using hg
    exact genRefs_ok o e ds hj.2 ((genUnits_ok o e us hj.1 (genTrap_ok o e h3) h1).push (by simp only [OkN])) h2
termination_by structural x => x

theorem genClauses_ok (o : Opts) (e : Emit P X) : ∀ (cs : List (SClause X)) {l : List Around} {Γ : List (List Name)}
    {Δ : List Name} {r : List (Clause P)}, JumpCs l cs → genClauses o e Γ Δ cs = .ok r → OkCs l r
  | [], _, _, _, _, _, h => by simp only [genClauses, Res.ok.injEq] at h; subst h; simp only [OkCs]
  | .mk k lo up b :: cs, l, Γ, Δ, _, hj, h => by
    simp only [genClauses, JumpCs] at h hj
    obtain ⟨l₁, h1, h2⟩ := bind_ok h
    obtain ⟨l₂, h3, h4⟩ := bind_ok h2
    obtain ⟨g, h5, h6⟩ := bind_ok h4
    obtain ⟨r, h7, rfl⟩ := map_ok h6
    have hl₁ : OkNs [] l₁ := by
      split at h1
      · cases h1; exact okNil _
      · exact genUnits_ok o e lo hj.1.1 (genClear_ok o e (okNil [])) h1
    have hl₂ : OkNs [] l₂ := by
      split at h3
      · cases h3; exact hl₁
      · exact genUnits_ok o e up hj.1.2.1 (genTrap_ok o e hl₁) h3
    simp only [OkCs]
    exact ⟨⟨hl₂, genStmts_ok o e b hj.1.2.2 (okNil l) h5⟩, genClauses_ok o e cs hj.2 h7⟩
termination_by structural x => x

end

end Asteria.Compile
