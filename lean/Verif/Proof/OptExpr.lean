import Verif.Proof.OptState

/-! Expressions that do the same. -/

namespace Asteria.Exec.Opt

open Safe

variable {P : Type} {sem : Sem P}

/-! ### What is claimed -/

/-- The same operands at the top. -/
def Top (k : Nat) (s s' : State P) : Prop := ∃ X l l' : List Ref, X.length = k ∧ s.stack = X ++ l ∧ s'.stack = X ++ l'

/-- What is below the operands on either side, the alternative stacks, and whether the stacks are swapped. -/
structure Frame where
  B : List Ref
  B' : List Ref
  α : List Ref
  α' : List Ref
  τ : Bool
  τ' : Bool

/-- The frame of an expression that begins. -/
def frame (s s' : State P) : Frame := ⟨s.stack, s'.stack, s.alt, s'.alt, s.swapped, s'.swapped⟩

/-- After an expression. -/
structure EOk (sem : Sem P) (m : Mode) (n k : Nat) (F : Frame) (s s' : State P) : Prop where
  bs : Bs sem n s s'
  sw : s.swapped = F.τ
  sw' : s'.swapped = F.τ'
  status : s.status = s'.status
  stk : s.status = .next → ∃ Y : List Ref, Y.length = k ∧ s.stack = Y ++ F.B ∧ s'.stack = Y ++ F.B'
  ret : s.status ≠ .next → m ≠ .simple ∧ s.status = .ret ∧ Top 1 s s'
  alt : m = .simple → s.alt = F.α ∧ s'.alt = F.α'

/-- After an expression that has thrown. -/
structure EX (sem : Sem P) (m : Mode) (n : Nat) (F : Frame) (s s' : State P) : Prop where
  bs : Bs sem n s s'
  sw : m ≠ .any → s.swapped = F.τ ∧ s'.swapped = F.τ'

/-- The outcomes of an expression. -/
abbrev PostE (sem : Sem P) (m : Mode) (n k : Nat) (F : Frame) : Out P → Out P → Prop := Post (EOk sem m n k F) (EX sem m n F)

/-- After a statement. -/
structure SOk (sem : Sem P) (n k : Nat) (s s' : State P) : Prop where
  bs : Bs sem n s s'
  sw : s.swapped = false
  sw' : s'.swapped = false
  status : s.status = s'.status
  top : s.status = .next → Top k s s'
  ret : s.status = .ret → Top 1 s s'

/-- The outcomes of a statement. -/
abbrev PostS (sem : Sem P) (n k : Nat) : Out P → Out P → Prop := Post (SOk sem n k) (Bs sem n)

/-- After a statement in a context of its own that has thrown. -/
structure WX (sem : Sem P) (n : Nat) (s s' : State P) : Prop where
  bs : Bs sem n s s'
  sw : s.swapped = false
  sw' : s'.swapped = false

/-- The outcomes of a statement in a context of its own. -/
abbrev PostW (sem : Sem P) (n : Nat) : Out P → Out P → Prop := Post (SOk sem n 0) (WX sem n)

/-- What belongs to the caller is as it was. -/
structure Kp (s t : State P) : Prop where
  scopes : t.scopes = s.scopes
  stk0 : t.stk0 = s.stk0
  stk1 : t.stk1 = s.stk1
  status : t.status = s.status

/-- After a call. -/
structure COk (sem : Sem P) (n : Nat) (s₀ s₀' s s' : State P) : Prop where
  bs : Bs sem n s s'
  kp : Kp s₀ s
  kp' : Kp s₀' s'

/-- The outcomes of a call. -/
abbrev PostC (sem : Sem P) (n : Nat) (s₀ s₀' : State P) : Out P → Out P → Prop := Post (COk sem n s₀ s₀') (COk sem n s₀ s₀')

/-- After a call or a tail call in an expression. -/
structure TOk (sem : Sem P) (n : Nat) (l l' : List Ref) (τ τ' : Bool) (s s' : State P) : Prop where
  bs : Bs sem n s s'
  sw : s.swapped = τ
  sw' : s'.swapped = τ'
  status : s.status = s'.status
  two : s.status = .next ∨ s.status = .ret
  stk : ∃ r, s.stack = r :: l ∧ s'.stack = r :: l'

/-- After such a call has thrown. -/
structure TX (sem : Sem P) (n : Nat) (τ τ' : Bool) (s s' : State P) : Prop where
  bs : Bs sem n s s'
  sw : s.swapped = τ
  sw' : s'.swapped = τ'

/-- After deferred expressions have been run. -/
structure NOk (sem : Sem P) (n : Nat) (saved : Ref) (q : Status) (s s' : State P) : Prop where
  bs : Bs sem n s s'
  sw : s.swapped = false
  sw' : s'.swapped = false
  status : s.status = q
  status' : s'.status = q
  top : saved ≠ .invalid → Top 1 s s'

/-- After the body of a function. -/
structure FOk (sem : Sem P) (s s' : State P) : Prop where
  bs : Bs sem 0 s s'

/-- Pieces of statements that do the same. -/
inductive TR (sem : Sem P) : Task P → Task P → Prop
  | rod {c d : List (Node P)} : Body sem c d → TR sem (.rod c) (.rod d)
  | doL {b b' x x' q q' : List (Node P)} (neg : Bool) : Body sem b b' → Ex sem 1 x x' → Body sem q q' →
      TR sem (.doL b neg x q) (.doL b' neg x' q')
  | whileL {b b' x x' q q' : List (Node P)} (neg : Bool) : Ex sem 1 x x' → Body sem b b' → Body sem q q' →
      TR sem (.whileL neg x b q) (.whileL neg x' b' q')
  | eachInit {x x' b b' q q' : List (Node P)} (kn : Option Name) (mn : Name) : Ex sem 1 x x' → Body sem b b' → Body sem q q' →
      TR sem (.eachInit kn mn x b q) (.eachInit kn mn x' b' q')
  | eachL {b b' q q' : List (Node P)} (es : List (Value × Subscript.Sub)) (kn : Option Name) (mn : Name) (r : Ref) : Body sem b b' →
      Body sem q q' → TR sem (.eachL es kn mn r b q) (.eachL es kn mn r b' q')
  | forInit {j j' : Nat} {i i' x x' s s' b b' q q' : List (Node P)} : Body sem i i' → Ex sem j x x' → Ex sem j' s s' →
      Body sem b b' → Body sem q q' → TR sem (.forInit i x s b q) (.forInit i' x' s' b' q')
  | forL {j j' : Nat} {x x' s s' b b' q q' : List (Node P)} : Ex sem j x x' → Ex sem j' s s' → Body sem b b' →
      Body sem q q' → TR sem (.forL x s b q) (.forL x' s' b' q')
  | find {rest rest' all all' : List (Clause P)} (v : Value) (k : Nat) (target : Option Nat) : Cl sem rest rest' → Cl sem all all' →
      TR sem (.find v rest k target all) (.find v rest' k target all')
  | clauses {cs cs' : List (Clause P)} : Cl sem cs cs' → TR sem (.clauses cs) (.clauses cs')

/-- The status at the beginning of a piece; a list of statements sets it. -/
def Started (t : Task P) (s s' : State P) : Prop := (s.status = .next ∧ s'.status = .next) ∨ ∃ c, t = .rod c

/-- What is claimed about pieces that do the same. -/
inductive Claim (sem : Sem P) : Task P → State P → Task P → State P → (Out P → Out P → Prop) → Prop
  | e {m : Mode} {n k : Nat} {c d : List (Node P)} {s s' : State P} : Bs sem n s s' → 1 ≤ n → s.status = .next → s'.status = .next →
      E sem m k c d → Claim sem (.seq c) s (.seq d) s' (PostE sem m n k (frame s s'))
  | x {n k : Nat} {c d : List (Node P)} {s s' : State P} : Bs sem n s s' → 1 ≤ n → s.status = .next → s'.status = .next →
      Ex sem k c d → Claim sem (.seq c) s (.seq d) s' (PostE sem .any n k ⟨[], [], [], [], s.swapped, s'.swapped⟩)
  | s {n : Nat} {c d : List (Node P)} {s s' : State P} : Bs sem n s s' → 1 ≤ n → s.swapped = false → s'.swapped = false →
      s.status = .next → s'.status = .next → Body sem c d → Claim sem (.seq c) s (.seq d) s' (PostS sem n 0)
  | rod {c d : List (Node P)} {s s' : State P} {Q : Out P → Out P → Prop} : Claim sem (.seq c) (s.setStatus .next) (.seq d) (s'.setStatus .next) Q →
      Claim sem (.rod c) s (.rod d) s' Q
  | st {n : Nat} {t t' : Task P} {s s' : State P} : TR sem t t' → Bs sem n s s' → 1 ≤ n → s.swapped = false → s'.swapped = false →
      Started t s s' → Claim sem t s t' s' (PostS sem n 0)
  | within {n : Nat} {t t' : Task P} {s s' : State P} (names : List (Name × Ref)) : TR sem t t' → Bs sem n s s' → s.swapped = false →
      s'.swapped = false → Started t s s' → Claim sem (.within names t) s (.within names t') s' (PostW sem n)
  | exit {n : Nat} {s s' : State P} : SOk sem n 0 s s' → 1 ≤ n → Claim sem .exit s .exit s' (PostS sem n 0)
  | exitN {n : Nat} {s s' : State P} (saved : Ref) (status : Status) : Bs sem n s s' → 1 ≤ n → s.swapped = false → s'.swapped = false →
      Claim sem (.exitN saved status) s (.exitN saved status) s' (Post (NOk sem n saved status) (Bs sem n))
  | exitE {n : Nat} {s s' : State P} (e : Value) : Bs sem n s s' → 1 ≤ n →
      Claim sem (.exitE e) s (.exitE e) s' (Post (fun _ _ => False) (Bs sem n))
  | sub {m : Mode} {n : Nat} {t t' : List (Node P)} {s s' : State P} {r : Ref} {B B' : List Ref} (a : Bool) : Bs sem n s s' → 1 ≤ n →
      s.status = .next → s'.status = .next → Arm sem m t t' → s.stack = r :: B → s'.stack = r :: B' →
      Claim sem (.sub a t) s (.sub a t') s' (PostE sem m n 1 ⟨B, B', s.alt, s'.alt, s.swapped, s'.swapped⟩)
  | tailOrCall {n : Nat} {s s' : State P} {r : Ref} {l l' : List Ref} (ptc : Ptc) (f : Nat) : Bs sem n s s' → s.status = .next →
      s'.status = .next → s.stack = r :: l → s'.stack = r :: l' → s.alt = s'.alt →
      Claim sem (.tailOrCall ptc f) s (.tailOrCall ptc f) s' (Post (TOk sem n l l' s.swapped s'.swapped) (TX sem n s.swapped s'.swapped))
  | call {c d : List (Node P)} {s s' : State P} (names : List (Name × Ref)) : Bs sem 0 s s' → Body sem c d →
      Claim sem (.call names c) s (.call names d) s' (Post (FOk sem) (FOk sem))
  | enter {n : Nat} {s s' : State P} (f : Nat) (self : Ref) (args : List Ref) : Bs sem n s s' →
      Claim sem (.enter f self args) s (.enter f self args) s' (PostC sem n s s')
  | check {n : Nat} {s s' : State P} (r : Ref) : Bs sem n s s' → Claim sem (.check r) s (.check r) s' (PostC sem n s s')
  | unpack {n : Nat} {s s' : State P} (r : Ref) (fr : List Nat) : Bs sem n s s' →
      Claim sem (.unpack r fr) s (.unpack r fr) s' (PostC sem n s s')
  | framesN {n : Nat} {s s' : State P} (fr : List Nat) (v : Option Value) : Bs sem n s s' →
      Claim sem (.framesN fr v) s (.framesN fr v) s' (PostC sem n s s')
  | framesE {n : Nat} {s s' : State P} (fr : List Nat) (e : Value) : Bs sem n s s' →
      Claim sem (.framesE fr e) s (.framesE fr e) s' (PostC sem n s s')

/-- The claims hold for what is executed next. -/
structure IH (sem : Sem P) (R : Task P → State P → Option (Out P)) : Prop where
  app : ∀ {t t' : Task P} {s s' : State P} {Q : Out P → Out P → Prop}, Claim sem t s t' s' Q → Sim Q (R t s) (run sem t' s')

/-! ### Expressions -/

section
variable {m : Mode} {n k k' : Nat} {F : Frame} {s s' : State P}

theorem EOk.begin (hb : Bs sem n s s') (h1 : s.status = .next) (h2 : s'.status = .next) : EOk sem m n 0 (frame s s') s s' :=
  ⟨hb, rfl, rfl, h1.trans h2.symm, fun _ => ⟨[], rfl, rfl, rfl⟩, fun h => absurd h1 h, fun _ => ⟨rfl, rfl⟩⟩

theorem EOk.ex (h : EOk sem m n k F s s') : EX sem m n F s s' := ⟨h.bs, fun _ => ⟨h.sw, h.sw'⟩⟩

theorem EOk.stop (h : EOk sem m n k F s s') (hs : s.status ≠ .next) : EOk sem m n k' F s s' :=
  ⟨h.bs, h.sw, h.sw', h.status, fun h' => absurd h' hs, h.ret, h.alt⟩

/-- The state is changed, the stack is given. -/
theorem EOk.put (h : EOk sem m n k F s s') {t t' : State P} (hb : Bs sem n t t') (hsw : t.swapped = s.swapped) (hsw' : t'.swapped = s'.swapped)
    (hs : t.status = .next) (hs' : t'.status = .next) {Y : List Ref} (hY : Y.length = k') (hk : t.stack = Y ++ F.B) (hk' : t'.stack = Y ++ F.B')
    (ha : t.alt = s.alt) (ha' : t'.alt = s'.alt) : EOk sem m n k' F t t' :=
  ⟨hb, hsw.trans h.sw, hsw'.trans h.sw', hs.trans hs'.symm, fun _ => ⟨Y, hY, hk, hk'⟩, fun h' => absurd hs h',
    fun hm => ⟨ha.trans (h.alt hm).1, ha'.trans (h.alt hm).2⟩⟩

theorem EOk.put' (h : EOk sem m n k F s s') (hm : m ≠ .simple) {t t' : State P} (hb : Bs sem n t t') (hsw : t.swapped = s.swapped) (hsw' : t'.swapped = s'.swapped)
    (hs : t.status = .next) (hs' : t'.status = .next) {Y : List Ref} (hY : Y.length = k') (hk : t.stack = Y ++ F.B) (hk' : t'.stack = Y ++ F.B') :
    EOk sem m n k' F t t' :=
  ⟨hb, hsw.trans h.sw, hsw'.trans h.sw', hs.trans hs'.symm, fun _ => ⟨Y, hY, hk, hk'⟩, fun h' => absurd hs h', fun h' => absurd h' hm⟩

/-- The frame of a part. -/
theorem EOk.reframe {F' : Frame} {Z : List Ref} {j i : Nat} (h : EOk sem m n j F' s s') (hB : F'.B = Z ++ F.B) (hB' : F'.B' = Z ++ F.B')
    (hτ : F'.τ = F.τ) (hτ' : F'.τ' = F.τ') (hα : m = .simple → F'.α = F.α ∧ F'.α' = F.α') (hZ : j + Z.length = i) : EOk sem m n i F s s' := by
  refine ⟨h.bs, h.sw.trans hτ, h.sw'.trans hτ', h.status, fun hs => ?_, h.ret, fun hm => ⟨(h.alt hm).1.trans (hα hm).1, (h.alt hm).2.trans (hα hm).2⟩⟩
  obtain ⟨Y, h1, h2, h3⟩ := h.stk hs
  exact ⟨Y ++ Z, by simp [h1, hZ], by rw [h2, hB]; simp, by rw [h3, hB']; simp⟩

theorem EX.reframe {F' : Frame} (h : EX sem m n F' s s') (hτ : F'.τ = F.τ) (hτ' : F'.τ' = F.τ') : EX sem m n F s s' :=
  ⟨h.bs, fun hm => ⟨(h.sw hm).1.trans hτ, (h.sw hm).2.trans hτ'⟩⟩

/-- Something is appended to an expression. -/
theorem snoc_sim {R : Task P → State P → Option (Out P)} {c d a b : List (Node P)} (h1 : s.status = .next) (h2 : s'.status = .next)
    (h : Sim (PostE sem m n k F) (runSeq sem R c s) (runSeq sem (run sem) d s'))
    (hk : ∀ s1 s1', EOk sem m n k F s1 s1' → s1.status = .next → s1'.status = .next →
      Sim (PostE sem m n k' F) (runSeq sem R a s1) (runSeq sem (run sem) b s1')) :
    Sim (PostE sem m n k' F) (runSeq sem R (c ++ a) s) (runSeq sem (run sem) (d ++ b) s') := by
  rw [runSeq_append R _ _ _ h1, runSeq_append (run sem) _ _ _ h2]
  refine h.andThen (fun s1 s1' ho => Sim.ite (by rw [ho.status]) (fun hs => hk s1 s1' ho hs (ho.status ▸ hs)) fun hs => .ok (ho.stop hs)) fun _ _ hx => hx

theorem snoc_node {R : Task P → State P → Option (Out P)} {c d : List (Node P)} {a b : Node P} (h1 : s.status = .next) (h2 : s'.status = .next)
    (h : Sim (PostE sem m n k F) (runSeq sem R c s) (runSeq sem (run sem) d s'))
    (hk : ∀ s1 s1', EOk sem m n k F s1 s1' → s1.status = .next → s1'.status = .next →
      Sim (PostE sem m n k' F) (runNode sem R a s1) (runNode sem (run sem) b s1')) :
    Sim (PostE sem m n k' F) (runSeq sem R (c ++ [a]) s) (runSeq sem (run sem) (d ++ [b]) s') :=
  snoc_sim h1 h2 h fun s1 s1' ho hs hs' => by rw [runSeq_single, runSeq_single]; exact hk s1 s1' ho hs hs'

theorem EOk.cons (h : EOk sem m n (k + 1) F s s') (hs : s.status = .next) : ∃ (r : Ref) (Y : List Ref), Y.length = k ∧ s.stack = r :: (Y ++ F.B) ∧
    s'.stack = r :: (Y ++ F.B') := by
  obtain ⟨Y, h1, h2, h3⟩ := h.stk hs
  cases Y with
  | nil => simp at h1
  | cons r Y => exact ⟨r, Y, by simpa using h1, h2, h3⟩

theorem deref_eq {w w' : World} (h : w = w') (r : Ref) : deref w r = deref w' r := by rw [h]
theorem derefCopy_eq {w w' : World} (h : w = w') (r : Ref) : derefCopy w r = derefCopy w' r := by rw [h]

/-- Nodes that only act on the stack. -/
theorem pure_sim {R : Task P → State P → Option (Out P)} {k₀ : Nat} {a b : List (Node P)} (hs : SameCode sem k k' a b)
    (ho : EOk sem m n (k₀ + k) F s s') (h1 : s.status = .next) (h2 : s'.status = .next) :
    Sim (PostE sem m n (k₀ + k') F) (runSeq sem R a s) (runSeq sem (run sem) b s') := by
  obtain ⟨Y, hY, hk, hk'⟩ := ho.stk h1
  rw [runSeq_pure R hs.left h1, runSeq_pure (run sem) hs.right h2, ← ho.bs.world, hk, hk']
  have hX : (Y.take k).length = k := by simp; omega
  have h3 := hs.same s.world (Y.take k) (Y.drop k ++ F.B) (Y.drop k ++ F.B') hX
  rw [← List.append_assoc, ← List.append_assoc, List.take_append_drop] at h3
  revert h3
  generalize den sem a s.world (Y ++ F.B) = o
  generalize den sem b s.world (Y ++ F.B') = o'
  intro h3
  cases o <;> cases o' <;> simp only [PrimOut.Same] at h3
  · obtain ⟨rfl, Z, hZ, hl, hl'⟩ := h3
    refine .ok (ho.put (Y := Z ++ Y.drop k) ((ho.bs.setWorld _).setStack _ _) (setStack_swapped _ _) (setStack_swapped _ _) ?_ ?_ ?_ ?_ ?_ ?_ ?_)
    · rw [setStack_status]; exact h1
    · rw [setStack_status]; exact h2
    · simp; omega
    · rw [setStack_stack, hl]; simp
    · rw [setStack_stack, hl']; simp
    · rw [setStack_alt]; rfl
    · rw [setStack_alt]; rfl
  · obtain ⟨rfl, rfl⟩ := h3
    refine .exc _ ⟨(ho.bs.setWorld _).setStack _ _, fun _ => ⟨(setStack_swapped _ _).trans ho.sw, (setStack_swapped _ _).trans ho.sw'⟩⟩
  · exact .ub

/-- A reference is pushed. -/
theorem EOk.push (ho : EOk sem m n k F s s') (h1 : s.status = .next) (h2 : s'.status = .next) (r : Ref) :
    EOk sem m n (k + 1) F (s.push r) (s'.push r) := by
  obtain ⟨Y, hY, hk, hk'⟩ := ho.stk h1
  refine ho.put (Y := r :: Y) (ho.bs.push r r) (push_swapped _ _) (push_swapped _ _) ?_ ?_ (by simp [hY]) ?_ ?_ (push_alt _ _) (push_alt _ _)
  · rw [push_status]; exact h1
  · rw [push_status]; exact h2
  · rw [push_stack, hk]; rfl
  · rw [push_stack, hk']; rfl

theorem local_sim {R : Task P → State P → Option (Out P)} (ho : EOk sem m n k F s s') (h1 : s.status = .next) (h2 : s'.status = .next) (dp : Nat) (nm : Name) :
    Sim (PostE sem m n (k + 1) F) (runNode sem R (.pushLocal dp nm) s) (runNode sem (run sem) (.pushLocal dp nm) s') := by
  simp only [runNode]
  rcases ho.bs.scopeAt dp with ⟨h3, h4⟩ | ⟨a, b, h3, h4, h5⟩
  · rw [h3, h4]; exact .ub
  · rw [h3, h4]
    simp only [h5.names]
    cases lookupName nm b.names with
    | none => exact .exc _ ho.ex
    | some r => cases r <;> first | exact .exc _ ho.ex | exact .ok (ho.push h1 h2 _)

theorem Bs.addFunc (hb : Bs sem n s s') {f f' : Func P} (hf : FuncRel sem f f') :
    Bs sem n { s with funcs := s.funcs ++ [f] } { s' with funcs := s'.funcs ++ [f'] } :=
  ⟨hb.1, f2_append hb.2 (.cons hf .nil), hb.3, hb.4, hb.5, hb.6, hb.7, hb.8, hb.9⟩

theorem func_sim {R : Task P → State P → Option (Out P)} (ho : EOk sem m n k F s s') (h1 : s.status = .next) (h2 : s'.status = .next) (ps : List Name) (va : Bool)
    {b b' : List (Node P)} (hb : Body sem b b') :
    Sim (PostE sem m n (k + 1) F) (runNode sem R (.defineFunc ps va b) s) (runNode sem (run sem) (.defineFunc ps va b') s') := by
  simp only [runNode]
  have h3 := Body.rebind (none :: contexts s) hb
  rw [← ho.bs.contexts]
  revert h3
  cases rebindAll (none :: contexts s) b <;> cases rebindAll (none :: contexts s) b' <;> simp only [RR] <;> intro h3 <;>
    first | exact h3.elim | skip
  · have hl : s.funcs.length = s'.funcs.length := ho.bs.funcs.length_eq
    rw [← hl]
    have ho' : EOk sem m n k F ({ s with funcs := s.funcs ++ [.inst ps va _] } : State P) ({ s' with funcs := s'.funcs ++ [.inst ps va _] } : State P) :=
      ⟨ho.bs.addFunc (.inst ps va h3), ho.sw, ho.sw', ho.status, ho.stk, ho.ret, ho.alt⟩
    exact .ok (ho'.push h1 h2 _)
  · exact .exc _ ho.ex
  · exact .ub

theorem check_sim {R : Task P → State P → Option (Out P)} (ho : EOk sem m n (k + 1) F s s') (h1 : s.status = .next) (h2 : s'.status = .next) (r : Bool) :
    Sim (PostE sem m n (k + 1) F) (runNode sem R (.checkArg r) s) (runNode sem (run sem) (.checkArg r) s') := by
  simp only [runNode]
  obtain ⟨x, Y, hY, hk, hk'⟩ := ho.cons h1
  refine Sim.top hk hk' (Sim.ite Iff.rfl (fun _ => Sim.value (deref_eq ho.bs.world x) ho.ex fun _ => .ok ho) fun _ =>
    Sim.value (derefCopy_eq ho.bs.world x) ho.ex fun v => .ok ?_)
  refine ho.put (Y := .temp v [] :: Y) (ho.bs.setStack _ _) (setStack_swapped _ _) (setStack_swapped _ _) ?_ ?_ (by simp [hY]) ?_ ?_ (setStack_alt _ _) (setStack_alt _ _)
  · rw [setStack_status]; exact h1
  · rw [setStack_status]; exact h2
  · rw [setStack_stack]; rfl
  · rw [setStack_stack]; rfl

theorem sub_sim {R : Task P → State P → Option (Out P)} (ih : IH sem R) (hn : 1 ≤ n) (ho : EOk sem m n (k + 1) F s s') (h1 : s.status = .next) (h2 : s'.status = .next) (a : Bool)
    {t t' : List (Node P)} (ht : Arm sem m t t') {x : Ref} {Y : List Ref} (hY : Y.length = k) (hk : s.stack = x :: (Y ++ F.B)) (hk' : s'.stack = x :: (Y ++ F.B')) :
    Sim (PostE sem m n (k + 1) F) (R (.sub a t) s) (run sem (.sub a t') s') :=
  (ih.app (Claim.sub a ho.bs hn h1 h2 ht hk hk')).mono
    (fun _ _ h => h.reframe (Z := Y) rfl rfl ho.sw ho.sw' (fun hm => ho.alt hm) (by omega)) fun _ _ h => h.reframe ho.sw ho.sw'

theorem branch_sim {R : Task P → State P → Option (Out P)} (ih : IH sem R) (hn : 1 ≤ n) (ho : EOk sem m n (k + 1) F s s') (h1 : s.status = .next) (h2 : s'.status = .next) (a : Bool)
    {t t' f f' : List (Node P)} (ht : Arm sem m t t') (hf : Arm sem m f f') :
    Sim (PostE sem m n (k + 1) F) (runNode sem R (.branchE t f a) s) (runNode sem (run sem) (.branchE t' f' a) s') := by
  simp only [runNode]
  obtain ⟨x, Y, hY, hk, hk'⟩ := ho.cons h1
  refine Sim.top hk hk' (Sim.value (deref_eq ho.bs.world x) ho.ex fun v => ?_)
  cases test v
  · exact sub_sim ih hn ho h1 h2 a hf hY hk hk'
  · exact sub_sim ih hn ho h1 h2 a ht hY hk hk'

theorem coal_sim {R : Task P → State P → Option (Out P)} (ih : IH sem R) (hn : 1 ≤ n) (ho : EOk sem m n (k + 1) F s s') (h1 : s.status = .next) (h2 : s'.status = .next) (a : Bool)
    {t t' : List (Node P)} (ht : Arm sem m t t') :
    Sim (PostE sem m n (k + 1) F) (runNode sem R (.coalesceE t a) s) (runNode sem (run sem) (.coalesceE t' a) s') := by
  simp only [runNode]
  obtain ⟨x, Y, hY, hk, hk'⟩ := ho.cons h1
  refine Sim.top hk hk' (Sim.value (deref_eq ho.bs.world x) ho.ex fun v => ?_)
  cases v <;> first | exact .ok ho | exact sub_sim ih hn ho h1 h2 a ht hY hk hk'

/-- A call, after its arguments have been put in place. -/
def invoke (rec : Task P → State P → Option (Out P)) (ptc : Ptc) (st : State P) : Option (Out P) :=
  withTop st fun r l => withValue st (deref st.world r) fun v =>
    match v with
    | .func f => rec (.tailOrCall ptc f) (st.setStack (r.popSub :: l))
    | _ => some (.exc message st)

theorem invoke_sim {R : Task P → State P → Option (Out P)} (ih : IH sem R) (hm : m ≠ .simple) (ptc : Ptc) (hb : Bs sem n s s')
    (h1 : s.status = .next) (h2 : s'.status = .next) (hsw : s.swapped = F.τ) (hsw' : s'.swapped = F.τ') (ha : s.alt = s'.alt)
    {x : Ref} {Y : List Ref} (hY : Y.length = k) (hk : s.stack = x :: (Y ++ F.B)) (hk' : s'.stack = x :: (Y ++ F.B')) :
    Sim (PostE sem m n (k + 1) F) (invoke R ptc s) (invoke (run sem) ptc s') := by
  have hex : EX sem m n F s s' := ⟨hb, fun _ => ⟨hsw, hsw'⟩⟩
  refine Sim.top hk hk' (Sim.value (deref_eq hb.world x) hex fun v => ?_)
  cases v <;> first | exact .exc _ hex | skip
  rename_i f
  refine (ih.app (Claim.tailOrCall ptc f (hb.setStack (x.popSub :: (Y ++ F.B)) (x.popSub :: (Y ++ F.B'))) ?_ ?_ (setStack_stack _ _) (setStack_stack _ _) ?_)).mono ?_ ?_
  · rw [setStack_status]; exact h1
  · rw [setStack_status]; exact h2
  · rw [setStack_alt, setStack_alt]; exact ha
  · rintro t t' ⟨b1, b2, b3, b4, b5, r, b6, b7⟩
    rw [setStack_swapped] at b2 b3
    refine ⟨b1, b2.trans hsw, b3.trans hsw', b4, fun _ => ⟨r :: Y, by simp [hY], b6, b7⟩, fun hne => ⟨hm, b5.resolve_left hne, [r], _, _, rfl, b6, b7⟩, fun h => absurd h hm⟩
  · rintro t t' ⟨b1, b2, b3⟩
    rw [setStack_swapped] at b2 b3
    exact ⟨b1, fun _ => ⟨b2.trans hsw, b3.trans hsw'⟩⟩

/-- The arguments are taken from the stack. -/
def takeArgs (j : Nat) (st : State P) : State P := (st.setAlt (st.stack.take j)).setStack (st.stack.drop j)

theorem funcCall_eq (rec : Task P → State P → Option (Out P)) (j : Nat) (ptc : Ptc) (st : State P) :
    runNode sem rec (.funcCall j ptc) st = if st.stack.length ≤ j then some .ub else invoke rec ptc (takeArgs j st) := rfl

theorem altCall_eq (rec : Task P → State P → Option (Out P)) (ptc : Ptc) (st : State P) :
    runNode sem rec (.altCall ptc) st = invoke rec ptc (flip st) := rfl

theorem altClear_eq (rec : Task P → State P → Option (Out P)) (st : State P) :
    runNode sem rec .altClear st = some (.ok ((flip st).setStack [])) := rfl

theorem call_sim {R : Task P → State P → Option (Out P)} (ih : IH sem R) (hm : m ≠ .simple) {j : Nat} (ptc : Ptc) (ho : EOk sem m n (k + 1 + j) F s s')
    (h1 : s.status = .next) (h2 : s'.status = .next) :
    Sim (PostE sem m n (k + 1) F) (runNode sem R (.funcCall j ptc) s) (runNode sem (run sem) (.funcCall j ptc) s') := by
  obtain ⟨Y, hY, hk, hk'⟩ := ho.stk h1
  have hl : ¬ s.stack.length ≤ j := by rw [hk]; simp; omega
  have hl' : ¬ s'.stack.length ≤ j := by rw [hk']; simp; omega
  rw [funcCall_eq, funcCall_eq, if_neg hl, if_neg hl']
  have htake : Y.length - j = k + 1 := by omega
  have hd : Y.drop j ≠ [] := by intro h; have := congrArg List.length h; simp at this; omega
  obtain ⟨x, Z, hZ⟩ := List.exists_cons_of_ne_nil hd
  have hZl : Z.length = k := by have := congrArg List.length hZ; simp at this; omega
  refine invoke_sim (x := x) (Y := Z) ih hm ptc ((ho.bs.setAlt _ _).setStack _ _) ?_ ?_ ?_ ?_ ?_ hZl ?_ ?_
  · unfold takeArgs; rw [setStack_status, setAlt_status]; exact h1
  · unfold takeArgs; rw [setStack_status, setAlt_status]; exact h2
  · unfold takeArgs; rw [setStack_swapped, setAlt_swapped]; exact ho.sw
  · unfold takeArgs; rw [setStack_swapped, setAlt_swapped]; exact ho.sw'
  · unfold takeArgs; rw [setStack_alt, setStack_alt, setAlt_alt, setAlt_alt, hk, hk', List.take_append_of_le_length (by omega), List.take_append_of_le_length (by omega)]
  · unfold takeArgs; rw [setStack_stack, hk, List.drop_append_of_le_length (by omega), hZ]; rfl
  · unfold takeArgs; rw [setStack_stack, hk', List.drop_append_of_le_length (by omega), hZ]; rfl

end

/-! ### Calls whose arguments may be on the alternative stack -/

/-- A state in which the arguments of a call are evaluated. -/
structure Ready (alt : Bool) (L : List Ref) (τ : Bool) (s : State P) : Prop where
  ne : s.scopes ≠ []
  status : s.status = .next
  sw : s.swapped = (alt != τ)
  stk : s.stack = if alt then [] else L
  alt : alt = true → s.alt = L

/-- The beginning of a call. -/
def prep (alt : Bool) (s : State P) : State P := if alt then (flip s).setStack [] else s

/-- The end of a call. -/
def place (alt : Bool) (j : Nat) (s : State P) : State P := if alt then flip s else takeArgs j s

theorem flip_status (s : State P) : (flip s).status = s.status := modScope_status _ _

theorem flip_ne (s : State P) : (flip s).scopes = [] ↔ s.scopes = [] := modScope_ne _ _

theorem prep_ready (alt : Bool) {s : State P} (hne : s.scopes ≠ []) (hs : s.status = .next) : Ready alt s.stack s.swapped (prep alt s) := by
  cases alt with
  | false => exact ⟨hne, hs, by simp [prep], rfl, by simp⟩
  | true =>
    refine ⟨?_, ?_, ?_, ?_, fun _ => ?_⟩
    · simp only [prep, if_true]; rw [setStack_scopes']; exact fun h => hne ((flip_ne s).1 h)
    · simp only [prep, if_true]; rw [setStack_status, flip_status]; exact hs
    · simp only [prep, if_true]; rw [setStack_swapped]; exact (flip_swapped s hne).trans (by cases s.swapped <;> rfl)
    · simp only [prep, if_true]; rw [setStack_stack]
    · simp only [prep, if_true]; rw [setStack_alt]; exact flip_alt s hne

theorem prep_bs {n : Nat} {s s' : State P} (hb : Bs sem n s s') (a a' : Bool) : Bs sem n (prep a s) (prep a' s') := by
  unfold prep
  cases a <;> cases a' <;> simp only [Bool.false_eq_true, if_true, if_false]
  · exact hb
  · exact (hb.flipR).setStackR _
  · exact (hb.flipL).setStackL _
  · exact ((hb.flipL).flipR).setStack _ _

theorem place_bs {n j : Nat} {s s' : State P} (hb : Bs sem n s s') (a a' : Bool) : Bs sem n (place a j s) (place a' j s') := by
  unfold place takeArgs
  cases a <;> cases a' <;> simp only [Bool.false_eq_true, if_true, if_false]
  · exact (hb.setAlt _ _).setStack _ _
  · exact ((hb.flipR).setAltL _).setStackL _
  · exact ((hb.flipL).setAltR _).setStackR _
  · exact (hb.flipL).flipR

/-- The arguments `Z` have been evaluated. -/
structure Placed (L Z : List Ref) (τ : Bool) (s : State P) : Prop where
  status : s.status = .next
  sw : s.swapped = τ
  stk : s.stack = L
  alt : s.alt = Z

theorem place_ok {alt : Bool} {L Z : List Ref} {τ : Bool} {s : State P} (hne : s.scopes ≠ []) (hs : s.status = .next) (hsw : s.swapped = (alt != τ))
    (hstk : s.stack = Z ++ if alt then [] else L) (halt : alt = true → s.alt = L) : Placed L Z τ (place alt Z.length s) := by
  cases alt with
  | false =>
    simp only [place, takeArgs, Bool.false_eq_true, if_false] at hstk ⊢
    refine ⟨?_, ?_, ?_, ?_⟩
    · rw [setStack_status, setAlt_status]; exact hs
    · rw [setStack_swapped, setAlt_swapped, hsw]; simp
    · rw [setStack_stack, hstk]; simp
    · rw [setStack_alt, setAlt_alt, hstk]; simp
  | true =>
    simp only [place, if_true, List.append_nil] at hstk ⊢
    refine ⟨?_, ?_, ?_, ?_⟩
    · rw [flip_status]; exact hs
    · refine (flip_swapped s hne).trans ?_; rw [hsw]; cases τ <;> rfl
    · exact (flip_stack s hne).trans (halt rfl)
    · exact (flip_alt s hne).trans hstk

/-- The code of a call is executed in three parts. -/
theorem form_run (rec : Task P → State P → Option (Out P)) {j : Nat} {ptc : Ptc} {A x : List (Node P)} (h : Form j ptc A x) :
    ∃ alt : Bool, ∀ s : State P, s.status = .next → runSeq sem rec x s = andThen (runSeq sem rec A (prep alt s)) fun s =>
      if s.status = .next then (if alt = false ∧ s.stack.length ≤ j then some .ub else invoke rec ptc (place alt j s)) else some (.ok s) := by
  rcases h with rfl | rfl
  · refine ⟨false, fun s hs => ?_⟩
    rw [runSeq_append rec _ _ _ hs]
    simp only [runSeq_single, funcCall_eq, prep, place, true_and, Bool.false_eq_true, if_false]
  · refine ⟨true, fun s hs => ?_⟩
    have hs' : ((flip s).setStack ([] : List Ref)).status = .next := by rw [setStack_status, flip_status]; exact hs
    rw [runSeq, altClear_eq]
    simp only [andThen, onOut]
    rw [if_pos hs', runSeq_append rec _ _ _ hs']
    simp only [runSeq_single, altCall_eq, prep, place, Bool.true_eq_false, false_and, if_false, if_true]
    rfl

theorem alt_sim {R : Task P → State P → Option (Out P)} (ih : IH sem R) {n k j : Nat} {F : Frame} {s s' : State P} (hn : 1 ≤ n) {ptc : Ptc} {A A' x y : List (Node P)}
    (hx : Form j ptc A x) (hy : Form j ptc A' y)
    (hA : ∀ s s', Bs sem n s s' → s.status = .next → s'.status = .next →
      Sim (PostE sem .simple n j (frame s s')) (runSeq sem R A s) (runSeq sem (run sem) A' s'))
    (ho : EOk sem .any n (k + 1) F s s') (h1 : s.status = .next) (h2 : s'.status = .next) :
    Sim (PostE sem .any n (k + 1) F) (runSeq sem R x s) (runSeq sem (run sem) y s') := by
  obtain ⟨a, ha⟩ := form_run (sem := sem) R hx
  obtain ⟨a', ha'⟩ := form_run (sem := sem) (run sem) hy
  rw [ha s h1, ha' s' h2]
  have r1 := prep_ready a (ho.bs.ne hn) h1
  have r2 := prep_ready a' (ho.bs.ne' hn) h2
  refine (hA _ _ (prep_bs ho.bs a a') r1.status r2.status).andThen (fun t t' hq => ?_) fun t t' hq => ⟨hq.bs, fun h => absurd rfl h⟩
  have hst : t.status = .next := by
    by_contra h
    exact absurd rfl (hq.ret h).1
  have hst' : t'.status = .next := hq.status ▸ hst
  rw [if_pos hst, if_pos hst']
  obtain ⟨Z, hZ, hz, hz'⟩ := hq.stk hst
  obtain ⟨u, Y, hY, hk, hk'⟩ := ho.cons h1
  subst hZ
  simp only [frame] at hz hz'
  have p1 : Placed s.stack Z s.swapped (place a Z.length t) := place_ok (hq.bs.ne hn) hst (hq.sw.trans r1.sw) (by rw [hz, r1.stk])
    fun h => (hq.alt rfl).1.trans (r1.alt h)
  have p2 : Placed s'.stack Z s'.swapped (place a' Z.length t') := place_ok (hq.bs.ne' hn) hst' (hq.sw'.trans r2.sw) (by rw [hz', r2.stk])
    fun h => (hq.alt rfl).2.trans (r2.alt h)
  have l1 : ¬ (a = false ∧ t.stack.length ≤ Z.length) := by
    rintro ⟨rfl, h⟩
    rw [hz, r1.stk, hk] at h
    simp at h
  have l2 : ¬ (a' = false ∧ t'.stack.length ≤ Z.length) := by
    rintro ⟨rfl, h⟩
    rw [hz', r2.stk, hk'] at h
    simp at h
  rw [if_neg l1, if_neg l2]
  exact invoke_sim ih (by simp) ptc (place_bs hq.bs a a') p1.status p2.status (p1.sw.trans ho.sw) (p2.sw.trans ho.sw') (p1.alt.trans p2.alt.symm) hY
    (p1.stk.trans hk) (p2.stk.trans hk')

theorem catch_sim {R : Task P → State P → Option (Out P)} (ih : IH sem R) {m : Mode} {n k j : Nat} {F : Frame} {s s' : State P} (hn : 1 ≤ n) (hm : m ≠ .simple)
    {b b' : List (Node P)} (hb : E sem .plain j b b') (ho : EOk sem m n k F s s') (h1 : s.status = .next) :
    Sim (PostE sem m n (k + 1) F) (runNode sem R (.catchE b) s) (runNode sem (run sem) (.catchE b') s') := by
  simp only [runNode]
  obtain ⟨Y, hY, hk, hk'⟩ := ho.stk h1
  have hbs : Bs sem n ((s.setStack []).setStatus .next) ((s'.setStack []).setStatus .next) := (ho.bs.setStack _ _).setStatus _ _
  have back : ∀ (v : Value) (t t' : State P), Bs sem n t t' → t.swapped = s.swapped → t'.swapped = s'.swapped →
      EOk sem m n (k + 1) F ((t.setStack (.temp v [] :: s.stack)).setStatus .next) ((t'.setStack (.temp v [] :: s'.stack)).setStatus .next) := by
    intro v t t' hb hsw hsw'
    refine ho.put' (Y := .temp v [] :: Y) hm ((hb.setStack _ _).setStatus _ _) ?_ ?_ rfl rfl (by simp [hY]) ?_ ?_
    · rw [setStatus_swapped, setStack_swapped]; exact hsw
    · rw [setStatus_swapped, setStack_swapped]; exact hsw'
    · rw [setStatus_stack, setStack_stack, hk]; rfl
    · rw [setStatus_stack, setStack_stack, hk']; rfl
  refine Sim.onOut trivial (ih.app (.rod (.e hbs hn rfl rfl hb))) (fun t t' hq => Sim.next hq.status fun _ _ => .ok (back _ _ _ hq.bs ?_ ?_))
    fun e t t' hq => .ok (back _ _ _ hq.bs ?_ ?_)
  · exact hq.sw.trans (by simp [frame])
  · exact hq.sw'.trans (by simp [frame])
  · exact (hq.sw (by simp)).1.trans (by simp [frame])
  · exact (hq.sw (by simp)).2.trans (by simp [frame])

/-- Expressions that do the same. -/
theorem e_sim {R : Task P → State P → Option (Out P)} (ih : IH sem R) {n : Nat} (hn : 1 ≤ n) {m : Mode} {k : Nat} {c d : List (Node P)} : E sem m k c d →
    ∀ {s s' : State P}, Bs sem n s s' → s.status = .next → s'.status = .next →
      Sim (PostE sem m n k (frame s s')) (runSeq sem R c s) (runSeq sem (run sem) d s')
  | .nil _, _, _, hb, h1, h2 => .ok (EOk.begin hb h1 h2)
  | .pure h hs, _, _, hb, h1, h2 => snoc_sim h1 h2 (e_sim ih hn h hb h1 h2) fun _ _ ho g1 g2 => pure_sim hs ho g1 g2
  | .loc dp nm h, _, _, hb, h1, h2 => snoc_node h1 h2 (e_sim ih hn h hb h1 h2) fun _ _ ho g1 g2 => local_sim ho g1 g2 dp nm
  | .bound r h, _, _, hb, h1, h2 => snoc_node h1 h2 (e_sim ih hn h hb h1 h2) fun _ _ ho g1 g2 => .ok (ho.push g1 g2 r)
  | .func ps va h hbd, _, _, hb, h1, h2 => snoc_node h1 h2 (e_sim ih hn h hb h1 h2) fun _ _ ho g1 g2 => func_sim ho g1 g2 ps va hbd
  | .branch a h ht hf, _, _, hb, h1, h2 => snoc_node h1 h2 (e_sim ih hn h hb h1 h2) fun _ _ ho g1 g2 => branch_sim ih hn ho g1 g2 a ht hf
  | .coal a h ht, _, _, hb, h1, h2 => snoc_node h1 h2 (e_sim ih hn h hb h1 h2) fun _ _ ho g1 g2 => coal_sim ih hn ho g1 g2 a ht
  | .check r h, _, _, hb, h1, h2 => snoc_node h1 h2 (e_sim ih hn h hb h1 h2) fun _ _ ho g1 g2 => check_sim ho g1 g2 r
  | .call ptc hm h, _, _, hb, h1, h2 => snoc_node h1 h2 (e_sim ih hn h hb h1 h2) fun _ _ ho g1 g2 => call_sim ih hm ptc ho g1 g2
  | .alt _ h hA hx hy, _, _, hb, h1, h2 => snoc_sim h1 h2 (e_sim ih hn h hb h1 h2) fun _ _ ho g1 g2 =>
      alt_sim ih hn hx hy (fun _ _ hb h1 h2 => e_sim ih hn hA hb h1 h2) ho g1 g2
  | .catchE hm h hbd, _, _, hb, h1, h2 => snoc_node h1 h2 (e_sim ih hn h hb h1 h2) fun _ _ ho g1 _ => catch_sim ih hn hm hbd ho g1

end Asteria.Exec.Opt
