import Verif.Spec.Scope
import Verif.Proof.Scope

/-!
# Execution of code in which every local reference refers to a declared name

Helper lemmas for `Verif.Props.Scope`.
-/

namespace Asteria.Exec.Scope

variable {P : Type}

/-- The names of the contexts. -/
def rt (st : State P) : List (List Name) := st.scopes.map fun s => s.names.map Prod.fst

/-- Functions and deferred expressions refer to their own names only. -/
structure Inv (st : State P) : Prop where
  funcs : ∀ f ∈ st.funcs, ∀ ps va b, f = .inst ps va b → ScopedSeq [ps] b
  defers : ∀ s ∈ st.scopes, ∀ d ∈ s.defers, ScopedEach [] d.2
  ptcs : ∀ p ∈ st.ptcs, ∀ d ∈ p.defers, ScopedEach [] d.2

/-- The state has the contexts `Γ`, with more names perhaps. -/
structure G (Γ : List (List Name)) (st : State P) : Prop where
  inv : Inv st
  len : Γ.length = st.scopes.length
  sub : Sub Γ (rt st)

theorem Inv.self {st : State P} (h : Inv st) : G (rt st) st := ⟨h, by simp [rt], Sub.refl _⟩

theorem Inv.same {st st' : State P} (h : Inv st) (hs : st'.scopes = st.scopes) (hf : st'.funcs = st.funcs)
    (hp : st'.ptcs = st.ptcs) : Inv st' := ⟨by rw [hf]; exact h.funcs, by rw [hs]; exact h.defers, by rw [hp]; exact h.ptcs⟩

theorem G.same {Γ : List (List Name)} {st st' : State P} (h : G Γ st) (hs : st'.scopes = st.scopes)
    (hf : st'.funcs = st.funcs) (hp : st'.ptcs = st.ptcs) : G Γ st' :=
  ⟨h.inv.same hs hf hp, by rw [hs]; exact h.len, by rw [rt, hs]; exact h.sub⟩

section
variable {Γ : List (List Name)} {st : State P}

theorem G.setStack (h : G Γ st) (l : List Ref) : G Γ (st.setStack l) := by
  unfold State.setStack; split <;> exact h.same rfl rfl rfl

theorem G.setAlt (h : G Γ st) (l : List Ref) : G Γ (st.setAlt l) := by
  unfold State.setAlt; split <;> exact h.same rfl rfl rfl

theorem G.push (h : G Γ st) (r : Ref) : G Γ (st.push r) := h.setStack _
theorem G.setStatus (h : G Γ st) (s : Status) : G Γ (st.setStatus s) := h.same rfl rfl rfl
theorem G.log (h : G Γ st) (e : Event) : G Γ (st.log e) := h.same rfl rfl rfl
theorem G.newVar (h : G Γ st) : G Γ (newVar st).2 := h.same rfl rfl rfl
theorem G.initVar (h : G Γ st) (id : Nat) (v : Value) (b : Bool) : G Γ (initVar st id v b) := h.same rfl rfl rfl

@[simp] theorem rt_setStack (l : List Ref) : rt (st.setStack l) = rt st := by
  unfold State.setStack; split <;> rfl
@[simp] theorem rt_push (r : Ref) : rt (st.push r) = rt st := rt_setStack _
@[simp] theorem rt_initVar (id : Nat) (v : Value) (b : Bool) : rt (initVar st id v b) = rt st := rfl

theorem G.swap (h : G Γ st) : G Γ (st.modScope fun s => { s with swapped := !s.swapped }) := by
  unfold State.modScope
  split
  · exact h
  · rename_i s ss hs
    refine ⟨⟨h.inv.funcs, ?_, h.inv.ptcs⟩, by simpa [hs] using h.len, by simpa [rt, hs] using h.sub⟩
    intro s' hs'
    rcases List.mem_cons.1 hs' with rfl | hs'
    · exact h.inv.defers s (by simp [hs])
    · exact h.inv.defers s' (by simp [hs, hs'])

theorem mem_setName {n m : Name} {r : Ref} {l : List (Name × Ref)} :
    m ∈ (setName n r l).map Prod.fst ↔ m = n ∨ m ∈ l.map Prod.fst := by
  induction l with
  | nil => simp [setName]
  | cons p l ih =>
    obtain ⟨k, r'⟩ := p
    simp only [setName]
    split
    · rename_i h; subst h; simp
    · simp only [List.map_cons, List.mem_cons, ih]; tauto

theorem rt_setName (n : Name) (r : Ref) :
    Sub (addHead [n] (rt st)) (rt (st.modScope fun s => { s with names := setName n r s.names })) := by
  unfold State.modScope
  split
  · rename_i hs; simp [rt, hs]; exact Sub.nil _
  · rename_i s ss hs
    simp only [rt, hs, List.map_cons, addHead_cons]
    refine Sub.cons (fun x hx => ?_) (Sub.refl _)
    rw [mem_setName]
    simp only [List.mem_append, List.mem_singleton] at hx
    tauto

theorem G.setName (h : G Γ st) (n : Name) (r : Ref) :
    G Γ (st.modScope fun s => { s with names := setName n r s.names }) := by
  have h1 := h.sub.trans ((Sub.add [n] _).trans (rt_setName (st := st) n r))
  have h2 : Γ.length = (st.modScope fun s => { s with names := Exec.setName n r s.names }).scopes.length := by
    rw [h.len]; unfold State.modScope; split <;> simp_all
  refine ⟨⟨?_, ?_, ?_⟩, h2, h1⟩
  · unfold State.modScope; split <;> exact h.inv.funcs
  · unfold State.modScope
    split
    · exact h.inv.defers
    · rename_i s ss hs
      intro s' hs'
      rcases List.mem_cons.1 hs' with rfl | hs'
      · exact h.inv.defers s (by simp [hs])
      · exact h.inv.defers s' (by simp [hs, hs'])
  · unfold State.modScope; split <;> exact h.inv.ptcs

end

/-! ### Pieces -/

/-- Bodies that are executed one after another in the current context. -/
def Bodies : List (List Name) → List (Clause P) → Prop
  | _, [] => True
  | Γ, c :: cs => ScopedSeq Γ c.body ∧ Bodies (addHead (declared c.body) Γ) cs

theorem Bodies.mono : ∀ (cs : List (Clause P)) {Γ Γ' : List (List Name)}, Sub Γ Γ' → Bodies Γ cs → Bodies Γ' cs
  | [], _, _, _, _ => trivial
  | _ :: cs, _, _, hs, h => ⟨ScopedSeq.mono _ hs h.1, Bodies.mono cs (hs.addHead _) h.2⟩

theorem bodies_of_clauses : ∀ (cs : List (Clause P)) {Γ : List (List Name)} {Δ Δ' : List Name} (k : Nat),
    ScopedClauses Γ Δ cs → Δ ⊆ Δ' → (cs.take k).flatMap Clause.names ⊆ Δ' → Bodies (Δ' :: Γ) (cs.drop k)
  | [], _, _, _, k, _, _, _ => by simp [Bodies]
  | .mk _ l b names :: cs, Γ, Δ, Δ', 0, h, hd, _ => by
    simp only [ScopedClauses] at h
    refine ⟨ScopedSeq.mono b (Sub.cons hd (Sub.refl _)) h.2.1, ?_⟩
    have := bodies_of_clauses cs (Δ' := Δ' ++ declared b) 0 h.2.2.2 (fun x hx => by
      simp only [List.mem_append] at hx ⊢
      exact hx.imp (fun h => hd h) id) (by simp)
    simpa [Clause.body] using this
  | .mk _ l b names :: cs, Γ, Δ, Δ', k + 1, h, hd, hn => by
    simp only [ScopedClauses] at h
    simp only [List.take_succ_cons, List.flatMap_cons, Clause.names] at hn
    simp only [List.drop_succ_cons]
    refine bodies_of_clauses cs k h.2.2.2 (fun x hx => ?_) (fun x hx => hn (by simp [hx]))
    rcases List.mem_append.1 hx with hx | hx
    · exact hd hx
    · exact hn (List.mem_append_left _ (h.2.2.1 hx))

/-- What is known about a piece that is executed in the contexts `Γ`. -/
def ST : List (List Name) → Task P → Prop
  | Γ, .rod c => ScopedSeq Γ c
  | Γ, .seq c => ScopedSeq Γ c
  | Γ, .node n => Scoped Γ n
  | Γ, .within names t => ST (names.map Prod.fst :: Γ) t
  | Γ, .find _ rest _ _ all => ScopedClauses Γ [] all ∧ ∀ c ∈ rest, ScopedEach Γ c.labels
  | Γ, .clauses cs => Bodies Γ cs
  | Γ, .doL b _ c k => ScopedSeq ([] :: Γ) b ∧ ScopedEach Γ c ∧ ScopedSeq ([] :: Γ) k
  | Γ, .whileL _ c b k => ScopedEach Γ c ∧ ScopedSeq ([] :: Γ) b ∧ ScopedSeq ([] :: Γ) k
  | Γ, .eachInit _ _ i b k => ScopedEach Γ i ∧ ScopedSeq ([] :: Γ) b ∧ ScopedSeq ([] :: Γ.tail) k
  | Γ, .eachL _ _ _ _ b k => ScopedSeq ([] :: Γ) b ∧ ScopedSeq ([] :: Γ.tail) k
  | Γ, .forInit i c s b k => ScopedSeq Γ i ∧ ScopedEach (addHead (declared i) Γ) c ∧ ScopedEach (addHead (declared i) Γ) s ∧
      ScopedSeq ([] :: addHead (declared i) Γ) b ∧ ScopedSeq ([] :: Γ.tail) k
  | Γ, .forL c s b k => ScopedEach Γ c ∧ ScopedEach Γ s ∧ ScopedSeq ([] :: Γ) b ∧ ScopedSeq ([] :: Γ.tail) k
  | Γ, .sub _ c => ScopedEach Γ c
  | Γ, .call names b => ScopedSeq (names.map Prod.fst :: Γ) b
  | _, _ => True

theorem Sub.tails {Γ Γ' : List (List Name)} (h : Sub Γ Γ') : Sub Γ.tail Γ'.tail := by
  cases Γ with
  | nil => exact Sub.nil _
  | cons a Γ =>
    cases Γ' with
    | nil => obtain ⟨_, h1, _⟩ := h 0 a rfl; simp at h1
    | cons b Γ' => exact h.tail

theorem ST.mono : ∀ (t : Task P) {Γ Γ' : List (List Name)}, Sub Γ Γ' → ST Γ t → ST Γ' t := by
  intro t
  induction t with
  | within names t ih => intro Γ Γ' hs h; simp only [ST] at *; exact ih hs.same h
  | rod c => intro Γ Γ' hs h; exact ScopedSeq.mono _ hs h
  | seq c => intro Γ Γ' hs h; exact ScopedSeq.mono _ hs h
  | node n => intro Γ Γ' hs h; exact Scoped.mono _ hs h
  | find v rest k target all =>
    intro Γ Γ' hs h
    exact ⟨ScopedClauses.mono _ hs (fun _ h => h) h.1, fun c hc => ScopedEach.mono _ hs (h.2 c hc)⟩
  | clauses cs => intro Γ Γ' hs h; exact Bodies.mono _ hs h
  | doL b n c k =>
    intro Γ Γ' hs h; exact ⟨ScopedSeq.mono _ hs.same h.1, ScopedEach.mono _ hs h.2.1, ScopedSeq.mono _ hs.same h.2.2⟩
  | whileL n c b k =>
    intro Γ Γ' hs h; exact ⟨ScopedEach.mono _ hs h.1, ScopedSeq.mono _ hs.same h.2.1, ScopedSeq.mono _ hs.same h.2.2⟩
  | eachInit kn mn i b k =>
    intro Γ Γ' hs h
    exact ⟨ScopedEach.mono _ hs h.1, ScopedSeq.mono _ hs.same h.2.1, ScopedSeq.mono _ hs.tails.same h.2.2⟩
  | eachL ks kn mn r b k =>
    intro Γ Γ' hs h
    exact ⟨ScopedSeq.mono _ hs.same h.1, ScopedSeq.mono _ hs.tails.same h.2⟩
  | forInit i c s b k =>
    intro Γ Γ' hs h
    exact ⟨ScopedSeq.mono _ hs h.1, ScopedEach.mono _ (hs.addHead _) h.2.1, ScopedEach.mono _ (hs.addHead _) h.2.2.1,
      ScopedSeq.mono _ (hs.addHead _).same h.2.2.2.1, ScopedSeq.mono _ hs.tails.same h.2.2.2.2⟩
  | forL c s b k =>
    intro Γ Γ' hs h
    exact ⟨ScopedEach.mono _ hs h.1, ScopedEach.mono _ hs h.2.1, ScopedSeq.mono _ hs.same h.2.2.1,
      ScopedSeq.mono _ hs.tails.same h.2.2.2⟩
  | sub a c => intro Γ Γ' hs h; exact ScopedEach.mono _ hs h
  | call names b => intro Γ Γ' hs h; exact ScopedSeq.mono _ hs.same h
  | _ => intro Γ Γ' hs h; trivial

/-- The names that a piece declares in the current context. -/
def decls : Task P → List Name
  | .rod c => declared c
  | .seq c => declared c
  | .node n => declares n
  | _ => []

/-- What is known about an outcome. -/
def Q (Γ : List (List Name)) (D : List Name) : Out P → Prop
  | .ok st => G Γ st ∧ (st.status = .next → Sub (addHead D Γ) (rt st))
  | .exc _ st => G Γ st
  | .ub => True

/-- Two results are the same, and something is known about them. -/
structure Sim (R : Out P → Prop) (g e : Option (Out P)) : Prop where
  eq : g = e
  sat : ∀ o, e = some o → R o

theorem Sim.of {R : Out P → Prop} {o : Out P} (h : R o) : Sim R (some o) (some o) :=
  ⟨rfl, fun x hx => by cases hx; exact h⟩

theorem Sim.imp {R R' : Out P → Prop} {g e : Option (Out P)} (h : Sim R g e) (hr : ∀ o, R o → R' o) : Sim R' g e :=
  ⟨h.eq, fun o ho => hr o (h.sat o ho)⟩

section
variable {Γ : List (List Name)} {D : List Name}

theorem Sim.ub : Sim (Q (P := P) Γ D) (some .ub) (some .ub) := Sim.of trivial
theorem Sim.exc {e : Value} {st : State P} (h : G Γ st) : Sim (Q Γ D) (some (.exc e st)) (some (.exc e st)) := Sim.of h
theorem Sim.ok {st : State P} (h : G Γ st) : Sim (Q Γ []) (some (.ok st)) (some (.ok st)) :=
  Sim.of ⟨h, fun _ => by simpa using h.sub⟩

theorem Sim.onOut {R R' : Out P → Prop} {g e : Option (Out P)} {k k' : State P → Option (Out P)}
    {h h' : Value → State P → Option (Out P)} (ho : Sim R g e) (hk : ∀ st, R (.ok st) → Sim R' (k st) (k' st))
    (hh : ∀ v st, R (.exc v st) → Sim R' (h v st) (h' v st)) (hu : R' .ub) :
    Sim R' (onOut g k h) (onOut e k' h') := by
  obtain ⟨rfl, hs⟩ := ho
  cases g with
  | none => exact ⟨rfl, fun _ h => by simp [Exec.onOut] at h⟩
  | some o =>
    cases o with
    | ok st => exact hk st (hs _ rfl)
    | exc v st => exact hh v st (hs _ rfl)
    | ub => exact Sim.of hu

theorem Sim.andThen {D' : List Name} {g e : Option (Out P)} {k k' : State P → Option (Out P)} (ho : Sim (Q Γ D') g e)
    (hk : ∀ st, G Γ st → (st.status = .next → Sub (addHead D' Γ) (rt st)) → Sim (Q Γ D) (k st) (k' st)) :
    Sim (Q Γ D) (andThen g k) (andThen e k') :=
  Sim.onOut ho (fun st h => hk st h.1 h.2) (fun _ _ h => Sim.exc h) trivial

theorem Sim.withValue {st : State P} {r : Res Value} {k k' : Value → Option (Out P)} (hst : G Γ st)
    (hk : ∀ v, Sim (Q Γ D) (k v) (k' v)) : Sim (Q Γ D) (withValue st r k) (withValue st r k') := by
  cases r with
  | ok v => exact hk v
  | throw => exact Sim.exc hst
  | ub => exact Sim.ub

theorem Sim.withTop {st : State P} {k k' : Ref → List Ref → Option (Out P)}
    (hk : ∀ r l, Sim (Q Γ D) (k r l) (k' r l)) : Sim (Q Γ D) (withTop st k) (withTop st k') := by
  unfold Exec.withTop
  split
  · exact Sim.ub
  · exact hk _ _

theorem Sim.expectNext {st : State P} {k k' : Option (Out P)} (hk : st.status = .next → Sim (Q Γ D) k k') :
    Sim (Q Γ D) (expectNext st k) (expectNext st k') := by
  unfold Exec.expectNext
  split
  · rename_i h; exact hk h
  · exact Sim.ub

theorem Sim.ite {c : Prop} [Decidable c] {R : Out P → Prop} {a a' b b' : Option (Out P)} (ha : c → Sim R a a')
    (hb : ¬ c → Sim R b b') : Sim R (if c then a else b) (if c then a' else b') := by
  split
  · rename_i h; exact ha h
  · rename_i h; exact hb h

end

/-- What is known about the pieces of a step. -/
def Rec (g e : Task P → State P → Option (Out P)) : Prop :=
  ∀ t st, ST (rt st) t → Inv st → Sim (Q (rt st) (decls t)) (g t st) (e t st)

section
variable {Γ : List (List Name)} {g e : Task P → State P → Option (Out P)}

theorem Rec.run (hr : Rec g e) {t : Task P} {st : State P} (h : G Γ st) (ht : ST Γ t) :
    Sim (Q Γ (decls t)) (g t st) (e t st) := by
  refine (hr t st (ST.mono t h.sub ht) h.inv).imp fun o ho => ?_
  have trans : ∀ st' : State P, G (rt st) st' → G Γ st' := fun st' h' =>
    ⟨h'.inv, by rw [h.len, ← h'.len]; simp [rt], h.sub.trans h'.sub⟩
  cases o with
  | ok st' => exact ⟨trans _ ho.1, fun hs => (h.sub.addHead _).trans (ho.2 hs)⟩
  | exc v st' => exact trans _ ho
  | ub => trivial

theorem Rec.aside (hr : Rec g e) {t : Task P} {st : State P} (h : G Γ st) (ht : ST Γ.tail t) :
    Sim (Q Γ []) (Exec.aside g t st) (Exec.aside e t st) := by
  unfold Exec.aside
  split
  · exact Sim.ub
  · rename_i s ss hs
    obtain ⟨a, Γ', rfl⟩ : ∃ a Γ', Γ = a :: Γ' := by
      have := h.len
      cases Γ with
      | nil => simp [hs] at this
      | cons a Γ' => exact ⟨a, Γ', rfl⟩
    have hsub : Sub (a :: Γ') (s.names.map Prod.fst :: ss.map fun s => s.names.map Prod.fst) := by
      simpa [rt, hs] using h.sub
    have h0 : G Γ' { st with scopes := ss } :=
      ⟨⟨h.inv.funcs, fun s' hs' => h.inv.defers s' (by simp [hs, hs']), h.inv.ptcs⟩, by simpa [hs] using h.len, hsub.tail⟩
    have h1 : ∀ st', G Γ' st' → G (a :: Γ') { st' with scopes := s :: st'.scopes } := fun st' h' => by
      refine ⟨⟨h'.inv.funcs, fun s' hs' => ?_, h'.inv.ptcs⟩, by simpa using h'.len, Sub.cons hsub.head h'.sub⟩
      rcases List.mem_cons.1 hs' with rfl | hs'
      · exact h.inv.defers _ (by simp [hs])
      · exact h'.inv.defers _ hs'
    exact Sim.onOut (hr.run h0 ht) (fun st' h' => Sim.ok (h1 _ h'.1)) (fun v st' h' => Sim.exc (h1 _ h')) trivial

end

theorem mem_lookupName {n : Name} : ∀ {l : List (Name × Ref)}, n ∈ l.map Prod.fst → lookupName n l ≠ none
  | [], h => by simp at h
  | (m, r) :: l, h => by
    simp only [lookupName]
    split
    · simp
    · rename_i hn
      simp only [List.map_cons, List.mem_cons] at h
      exact mem_lookupName (h.resolve_left fun h => hn h.symm)

theorem contexts_get {st : State P} {d : Nat} {ns : List Name} (h : (rt st)[d]? = some ns) :
    ∃ names, (contexts st)[d]? = some (some names) ∧ ∀ n ∈ ns, lookupName n names ≠ none := by
  simp only [rt, List.getElem?_map, Option.map_eq_some_iff] at h
  obtain ⟨s, h1, rfl⟩ := h
  exact ⟨s.names, by simp [contexts, h1], fun n hn => mem_lookupName hn⟩

theorem fit_each (st : State P) : Fit (contexts st) (rt st) 0 := fun _ _ h => .inr ⟨by omega, contexts_get h⟩

theorem cap_func {st : State P} {ps : List Name} {b : List (Node P)} (h : ScopedSeq (ps :: rt st) b) :
    Cap (rebindAll (none :: contexts st) b) fun b' => ScopedSeq [ps] b' := by
  have h1 := cap_seq b ((fit_each st).cons ps) h
  exact ⟨h1.1, fun x hx => by simpa using (h1.2 x hx).1⟩

theorem cap_defer {st : State P} {b : List (Node P)} (h : ScopedEach (rt st) b) :
    Cap (rebindAll (contexts st) b) fun b' => ScopedEach [] b' := by
  have h1 := cap_each b (fit_each st) h
  exact ⟨h1.1, fun x hx => by simpa using (h1.2 x hx).1⟩

theorem runNode_sim (sem : Sem P) {g e : Task P → State P → Option (Out P)} (hr : Rec g e) (n : Node P) (st : State P)
    (hn : Scoped (rt st) n) (hi : Inv st) : Sim (Q (rt st) (declares n)) (runNode sem g n st) (runNode sem e n st) := by
  have hG := hi.self
  cases n with
  | clearStack => exact Sim.ok (hG.setStack _)
  | block b => exact hr.run hG (t := block b) (by simpa only [ST, block, Scoped, List.map_nil] using hn)
  | declareVar n =>
    refine Sim.of ⟨(hG.newVar.setName n _).push _, fun _ => ?_⟩
    rw [rt_push]
    exact rt_setName (st := (newVar st).2) n _
  | initVar imm =>
    simp only [runNode]
    split
    · refine Sim.withValue hG fun v => ?_
      split
      · exact Sim.ub
      · split
        · exact Sim.ok ((hG.initVar _ _ _).setStack _)
        · exact Sim.ub
    · exact Sim.ub
  | ifS neg t f =>
    simp only [Scoped] at hn
    exact Sim.withTop fun r l => Sim.withValue hG fun v => Sim.ite (fun _ => hr.run hG (t := block t) hn.1)
      (fun _ => hr.run hG (t := block f) hn.2)
  | switchS cs =>
    simp only [Scoped] at hn
    refine Sim.withTop fun r l => Sim.withValue hG fun v => hr.run hG (t := .find v cs 0 none cs) ⟨hn, ?_⟩
    have : ∀ (cs : List (Clause P)) Δ, ScopedClauses (rt st) Δ cs → ∀ c ∈ cs, ScopedEach (rt st) c.labels := by
      intro cs
      induction cs with
      | nil => simp
      | cons c cs ih =>
        obtain ⟨k, l, b, ns⟩ := c
        intro Δ h c hc
        simp only [ScopedClauses] at h
        rcases List.mem_cons.1 hc with rfl | hc
        · exact h.1
        · exact ih _ h.2.2.2 c hc
    exact this cs [] hn
  | doWhile b neg c k => exact hr.run hG (t := .doL b neg c k) (by simpa only [ST, Scoped] using hn)
  | whileS neg c b k => exact hr.run hG (t := .whileL neg c b k) (by simpa only [ST, Scoped] using hn)
  | forEach kn mn i b k =>
    simp only [Scoped] at hn
    simp only [runNode]
    refine hr.run hG (t := .within _ (.eachInit kn mn i b k)) ?_
    cases kn <;> exact hn
  | forS i c s b k =>
    simp only [Scoped] at hn
    exact hr.run hG (t := .within [] (.forInit i c s b k)) (by simpa only [ST, List.map_nil, addHead_cons, List.nil_append, List.tail_cons] using hn)
  | tryS b n h =>
    simp only [Scoped] at hn
    refine Sim.onOut (R := Q (rt st) []) ?_ (fun st' h' => Sim.ok h'.1) (fun v st' h' => ?_) trivial
    · refine Sim.andThen (hr.run hG (t := block b) hn.1) fun st' h' _ => ?_
      refine Sim.ite (fun _ => Sim.withTop fun r l => Sim.andThen (hr.run h' (t := .check r) trivial) fun st'' h'' _ =>
        Sim.ok (h''.setStack _)) (fun _ => Sim.ok h')
    · exact hr.run h' (t := .within [(n, .temp v [])] (.rod h)) hn.2
  | throwS =>
    refine Sim.withTop fun r l => Sim.withValue hG fun v => ?_
    split
    · exact Sim.exc hG
    · exact Sim.exc (hG.setStack _)
  | assertS => exact Sim.withTop fun r l => Sim.withValue hG fun v => Sim.ite (fun _ => Sim.ok hG) (fun _ => Sim.exc hG)
  | simpleStatus s => exact Sim.ok (hG.setStatus _)
  | checkArg byRef =>
    exact Sim.withTop fun r l => Sim.ite (fun _ => Sim.withValue hG fun _ => Sim.ok hG)
      (fun _ => Sim.withValue hG fun _ => Sim.ok (hG.setStack _))
  | pushLocal d n =>
    simp only [runNode]
    split
    · exact Sim.ub
    · split
      · exact Sim.exc hG
      · exact Sim.exc hG
      · exact Sim.ok (hG.push _)
  | pushBound r => exact Sim.ok (hG.push _)
  | pushConst v => exact Sim.ok (hG.push _)
  | defineFunc ps va b =>
    simp only [Scoped] at hn
    have hc := cap_func hn
    simp only [runNode]
    split
    · rename_i b' hb'
      refine Sim.ok (G.push (st := { st with funcs := st.funcs ++ [.inst ps va b'] }) ⟨⟨?_, hi.defers, hi.ptcs⟩, hG.len, hG.sub⟩ _)
      intro f hf ps' va' b'' hf'
      rcases List.mem_append.1 hf with hf | hf
      · exact hi.funcs f hf ps' va' b'' hf'
      · simp only [List.mem_singleton] at hf
        subst hf
        cases hf'
        exact hc.2 b' hb'
    · exact Sim.exc hG
    · exact Sim.ub
  | branchE t f a =>
    simp only [Scoped] at hn
    refine Sim.withTop fun r l => Sim.withValue hG fun v => hr.run hG (t := .sub a _) ?_
    split
    · exact hn.1
    · exact hn.2
  | coalesceE c a =>
    simp only [Scoped] at hn
    refine Sim.withTop fun r l => Sim.withValue hG fun v => ?_
    split
    · exact hr.run hG (t := .sub a c) hn
    · exact Sim.ok hG
  | funcCall n ptc =>
    simp only [runNode]
    refine Sim.ite (fun _ => Sim.ub) fun _ => ?_
    have h1 := (hG.setAlt (st.stack.take n)).setStack (st.stack.drop n)
    refine Sim.withTop fun r l => Sim.withValue h1 fun v => ?_
    split
    · exact hr.run (h1.setStack _) (t := .tailOrCall ptc _) trivial
    · exact Sim.exc h1
  | altClear => exact Sim.ok (hG.swap.setStack _)
  | altCall ptc =>
    simp only [runNode]
    refine Sim.withTop fun r l => Sim.withValue hG.swap fun v => ?_
    split
    · exact hr.run (hG.swap.setStack _) (t := .tailOrCall ptc _) trivial
    · exact Sim.exc hG.swap
  | deferE b =>
    simp only [Scoped] at hn
    have hc := cap_defer hn
    simp only [runNode]
    split
    · rename_i b' hb'
      refine Sim.ok (G.log ?_ _)
      unfold State.modScope
      split
      · exact hG
      · rename_i s ss hs
        refine ⟨⟨hi.funcs, fun s' hs' d hd => ?_, hi.ptcs⟩, by simp [rt, hs], by simpa [rt, hs] using Sub.refl _⟩
        rcases List.mem_cons.1 hs' with rfl | hs'
        · rcases List.mem_append.1 hd with hd | hd
          · exact hi.defers s (by simp [hs]) d hd
          · simp only [List.mem_singleton] at hd
            subst hd
            exact hc.2 b' hb'
        · exact hi.defers s' (by simp [hs, hs']) d hd
    · exact Sim.exc hG
    · exact Sim.ub
  | catchE b =>
    simp only [Scoped] at hn
    exact Sim.onOut (hr.run (hG.setStack []) (t := .rod b) (ScopedEach.seq b (Sub.refl _) hn))
      (fun st' h' => Sim.expectNext fun _ => Sim.ok ((h'.1.setStack _).setStatus _))
      (fun v st' h' => Sim.ok (G.setStatus (G.setStack h' _) _)) trivial
  | returnS byRef isVoid =>
    refine Sim.ite (fun _ => Sim.ok (hG.setStatus _)) fun _ => Sim.withTop fun r l => ?_
    split
    · exact Sim.ok (hG.setStatus _)
    · exact Sim.ite (fun _ => Sim.withValue hG fun _ => Sim.ok (hG.setStatus _))
        (fun _ => Sim.withValue hG fun _ => Sim.ok ((hG.setStack _).setStatus _))
  | returnConst v => exact Sim.ok ((hG.push _).setStatus _)
  | defineNull imm n =>
    refine Sim.of ⟨(hG.newVar.setName n _).initVar _ _ _, fun _ => ?_⟩
    rw [rt_initVar]
    exact rt_setName (st := (newVar st).2) n _
  | declareRef n => exact Sim.of ⟨hG.setName n _, fun _ => rt_setName n _⟩
  | initRef n => exact Sim.withTop fun r l => Sim.ok ((hG.setName n r).setStack l)
  | prim p =>
    simp only [runNode]
    have h1 : ∀ w : World, G (rt st) { st with world := w } := fun w => hG.same rfl rfl rfl
    split
    · exact Sim.ok ((h1 _).setStack _)
    · exact Sim.exc ((h1 _).setStack _)
    · exact Sim.ub

theorem G.frame {Γ : List (List Name)} {st : State P} (h : G Γ st) {st' : State P} (h' : Inv st') :
    G Γ (restore st st') := ⟨⟨h'.funcs, h.inv.defers, h'.ptcs⟩, h.len, h.sub⟩

theorem bindArgs_names {va : Bool} : ∀ {ps : List Name} {as : List Ref} {l l' : List (Name × Ref)},
    bindArgs va l ps as = some l' → ∀ n, n ∈ ps ∨ n ∈ l.map Prod.fst → n ∈ l'.map Prod.fst
  | [], [], l, l', h, n, hn => by simp only [bindArgs, Option.some.injEq] at h; subst h; simpa using hn
  | [], _ :: _, l, l', h, n, hn => by
    simp only [bindArgs] at h
    split at h
    · simp only [Option.some.injEq] at h; subst h; simpa using hn
    · simp at h
  | p :: ps, [], l, l', h, n, hn => by
    simp only [bindArgs] at h
    refine bindArgs_names h n ?_
    rw [mem_setName]
    simp only [List.mem_cons] at hn
    tauto
  | p :: ps, a :: as, l, l', h, n, hn => by
    simp only [bindArgs] at h
    refine bindArgs_names h n ?_
    rw [mem_setName]
    simp only [List.mem_cons] at hn
    tauto

theorem mem_addName {n m : Name} {l : List (Name × Ref)} :
    m ∈ (addName n l).map Prod.fst ↔ m = n ∨ m ∈ l.map Prod.fst := by
  unfold addName
  split
  · rename_i r hr
    have : n ∈ l.map Prod.fst := by
      induction l with
      | nil => simp [lookupName] at hr
      | cons p l ih =>
        obtain ⟨k, r'⟩ := p
        simp only [lookupName] at hr
        split at hr
        · rename_i h; simp [h]
        · simp only [List.map_cons, List.mem_cons]; exact .inr (ih hr)
    constructor
    · exact .inr
    · rintro (rfl | h) <;> assumption
  · simp [or_comm]

theorem mem_addNames (ns : List Name) : ∀ (l : List (Name × Ref)) (n : Name), n ∈ ns ∨ n ∈ l.map Prod.fst →
    n ∈ (ns.foldl (fun l n => addName n l) l).map Prod.fst := by
  induction ns with
  | nil => intro l n h; simpa using h
  | cons m ns ih =>
    intro l n h
    refine ih _ n ?_
    rw [mem_addName]
    simp only [List.mem_cons] at h
    tauto

theorem G.setKey {Γ : List (List Name)} {st : State P} (h : G Γ st) (n : Name) (v : Value) : G Γ (setKey st n v) := by
  unfold Exec.setKey
  split
  · exact h.initVar _ _ _
  · exact (h.newVar.setName n _).initVar _ _ _

theorem G.bindElement {Γ : List (List Name)} {st : State P} (h : G Γ st) (kn : Option Name) (mn : Name) (r : Ref)
    (x : Value × Subscript.Sub) : G Γ (bindElement kn mn r x st) := by
  unfold Exec.bindElement
  cases kn with
  | none => exact h.setName mn _
  | some n => exact (h.setKey n _).setName mn _

/-- A context is left. -/
theorem G.pop {a : List Name} {Γ : List (List Name)} {st : State P} (h : G (a :: Γ) st) :
    G Γ ({ st with scopes := st.scopes.tail } : State P) := by
  refine ⟨⟨h.inv.funcs, fun s hs => h.inv.defers s (List.mem_of_mem_tail hs), h.inv.ptcs⟩, ?_, ?_⟩
  · have := h.len; simp at this ⊢; omega
  · have := h.sub.tails
    simpa [rt, List.map_tail] using this

/-- The last deferred expression of the current context is taken. -/
theorem G.takeDefer {Γ : List (List Name)} {st : State P} (h : G Γ st) {s : Scope P} {ss : List (Scope P)}
    (hs : st.scopes = s :: ss) {d : List (Nat × List (Node P))} (hd : ∀ x ∈ d, ScopedEach [] x.2) :
    G Γ ({ st with scopes := { s with defers := d } :: ss } : State P) := by
  refine ⟨⟨h.inv.funcs, fun s' hs' => ?_, h.inv.ptcs⟩, by simpa [hs] using h.len, by simpa [rt, hs] using h.sub⟩
  rcases List.mem_cons.1 hs' with rfl | hs'
  · exact hd
  · exact h.inv.defers s' (by simp [hs, hs'])

theorem modify_defers {l : List (PtcArgs P)} (h : ∀ p ∈ l, ∀ d ∈ p.defers, ScopedEach [] d.2) (id : Nat)
    (f : PtcArgs P → PtcArgs P) (hf : ∀ p ∈ l, ∀ d ∈ (f p).defers, ScopedEach [] d.2) :
    ∀ p ∈ l.modify id f, ∀ d ∈ p.defers, ScopedEach [] d.2 := by
  intro p hp
  obtain ⟨i, hi⟩ := List.mem_iff_getElem?.1 hp
  rw [List.getElem?_modify] at hi
  split at hi
  · have hi' : Option.map f l[i]? = some p := hi
    rw [Option.map_eq_some_iff] at hi'
    obtain ⟨q, hq, rfl⟩ := hi'
    exact hf q (List.mem_of_getElem? hq)
  · exact h p (List.mem_of_getElem? (by simpa using hi))

/-- The state in which the deferred expressions of a tail call are run. -/
theorem G.resume {Γ : List (List Name)} {st : State P} (h : G Γ st) {id : Nat} {p : PtcArgs P} (hp : st.ptcs[id]? = some p)
    (ev : Event) : G [[]] (({ st with
          ptcs := st.ptcs.modify id fun p => { p with defers := [] },
          scopes := [⟨[], p.defers, false⟩], stk0 := [], stk1 := [], status := .next } : State P).log ev) := by
  refine ⟨⟨h.inv.funcs, ?_, modify_defers h.inv.ptcs _ _ (by simp)⟩, rfl, Sub.refl _⟩
  intro s hs
  simp only [State.log, List.mem_singleton] at hs
  subst hs
  exact h.inv.ptcs p (List.mem_of_getElem? hp)

theorem step_sim (sem : Sem P) {g e : Task P → State P → Option (Out P)} (hr : Rec g e) (t : Task P) (st : State P)
    (ht : ST (rt st) t) (hi : Inv st) : Sim (Q (rt st) (decls t)) (step sem g t st) (step sem e t st) := by
  have hG := hi.self
  cases t with
  | rod code => exact hr.run (hG.setStatus .next) (t := .seq code) ht
  | seq code =>
    cases code with
    | nil => exact Sim.of ⟨hG, fun _ => by simpa [decls] using Sub.refl _⟩
    | cons n ns =>
      simp only [ST, ScopedSeq] at ht
      refine Sim.onOut (hr.run hG (t := .node n) ht.1) (fun st' h' => Sim.ite (fun hs => ?_) fun hs => ?_)
        (fun v st' h' => Sim.exc h') trivial
      · have h1 : G (addHead (declares n) (rt st)) st' :=
          ⟨h'.1.inv, by rw [← h'.1.len]; simp [addHead], h'.2 hs⟩
        refine (hr.run h1 (t := .seq ns) ht.2).imp fun o ho => ?_
        have weak : ∀ s : State P, G (addHead (declares n) (rt st)) s → G (rt st) s := fun s hs =>
          ⟨hs.inv, by rw [← hs.len]; simp [addHead], (Sub.add _ _).trans hs.sub⟩
        cases o with
        | ok s => exact ⟨weak s ho.1, fun hn => by simpa [decls] using ho.2 hn⟩
        | exc v s => exact weak s ho
        | ub => trivial
      · exact Sim.of ⟨h'.1, fun h => absurd h hs⟩
  | node n => exact runNode_sim sem hr n st ht hi
  | within names t =>
    simp only [ST] at ht
    have h1 : G (names.map Prod.fst :: rt st)
        ({ st with scopes := ⟨names, [], st.swapped⟩ :: st.scopes }.log .enter) := by
      refine ⟨⟨hi.funcs, fun s hs => ?_, hi.ptcs⟩, by simp [rt, State.log], Sub.refl _⟩
      rcases List.mem_cons.1 hs with rfl | hs
      · simp
      · exact hi.defers s hs
    have leave : ∀ st' : State P, G (names.map Prod.fst :: rt st) st' →
        G (rt st) (({ st' with scopes := st'.scopes.tail } : State P).log .leave) := fun st' h => h.pop.log _
    exact Sim.onOut (hr.run h1 ht)
      (fun st' h' => Sim.onOut (hr.run (h'.1.log .done) (t := .exit) trivial) (fun s h => Sim.ok (leave s h.1))
        (fun v s h => Sim.exc (leave s h)) trivial)
      (fun v st' h' => Sim.onOut (hr.run (G.log h' .done) (t := .exitE v) trivial) (fun s h => Sim.ok (leave s h.1))
        (fun v s h => Sim.exc (leave s h)) trivial) trivial
  | exit =>
    simp only [step]
    split
    · exact Sim.ub
    · rename_i s ss hs
      refine Sim.ite (fun _ => Sim.ok hG) fun _ => Sim.ite (fun _ => Sim.withTop fun r l => ?_)
        fun _ => hr.run hG (t := .exitN .invalid st.status) trivial
      split
      · rename_i id
        refine Sim.ite (fun _ => Sim.ok (G.log ?_ _)) fun _ => Sim.ub
        have h1 := hG.takeDefer hs (d := []) (by simp)
        refine ⟨⟨hi.funcs, h1.inv.defers, ?_⟩, h1.len, h1.sub⟩
        refine modify_defers hi.ptcs id _ fun p hp d hd => ?_
        rcases List.mem_append.1 hd with hd | hd
        · exact hi.ptcs p hp d hd
        · exact hi.defers s (by simp [hs]) d hd
      · exact Sim.ub
      · exact hr.run (hG.setStack _) (t := .exitN _ st.status) trivial
  | exitN saved status =>
    simp only [step]
    split
    · exact Sim.ub
    · rename_i s ss hs
      split
      · refine Sim.ok (G.setStatus ?_ _)
        split
        · exact hG
        · exact hG.push _
      · rename_i d hd
        have hd' := List.mem_of_getLast? hd
        have h1 := hG.takeDefer hs (d := s.defers.dropLast) fun x hx =>
          hi.defers s (by simp [hs]) x (List.dropLast_subset _ hx)
        have h2 := hi.defers s (by simp [hs]) d hd'
        exact Sim.onOut (hr.run (h1.log _) (t := .rod d.2) (ScopedEach.seq _ (Sub.nil _) h2))
          (fun st' h' => Sim.expectNext fun _ => hr.run h'.1 (t := .exitN saved status) trivial)
          (fun v st' h' => hr.run h' (t := .exitE v) trivial) trivial
  | exitE v =>
    simp only [step]
    split
    · exact Sim.ub
    · rename_i s ss hs
      split
      · exact Sim.exc hG
      · rename_i d hd
        have hd' := List.mem_of_getLast? hd
        have h1 := hG.takeDefer hs (d := s.defers.dropLast) fun x hx =>
          hi.defers s (by simp [hs]) x (List.dropLast_subset _ hx)
        have h2 := hi.defers s (by simp [hs]) d hd'
        exact Sim.onOut (hr.run (h1.log _) (t := .rod d.2) (ScopedEach.seq _ (Sub.nil _) h2))
          (fun st' h' => Sim.expectNext fun _ => hr.run h'.1 (t := .exitE v) trivial)
          (fun v st' h' => hr.run h' (t := .exitE v) trivial) trivial
  | find v rest k target all =>
    cases rest with
    | nil =>
      simp only [step]
      split
      · exact Sim.ok hG
      · rename_i k
        refine hr.run hG (t := .within _ (.clauses (all.drop k))) ?_
        exact bodies_of_clauses all k ht.1 (by simp) fun x hx => mem_addNames _ _ _ (.inl hx)
    | cons c cs =>
      have hrest : ∀ c ∈ cs, ScopedEach (rt st) c.labels := fun c hc => ht.2 c (by simp [hc])
      simp only [step]
      split
      · exact hr.run hG (t := .find v cs (k + 1) (some k) all) ⟨ht.1, hrest⟩
      · refine Sim.andThen (hr.run hG (t := .rod c.labels) (ScopedEach.seq _ (Sub.refl _) (ht.2 c (by simp))))
          fun st' h' _ => Sim.expectNext fun _ => ?_
        split
        · exact Sim.ub
        · exact Sim.ub
        · exact Sim.exc h'
        · exact hr.run h' (t := .find v [] k (some k) all) ⟨ht.1, by simp⟩
        · exact hr.run h' (t := .find v cs (k + 1) target all) ⟨ht.1, hrest⟩
  | clauses cs =>
    cases cs with
    | nil => exact Sim.ok hG
    | cons c cs =>
      simp only [ST, Bodies] at ht
      refine Sim.andThen (hr.run hG (t := .rod c.body) ht.1) fun st' h' hd => Sim.ite (fun hs => ?_) fun hs => ?_
      · have h1 : G (addHead (declared c.body) (rt st)) st' :=
          ⟨h'.inv, by rw [← h'.len]; simp [addHead], hd hs⟩
        refine (hr.run h1 (t := .clauses cs) ht.2).imp fun o ho => ?_
        have weak : ∀ s : State P, G (addHead (declared c.body) (rt st)) s → G (rt st) s := fun s hs =>
          ⟨hs.inv, by rw [← hs.len]; simp [addHead], (Sub.add _ _).trans hs.sub⟩
        cases o with
        | ok s => exact ⟨weak s ho.1, fun _ => by simpa [decls] using (weak s ho.1).sub⟩
        | exc v s => exact weak s ho
        | ub => trivial
      · split
        · exact Sim.ok (h'.setStatus _)
        · exact Sim.ok h'
  | doL b neg c k =>
    simp only [ST] at ht
    simp only [step]
    refine Sim.andThen (hr.run hG (t := block b) ht.1) fun st' h' _ => Sim.ite (fun _ => ?_)
      fun _ => Sim.ok (h'.setStatus _)
    refine Sim.andThen (hr.run (h'.setStatus _) (t := .rod c) (ScopedEach.seq _ (Sub.refl _) ht.2.1)) fun st'' h'' _ =>
      Sim.expectNext fun _ => Sim.withTop fun r l => Sim.withValue h'' fun v => Sim.ite (fun _ => ?_) fun _ => ?_
    · exact hr.run h'' (t := block k) ht.2.2
    · exact hr.run h'' (t := .doL b neg c k) ht
  | whileL neg c b k =>
    simp only [ST] at ht
    simp only [step]
    refine Sim.andThen (hr.run hG (t := .rod c) (ScopedEach.seq _ (Sub.refl _) ht.1)) fun st' h' _ =>
      Sim.expectNext fun _ => Sim.withTop fun r l => Sim.withValue h' fun v => Sim.ite (fun _ => ?_) fun _ => ?_
    · exact hr.run h' (t := block k) ht.2.2
    · exact Sim.andThen (hr.run h' (t := block b) ht.2.1) fun st'' h'' _ => Sim.ite
        (fun _ => hr.run (h''.setStatus _) (t := .whileL neg c b k) ht) fun _ => Sim.ok (h''.setStatus _)
  | eachInit kn mn i b k =>
    simp only [ST] at ht
    simp only [step]
    refine Sim.andThen (hr.run hG (t := .rod i) (ScopedEach.seq _ (Sub.refl _) ht.1)) fun st' h' _ =>
      Sim.expectNext fun _ => Sim.withTop fun r l => ?_
    have h1 := (h'.setName mn r).setStack (.invalid :: l)
    refine Sim.withValue h1 fun v => ?_
    split
    · exact Sim.ok h1
    · split
      · exact Sim.exc h1
      · exact hr.run h1 (t := .eachL _ kn mn r b k) ht.2
  | eachL es kn mn r b k =>
    simp only [ST] at ht
    cases es with
    | nil => exact hr.aside hG (t := block k) ht.2
    | cons x es =>
      have h1 := hG.bindElement kn mn r x
      exact Sim.withValue h1 fun _ => Sim.andThen (hr.run h1 (t := block b) ht.1) fun st' h' _ => Sim.ite
        (fun _ => hr.run (h'.setStatus _) (t := .eachL es kn mn r b k) ht) fun _ => Sim.ok (h'.setStatus _)
  | forInit i c s b k =>
    simp only [ST] at ht
    refine Sim.andThen (hr.run hG (t := .rod i) ht.1) fun st' h' hd => Sim.expectNext fun hs => ?_
    have h1 : G (addHead (declared i) (rt st)) st' := ⟨h'.inv, by rw [← h'.len]; simp [addHead], hd hs⟩
    have h2 : (addHead (declared i) (rt st)).tail = (rt st).tail := by cases rt st <;> simp
    refine (hr.run h1 (t := .forL c s b k) ⟨ht.2.1, ht.2.2.1, ht.2.2.2.1, by rw [h2]; exact ht.2.2.2.2⟩).imp fun o ho => ?_
    have weak : ∀ s : State P, G (addHead (declared i) (rt st)) s → G (rt st) s := fun s hs =>
      ⟨hs.inv, by rw [← hs.len]; simp [addHead], (Sub.add _ _).trans hs.sub⟩
    cases o with
    | ok s => exact ⟨weak s ho.1, fun _ => by simpa [decls] using (weak s ho.1).sub⟩
    | exc v s => exact weak s ho
    | ub => trivial
  | forL c s b k =>
    simp only [ST] at ht
    simp only [step]
    refine Sim.andThen (hr.run hG (t := .rod c) (ScopedEach.seq _ (Sub.refl _) ht.1)) fun st' h' _ =>
      Sim.expectNext fun _ => ?_
    have body : ∀ st', G (rt st) st' → Sim (Q (rt st) (decls (.forL c s b k)))
        (andThen (g (block b) st') fun st =>
          if (afterBody st.status .contFor .brkFor).1 = true then
            andThen (g (.rod s) (st.setStatus (afterBody st.status .contFor .brkFor).2)) fun st =>
              expectNext st (g (.forL c s b k) st)
          else some (.ok (st.setStatus (afterBody st.status .contFor .brkFor).2)))
        (andThen (e (block b) st') fun st =>
          if (afterBody st.status .contFor .brkFor).1 = true then
            andThen (e (.rod s) (st.setStatus (afterBody st.status .contFor .brkFor).2)) fun st =>
              expectNext st (e (.forL c s b k) st)
          else some (.ok (st.setStatus (afterBody st.status .contFor .brkFor).2))) := fun st' h' => by
      refine Sim.andThen (hr.run h' (t := block b) ht.2.2.1) fun st'' h'' _ => Sim.ite (fun _ => ?_)
        fun _ => Sim.ok (h''.setStatus _)
      exact Sim.andThen (hr.run (h''.setStatus _) (t := .rod s) (ScopedEach.seq _ (Sub.refl _) ht.2.1)) fun st3 h3 _ =>
        Sim.expectNext fun _ => hr.run h3 (t := .forL c s b k) ht
    split
    · exact body st' h'
    · exact Sim.withValue h' fun v => Sim.ite (fun _ => body st' h') fun _ => hr.aside h' (t := block k) ht.2.2.2
  | sub assign code =>
    simp only [ST] at ht
    simp only [step]
    split
    · exact Sim.expectNext fun _ => Sim.ok hG
    · refine Sim.ite (fun _ => ?_) fun _ => Sim.withTop fun r l => ?_
      · refine Sim.andThen (hr.run hG (t := .rod code) (ScopedEach.seq _ (Sub.refl _) ht)) fun st' h' _ =>
          Sim.expectNext fun _ => Sim.withTop fun r l => Sim.withValue h' fun v => ?_
        split
        · exact Sim.ub
        · have h1 : ∀ w : World, G (rt st) { st' with world := w } := fun w => h'.same rfl rfl rfl
          split
          · exact Sim.ok ((h1 _).setStack _)
          · exact Sim.exc (h1 _)
          · exact Sim.ub
      · exact Sim.imp (hr.run (hG.setStack l) (t := .rod code) (ScopedEach.seq _ (Sub.refl _) ht)) fun o ho => by
          cases o with
          | ok s => exact ⟨ho.1, fun _ => by simpa [decls] using ho.1.sub⟩
          | exc v s => exact ho
          | ub => trivial
  | tailOrCall ptc f =>
    simp only [step]
    refine Sim.withTop fun r l => Sim.ite (fun _ => ?_) fun _ => ?_
    · exact Sim.andThen (hr.run hG (t := .enter f r st.alt.reverse) trivial) fun st' h' _ =>
        Sim.andThen (hr.run h' (t := .check st'.result) trivial) fun st'' h'' _ =>
          Sim.expectNext fun _ => Sim.ok ((h''.setStack _).setAlt _)
    · refine Sim.ok (G.setStatus (G.setAlt (G.setStack (st := { st with ptcs := st.ptcs ++ [⟨ptc, f, r, st.alt.reverse, []⟩] }) ⟨⟨hi.funcs, hi.defers, ?_⟩, hG.len, hG.sub⟩ _) _) _)
      intro p hp
      rcases List.mem_append.1 hp with hp | hp
      · exact hi.ptcs p hp
      · simp only [List.mem_singleton] at hp; subst hp; simp
  | call names body =>
    simp only [ST] at ht
    refine Sim.andThen (hr.run hG (t := .within names (.rod body)) ht) fun st' h' _ => ?_
    unfold functionResult
    split
    · exact Sim.ok (h'.same rfl rfl rfl)
    · exact Sim.ok (h'.same rfl rfl rfl)
    · exact Sim.withTop fun r l => Sim.ok (h'.same rfl rfl rfl)
    · exact Sim.exc h'
  | enter f self args =>
    simp only [step]
    split
    · exact Sim.ub
    · split
      · exact Sim.ok (hG.same rfl rfl rfl)
      · exact Sim.exc (hG.same rfl rfl rfl)
      · exact Sim.ub
    · rename_i ps va body hf
      split
      · exact Sim.exc hG
      · rename_i names hn
        have h0 : G [] ({ st with scopes := [], stk0 := args.map fun _ => .invalid, stk1 := [], status := .next } : State P) :=
          ⟨⟨hi.funcs, by simp, hi.ptcs⟩, rfl, Sub.nil _⟩
        have h1 := hi.funcs _ (List.mem_of_getElem? hf) ps va body rfl
        exact Sim.onOut (hr.run h0 (t := .call names body) (ScopedSeq.mono _
            (Sub.cons (fun x hx => bindArgs_names hn x (.inl hx)) (Sub.refl _)) h1))
          (fun st' h' => Sim.ok (hG.frame h'.1.inv)) (fun v st' h' => Sim.exc (hG.frame (G.inv h'))) trivial
  | check self =>
    simp only [step]
    split
    · exact Sim.andThen (hr.run hG (t := .unpack _ []) trivial) fun st' h' _ =>
        Sim.ite (fun _ => Sim.ok h') fun _ => Sim.exc h'
    · exact Sim.ite (fun _ => Sim.ok (hG.same rfl rfl rfl)) fun _ => Sim.exc hG
  | unpack self frames =>
    simp only [step]
    split
    · split
      · exact Sim.ub
      · rename_i id p hp
        exact Sim.onOut (hr.run hG (t := .enter p.target p.self p.args) trivial)
          (fun st' h' => hr.run h'.1 (t := .unpack st'.result (_ :: frames)) trivial)
          (fun v st' h' => hr.run h' (t := .framesE (_ :: frames) v) trivial) trivial
    · split
      · exact Sim.ub
      · split
        · exact Sim.ub
        · have h1 : ∀ r : Ref, G (rt st) { st with result := r } := fun r => hG.same rfl rfl rfl
          refine Sim.ite (fun _ => hr.run (h1 _) (t := .framesN _ none) trivial) fun _ => ?_
          split
          · exact hr.run (h1 _) (t := .framesN _ none) trivial
          · split
            · exact hr.run (h1 _) (t := .framesN _ (some _)) trivial
            · exact hr.run hG (t := .framesE _ message) trivial
            · exact Sim.ub
  | framesN frames value =>
    simp only [step]
    split
    · exact Sim.ok hG
    · split
      · exact Sim.ub
      · rename_i id frames _ p hp
        have key : ∀ s : State P, G (rt st) s → s.ptcs = st.ptcs → Sim (Q (rt st) [])
            (onOut (g (.exitN .invalid .next) (({ s with
              ptcs := s.ptcs.modify id fun p => { p with defers := [] },
              scopes := [⟨[], p.defers, false⟩], stk0 := [], stk1 := [], status := .next } : State P).log (.resume id)))
              (fun st' => g (.framesN frames none) ({ restore s st' with result := s.result }.log .leave))
              fun e st' => g (.framesE frames e) ((restore s st').log .leave))
            (onOut (e (.exitN .invalid .next) (({ s with
              ptcs := s.ptcs.modify id fun p => { p with defers := [] },
              scopes := [⟨[], p.defers, false⟩], stk0 := [], stk1 := [], status := .next } : State P).log (.resume id)))
              (fun st' => e (.framesN frames none) ({ restore s st' with result := s.result }.log .leave))
              fun v st' => e (.framesE frames v) ((restore s st').log .leave)) := fun s hs hp' => by
          exact Sim.onOut (hr.run (hs.resume (id := id) (p := p) (by rw [hp', hp]) _) (t := .exitN .invalid .next) trivial)
            (fun st' h' => hr.run (G.log (st := { restore s st' with result := s.result }) ((hs.frame h'.1.inv).same rfl rfl rfl) _) (t := .framesN frames none) trivial)
            (fun v st' h' => hr.run (G.log (hs.frame (G.inv h')) _) (t := .framesE frames v) trivial) trivial
        cases p.aware <;> cases value <;> first
          | exact key st hG rfl
          | exact key { st with result := _ } (hG.same rfl rfl rfl) rfl
  | framesE frames v =>
    simp only [step]
    split
    · exact Sim.exc hG
    · split
      · exact Sim.ub
      · rename_i id frames _ p hp
        exact Sim.onOut (hr.run (hG.resume hp _) (t := .exitE v) trivial) (fun _ _ => Sim.ub)
          (fun v' st' h' => hr.run (G.log (hG.frame (G.inv h')) _) (t := .framesE frames v') trivial) trivial

theorem localsFound (t : Task P) (st : State P) (ht : ST (rt st) t) : LocalsFound t st := by
  unfold LocalsFound
  split
  · simp only [ST, Scoped] at ht
    obtain ⟨ns, h1, h2⟩ := ht
    simp only [rt, List.getElem?_map, Option.map_eq_some_iff] at h1
    obtain ⟨s, h3, rfl⟩ := h1
    exact ⟨s, h3, h2⟩
  · simp only [ST, Scoped] at ht; exact (cap_func ht).1
  · simp only [ST, Scoped] at ht; exact (cap_defer ht).1
  · trivial

theorem guarded_rec (sem : Sem P) (bad : Option (Out P)) (n : Nat) :
    Rec (guarded sem LocalsFound bad n) (exec sem n) := by
  induction n with
  | zero => intro t st _ _; exact ⟨rfl, fun o h => by simp [exec] at h⟩
  | succ n ih =>
    intro t st ht hi
    rw [guarded, if_pos (localsFound t st ht)]
    exact step_sim sem ih t st ht hi

end Asteria.Exec.Scope
