import Verif.Proof.SafeNode

/-! The pieces of an execution. -/

namespace Asteria.Exec.Safe

variable {P : Type} {sem : Sem P} {sig : P → Sig} {rec : Task P → State P → Option (Out P)}

theorem out_alt {j : Mode} {T : Ty} {n : Node P} (ht : Typed sig j T n) (hn : NoAlt n) :
    (out sig T n).alt.isSome = T.alt.isSome := by
  cases n <;> unfold Typed at ht <;> simp_all [out, T0, NoAlt]

section
variable {na : Prop} {j : Mode} {b : Bool} {T T' T'' : Ty} {ids ids' : List Nat} {st st₁ : State P} {o : Out P}

theorem QC.trans (h : QC sig na j b T'' ids' st₁ o) (hk : Kept ids st.world st₁.world)
    (hn : j = .expr → headNames st₁ = headNames st) (hs : na → st₁.swapped = st.swapped)
    (hi : ∀ i ∈ ids', i ∈ ids ∨ st.world.nvars ≤ i) : QC sig na j b T'' ids st o := by
  cases o with
  | ok st' =>
    obtain ⟨h1, h2, h3, h4⟩ := h
    refine ⟨h1, hk.trans h2 hi, fun hj => (h3 hj).trans (hn hj), ?_⟩
    rcases h4 with ⟨h5, ids'', h6, h7⟩ | h5
    · refine .inl ⟨h5, ids'', h6, fun i hi' => ?_⟩
      rcases h7 i hi' with h8 | h8
      · exact hi i h8
      · exact .inr (hk.nvars.trans h8)
    · exact .inr h5
  | exc e st' =>
    exact ⟨h.1, hk.trans h.2.1 hi, fun hn' => (h.2.2.1 hn').trans (hs hn'), fun hj => (h.2.2.2 hj).trans (hn hj)⟩
  | ub => exact h

theorem QE.toX {w : World} (h : QE sig w o) : QX sig b w o := by
  cases o with
  | ok st' => exact h.elim
  | exc e st' => exact h
  | ub => exact h

theorem QE.toF (h : QE sig st.world o) : QF sig st o := by
  cases o with
  | ok st' => exact h.elim
  | exc e st' => exact h
  | ub => exact h

theorem QE.trans {w w' : World} (h : QE sig w' o) (hk : Kept [] w w') : QE sig w o := by
  cases o with
  | ok st' => exact h
  | exc e st' => exact ⟨h.1, hk.trans' h.2⟩
  | ub => exact h

end

/-- A whole expression. -/
theorem R.expr (hr : R sem sig rec) {c : List (Node P)} {st : State P} (hI : Inv sig st) (hne : st.scopes ≠ []) (hc : Whole sig c) :
    Sat (rec (.rod c) st) fun
      | .ok st' => Inv sig st' ∧ Kept [] st.world st'.world ∧ headNames st' = headNames st ∧ st'.status = .next ∧
          st'.swapped = st.swapped ∧ (outs sig T0 c).k ≤ st'.stack.length ∧ st'.scopes ≠ [] ∧
          st'.scopes.tail = st.scopes.tail ∧ st'.Defined sem
      | .exc _ st' => Inv sig st' ∧ Kept [] st.world st'.world ∧ st'.scopes ≠ []
      | .ub => False := by
  refine (hr.run (Claim.rod (na := False) (j := .expr) (b := st.swapped) (ids := []) hI hc.1 (Sh.zero hne rfl) fun h => h.elim)).imp
    fun o ho => ?_
  cases o with
  | ok st' =>
    obtain ⟨⟨h1, h2, h3, h4⟩, h5⟩ := ho
    rcases h4 with ⟨h6, ids', h7, _⟩ | ⟨_, h6, _⟩
    · refine ⟨h1, h2, h3 rfl, h6, h7.flag hc.2, ?_, h7.ne, ?_, (h5 _ rfl).1⟩
      · have := h7.cur; rw [Ty.cur_none hc.2] at this; exact this
      · cases hs : st.scopes with
        | nil => exact absurd hs hne
        | cons s ss =>
          obtain ⟨s', h8⟩ := (h5 _ rfl).2.2 rfl s ss hs
          simp [h8]
    · cases h6
  | exc e st' => exact ⟨ho.1.1, ho.1.2.1, ho.2.ne rfl rfl hne⟩
  | ub => exact ho.1

/-- A block. -/
theorem R.block (hr : R sem sig rec) {c : List (Node P)} {st : State P} (hI : Inv sig st) (hc : Body sig c) :
    Sat (rec (Exec.block c) st) fun
      | .ok st' => Inv sig st' ∧ Kept [] st.world st'.world ∧ st'.swapped = st.swapped ∧ (st'.status = .ret → RetTop st') ∧
          st'.scopes = st.scopes ∧ st'.Defined sem
      | .exc _ st' => Inv sig st' ∧ Kept [] st.world st'.world ∧ st'.scopes = st.scopes
      | .ub => False := by
  refine (hr.run (Claim.block hI hc)).imp fun o ho => ?_
  cases o with
  | ok st' => exact ⟨ho.1.1, ho.1.2.1, ho.1.2.2.1, ho.1.2.2.2, (ho.2 _ rfl).2.1 rfl, (ho.2 _ rfl).1⟩
  | exc e st' => exact ⟨ho.1.1, ho.1.2, (ho.2 _ rfl).2.1 rfl⟩
  | ub => exact ho.1

theorem R.blockX (hr : R sem sig rec) {c : List (Node P)} {st : State P} (hI : Inv sig st) (hc : Body sig c) :
    Sat (rec (Exec.block c) st) (QX sig st.swapped st.world) := hr.claim (Claim.block hI hc)

theorem afterBody_ret {s c b : Status} (h : (afterBody s c b).2 = .ret) : s = .ret := by
  unfold afterBody at h
  split at h
  · cases h
  · split at h
    · cases h
    · split at h
      · cases h
      · exact h

theorem retTop_of_stack {st st' : State P} (h : st'.stack = st.stack) (hr : RetTop st) : RetTop st' := by
  obtain ⟨r, l, h1, h2⟩ := hr
  exact ⟨r, l, h.trans h1, h2⟩

theorem modify_defers {l : List (PtcArgs P)} (h : ∀ p ∈ l, ∀ d ∈ p.defers, Whole sig d.2) (id : Nat)
    (f : PtcArgs P → PtcArgs P) (hf : ∀ p ∈ l, ∀ d ∈ (f p).defers, Whole sig d.2) :
    ∀ p ∈ l.modify id f, ∀ d ∈ p.defers, Whole sig d.2 := by
  intro p hp
  obtain ⟨i, hi⟩ := List.mem_iff_getElem?.1 hp
  rw [List.getElem?_modify] at hi
  split at hi
  · have hi' : Option.map f l[i]? = some p := hi
    rw [Option.map_eq_some_iff] at hi'
    obtain ⟨q, hq, rfl⟩ := hi'
    exact hf q (List.mem_of_getElem? hq)
  · exact h p (List.mem_of_getElem? (by simpa using hi))

theorem clauses_drop : ∀ (cs : List (Clause P)) (k : Nat), TypedClauses sig cs → TypedClauses sig (cs.drop k)
  | cs, 0, h => h
  | [], _ + 1, _ => by simp [TypedClauses]
  | .mk _ _ _ _ :: cs, k + 1, h => by
    unfold TypedClauses at h
    exact clauses_drop cs k h.2

theorem lookupName_setName (n m : Name) (r : Ref) : ∀ (l : List (Name × Ref)),
    lookupName n (setName m r l) = if m = n then some r else lookupName n l
  | [] => by simp [setName, lookupName]
  | (m', r') :: l => by
    unfold setName
    by_cases h : m' = m
    · subst h
      simp only [if_true, lookupName]
      split <;> rfl
    · rw [if_neg h]
      simp only [lookupName, lookupName_setName n m r l]
      by_cases h1 : m' = n
      · subst h1
        rw [if_pos rfl, if_neg (fun h2 => h h2.symm), if_pos rfl]
      · rw [if_neg h1, if_neg h1]

theorem kept_some {w w' : World} (hk : Kept [] w w') (hc : Clean w) {id : Nat} (h : (w.env id).value ≠ none) :
    (w'.env id).value ≠ none := by
  have hlt : id < w.nvars := by
    by_contra hge
    exact h (hc id (by omega))
  exact fun h' => h ((hk.same id hlt (by simp)).1 h')

theorem headNames_modScope (st : State P) (f : List (Name × Ref) → List (Name × Ref)) :
    headNames (st.modScope fun s => { s with names := f s.names }) = (headNames st).map f := by
  unfold headNames State.modScope
  split
  · rename_i h; simp [h]
  · rename_i s ss h; simp [h]

theorem tail_modScope (st : State P) (f : Scope P → Scope P) : (st.modScope f).scopes.tail = st.scopes.tail := by
  unfold State.modScope
  split
  · rfl
  · rename_i s ss h; simp [h]

/-- `Level` depends on the flag and the parents only. -/
theorem Level.of {st st' : State P} (h : Level st) (hw : st'.swapped = st.swapped) (ht : st'.scopes.tail = st.scopes.tail) :
    Level st' := by
  unfold Level at *
  rw [hw, h]
  unfold State.swapped
  dsimp only
  rw [ht]

theorem Inv.pop {st : State P} (h : Inv sig st) : Inv sig { st with scopes := st.scopes.tail } :=
  ⟨h.funcs, fun s hs => h.defers s (List.mem_of_mem_tail hs), h.ptcs, h.clean⟩

theorem stack_of {st st' : State P} (h0 : st'.stk0 = st.stk0) (h1 : st'.stk1 = st.stk1) (hw : st'.swapped = st.swapped) :
    st'.stack = st.stack := by
  unfold State.stack; rw [h0, h1, hw]

/-- A block that is executed in the parent. -/
theorem R.aside (hr : R sem sig rec) {c : List (Node P)} {st : State P} (hI : Inv sig st) (hne : st.scopes ≠ []) (hl : Level st)
    (hc : Body sig c) : Sat (Exec.aside rec (Exec.block c) st) (QX sig st.swapped st.world) := by
  unfold Exec.aside
  split
  · exact absurd ‹_› hne
  · rename_i s ss hs
    have hI1 : Inv sig { st with scopes := ss } := by have := hI.pop; rw [hs] at this; exact this
    have hl1 : st.swapped = ({ st with scopes := ss } : State P).swapped := by
      have := hl; unfold Level at this; rw [hs] at this; exact this
    have hsw : s.swapped = st.swapped := by unfold State.swapped; rw [hs]
    have hIf : ∀ st' : State P, Inv sig st' → Inv sig { st' with scopes := s :: st'.scopes } := by
      intro st' h'
      refine ⟨h'.funcs, fun s' hs' => ?_, h'.ptcs, h'.clean⟩
      rcases List.mem_cons.1 hs' with rfl | hs'
      · exact hI.defers _ (by simp [hs])
      · exact h'.defers _ hs'
    refine sat_onOut (hr.block hI1 hc) (fun hu => hu) (fun st' ho => Sat.ok ?_) fun e st' ho => Sat.exc ?_
    · obtain ⟨h1, h2, h3, h4, h5, _⟩ := ho
      refine ⟨hIf _ h1, h2, hsw, fun hx => ?_⟩
      exact retTop_of_stack (st := st') (stack_of rfl rfl (by rw [h3, ← hl1]; exact hsw)) (h4 hx)
    · exact ⟨hIf _ ho.1, ho.2.1⟩

theorem Inv.takeDefer {st : State P} (h : Inv sig st) {s : Scope P} {ss : List (Scope P)} (hs : st.scopes = s :: ss)
    (ev : Event) {d : List (Nat × List (Node P))} (hd : ∀ x ∈ d, x ∈ s.defers) :
    Inv sig (({ st with scopes := { s with defers := d } :: ss } : State P).log ev) := by
  refine ⟨h.funcs, fun s' hs' => ?_, h.ptcs, h.clean⟩
  have hs1 : s' ∈ ({ s with defers := d } : Scope P) :: ss := hs'
  rcases List.mem_cons.1 hs1 with rfl | hs1
  · exact fun x hx => h.defers s (by simp [hs]) x (hd x hx)
  · exact h.defers s' (by simp [hs, hs1])

/-- The next element of a loop. -/
structure Bound (sig : P → Sig) (kn : Option Name) (r : Ref) (st st' : State P) : Prop where
  inv : Inv sig st'
  kept : Kept [] st.world st'.world
  swapped : st'.swapped = st.swapped
  tail : st'.scopes.tail = st.scopes.tail
  ne : st'.scopes ≠ []
  range : ∀ id, r.var? = some id → (st'.world.env id).value ≠ none
  key : ∀ l n id, headNames st' = some l → (lookupName n l).bind Ref.var? = some id → kn = some n →
    (st'.world.env id).value ≠ none

theorem pushSub_var (s : Subscript.Sub) (r : Ref) : (r.pushSub s).var? = r.var? := by cases r <;> rfl

theorem bindElement_bound {kn : Option Name} (mn : Name) {r : Ref} {st : State P} (e : Value × Subscript.Sub) (hI : Inv sig st)
    (hne : st.scopes ≠ []) (hr : ∀ id, r.var? = some id → (st.world.env id).value ≠ none)
    (hk : ∀ l n id, headNames st = some l → (lookupName n l).bind Ref.var? = some id → kn = some n →
      (st.world.env id).value ≠ none) : Bound sig kn r st (bindElement kn mn r e st) := by
  obtain ⟨s, ss, hs⟩ : ∃ s ss, st.scopes = s :: ss := by
    cases h : st.scopes with
    | nil => exact absurd h hne
    | cons s ss => exact ⟨s, ss, rfl⟩
  have hw : ∀ s : Scope P, ({ s with names := setName mn (r.pushSub e.2) s.names } : Scope P).swapped = s.swapped := fun _ => rfl
  -- the second half
  have fin : ∀ st₁ : State P, Inv sig st₁ → Kept [] st.world st₁.world → st₁.swapped = st.swapped →
      st₁.scopes.tail = st.scopes.tail → st₁.scopes ≠ [] →
      (∀ l n id, headNames st₁ = some l → (lookupName n l).bind Ref.var? = some id → kn = some n → (st₁.world.env id).value ≠ none) →
      Bound sig kn r st (st₁.modScope fun s => { s with names := setName mn (r.pushSub e.2) s.names }) := by
    intro st₁ h1 h2 h3 h4 h5 h6
    refine ⟨h1.modScope fun _ => rfl, by simpa using h2, (modScope_swapped _ hw).trans h3, (tail_modScope _ _).trans h4,
      by simpa using h5, ?_, ?_⟩
    · intro id hid
      rw [modScope_world]
      exact kept_some h2 hI.clean (hr id hid)
    · intro l n id hl hid hkn
      rw [modScope_world]
      rw [headNames_modScope] at hl
      obtain ⟨l', hl', rfl⟩ := Option.map_eq_some_iff.1 hl
      rw [lookupName_setName] at hid
      split at hid
      · rw [Option.bind_some, pushSub_var] at hid
        exact kept_some h2 hI.clean (hr id hid)
      · exact h6 l' n id hl' hid hkn
  unfold bindElement
  cases kn with
  | none => exact fin st hI (Kept.refl _ _) rfl rfl hne fun l n id _ _ h => by cases h
  | some kn =>
    dsimp only
    unfold setKey
    cases hkey : (st.scopes.head?.bind fun s => lookupName kn s.names).bind Ref.var? with
    | some id =>
      dsimp only
      have hold : (st.world.env id).value ≠ none := by
        refine hk s.names kn id (by simp [headNames, hs]) ?_ rfl
        simpa [hs] using hkey
      have hkp := kept_initVar_old st e.1 true hold hI.clean
      refine fin (initVar st id e.1 true) (hI.kept rfl rfl rfl hkp) hkp rfl rfl hne ?_
      intro l n id' hl hid hn
      cases hn
      exact kept_some hkp hI.clean (hk l kn id' hl hid rfl)
    | none =>
      dsimp only
      have hw' : ∀ s : Scope P, ({ s with names := setName kn (.var (newVar st).1 []) s.names } : Scope P).swapped = s.swapped :=
        fun _ => rfl
      have hkp := kept_newInit st (fun s => { s with names := setName kn (.var (newVar st).1 []) s.names }) e.1 true
      have hI1 : Inv sig ((newVar st).2.modScope fun s => { s with names := setName kn (.var (newVar st).1 []) s.names }) :=
        Inv.modScope (hI.kept (st' := (newVar st).2) rfl rfl rfl (kept_newVar st)) fun _ => rfl
      refine fin (initVar _ (newVar st).1 e.1 true) ⟨hI1.funcs, hI1.defers, hI1.ptcs, hkp.clean hI.clean⟩ hkp
        (modScope_swapped (newVar st).2 hw') (tail_modScope (newVar st).2 _) ?_ ?_
      · show (State.modScope _ _).scopes ≠ []
        simpa [newVar] using hne
      · intro l n id' hl hid hn
        cases hn
        have hl' : headNames ((newVar st).2.modScope fun s => { s with names := setName kn (.var (newVar st).1 []) s.names }) = some l := hl
        rw [headNames_modScope] at hl'
        obtain ⟨l', _, rfl⟩ := Option.map_eq_some_iff.1 hl'
        rw [lookupName_setName, if_pos rfl] at hid
        have : (newVar st).1 = id' := by simpa [Ref.var?] using hid
        subst this
        simp [initVar]

theorem Inv.resume {st : State P} (h : Inv sig st) {id : Nat} {p : PtcArgs P} (hp : st.ptcs[id]? = some p) (ev : Event) :
    Inv sig (({ st with
          ptcs := st.ptcs.modify id fun p => { p with defers := [] },
          scopes := [⟨[], p.defers, false⟩], stk0 := [], stk1 := [], status := .next } : State P).log ev) := by
  refine ⟨h.funcs, fun s hs => ?_, modify_defers h.ptcs _ _ (by simp), h.clean⟩
  simp only [State.log, List.mem_singleton] at hs
  subst hs
  exact h.ptcs p (List.mem_of_getElem? hp)

theorem Inv.restore {st st' : State P} (h : Inv sig st) (h' : Inv sig st') : Inv sig (restore st st') :=
  ⟨h'.funcs, h.defers, h'.ptcs, h'.clean⟩

theorem QF.trans {st st₁ : State P} {o : Out P} (h : QF sig st₁ o) (hk : Kept [] st.world st₁.world) (h0 : st₁.stk0 = st.stk0)
    (h1 : st₁.stk1 = st.stk1) (h2 : st₁.status = st.status) : QF sig st o := by
  cases o with
  | ok st' =>
    obtain ⟨a, b, c, d, e⟩ := h
    exact ⟨a, hk.trans' b, c.trans h0, d.trans h1, e.trans h2⟩
  | exc e st' => exact ⟨h.1, hk.trans' h.2⟩
  | ub => exact h

/-- After a context has been entered, a piece is executed and the context is left. -/
theorem within_safe (hr : R sem sig rec) {names : List (Name × Ref)} {t : Task P} {st : State P} {Q : Out P → Prop}
    (hc : Claim sig t (entered names st) Q) (hq : ∀ o, Q o → QX sig st.swapped st.world o)
    (hw : (t.whole || t.inside) = true) : Sat (step sem rec (.within names t) st) (QX sig st.swapped st.world) := by
  unfold step; dsimp only
  have hkey : ∀ (t' : Task P) (st₁ st' : State P) (o : Out P) (s' : Scope P), After sem t' (st₁.log .done) o → t'.exits = true →
      st₁.scopes = s' :: st.scopes → o.state? = some st' → st'.scopes.tail = st.scopes := by
    intro t' st₁ st' o s' ha he hs ho
    obtain ⟨s'', h⟩ := (ha st' ho).2.2 (by simp [he]) s' st.scopes hs
    rw [h]; rfl
  have hsc : ∀ (st' : State P), st'.scopes.tail = st.scopes →
      (({ st' with scopes := st'.scopes.tail } : State P).log .leave).swapped = st.swapped := by
    intro st' h
    have hc : ∀ a b : State P, a.scopes = b.scopes → a.swapped = b.swapped := by
      intro a b h; unfold State.swapped; rw [h]
    exact hc _ _ h
  refine sat_onOut (hr.run hc) (fun hu => hq _ hu.1) (fun st₁ ho => ?_) fun e st₁ ho => ?_
  · obtain ⟨h1, h2, h3, h4⟩ := hq _ ho.1
    obtain ⟨s', hs'⟩ := (ho.2 _ rfl).2.2 (by simp [hw]) _ _ rfl
    refine sat_onOut (hr.run (Claim.exit (h1.log .done) (by simpa [State.log] using (by rw [hs']; simp : st₁.scopes ≠ []))
      fun h => retTop_of_stack rfl (h4 h))) (fun hu => hu.1) (fun st' ho' => Sat.ok ?_) fun e st' ho' => Sat.exc ?_
    · obtain ⟨⟨g1, g2, g3, g4⟩, g5⟩ := ho'
      have ht := hkey .exit st₁ st' _ s' g5 rfl hs' rfl
      refine ⟨(g1.pop).log _, h2.trans' g2, hsc _ ht, fun hx => ?_⟩
      refine retTop_of_stack (st := st') (stack_of rfl rfl ?_) (g4 hx)
      rw [hsc _ ht, g3, log_swapped, h3]
    · exact ⟨(ho'.1.1.pop).log _, h2.trans' ho'.1.2⟩
  · obtain ⟨h1, h2⟩ := hq _ ho.1
    obtain ⟨s', hs'⟩ := (ho.2 _ rfl).2.2 (by simp [hw]) _ _ rfl
    refine sat_onOut (hr.run (Claim.exitE (e := e) (h1.log .done)
      (by simpa [State.log] using (by rw [hs']; simp : st₁.scopes ≠ [])))) (fun hu => hu.1) (fun st' ho' => ho'.1.elim)
      fun e st' ho' => Sat.exc ?_
    exact ⟨(ho'.1.1.pop).log _, h2.trans' ho'.1.2⟩

theorem sat_andThen {o : Option (Out P)} {R Q : Out P → Prop} {k : State P → Option (Out P)} (ho : Sat o R) (hu : ¬ R .ub)
    (hk : ∀ st, R (.ok st) → Sat (k st) Q) (hh : ∀ e st, R (.exc e st) → Q (.exc e st)) : Sat (andThen o k) Q :=
  sat_onOut ho hu hk fun e st h => Sat.exc (hh e st h)

theorem exit_safe (hr : R sem sig rec) {st : State P} (hI : Inv sig st) (hne : st.scopes ≠ [])
    (hret : st.status = .ret → RetTop st) (hd : Task.Defined (P := P) .exit st) :
    Sat (step sem rec .exit st) (QX sig st.swapped st.world) := by
  unfold step; dsimp only
  split
  · exact absurd ‹_› hne
  · rename_i s ss hs
    have hsw : s.swapped = st.swapped := by unfold State.swapped; rw [hs]
    split
    · exact Sat.ok ⟨hI, Kept.refl _ _, rfl, hret⟩
    · split
      · rename_i hst
        obtain ⟨r, l, h1, h2⟩ := hret hst
        refine sat_top h1 ?_
        have hN : ∀ r : Ref, r ≠ .invalid → Sat (rec (.exitN r st.status) (st.setStack (.invalid :: l)))
            (QX sig st.swapped st.world) := by
          intro r hr'
          refine (hr.claim (Claim.exitN (hI.setStack _) (by simpa using hne) fun _ => hr')).imp fun o ho => ?_
          simpa using ho
        cases r with
        | ptc id =>
          dsimp only
          rw [if_pos (hd id (by rw [h1]; simp))]
          refine Sat.ok ⟨?_, Kept.refl _ _, hsw, fun _ => ?_⟩
          · refine ⟨hI.funcs, fun s' hs' => ?_, ?_, hI.clean⟩
            · have hs1 : s' ∈ ({ s with defers := [] } : Scope P) :: ss := hs'
              rcases List.mem_cons.1 hs1 with rfl | hs1
              · simp
              · exact hI.defers s' (by simp [hs, hs1])
            · refine modify_defers hI.ptcs _ _ fun p hp d hd' => ?_
              rcases List.mem_append.1 hd' with h | h
              · exact hI.ptcs p hp d h
              · exact hI.defers s (by simp [hs]) d h
          · exact retTop_of_stack (st := st) (stack_of rfl rfl hsw) ⟨_, _, h1, h2⟩
        | invalid => exact absurd rfl h2
        | void => exact hN _ (by simp)
        | temp v m => exact hN _ (by simp)
        | var id m => exact hN _ (by simp)
      · rename_i hst
        exact hr.claim (Claim.exitN hI hne fun h => absurd h hst)

theorem exitN_safe (hr : R sem sig rec) {saved : Ref} {status : Status} {st : State P} (hI : Inv sig st) (hne : st.scopes ≠ [])
    (hret : status = .ret → saved ≠ .invalid) : Sat (step sem rec (.exitN saved status) st) (QX sig st.swapped st.world) := by
  unfold step; dsimp only
  split
  · exact absurd ‹_› hne
  · rename_i s ss hs
    have hsw : s.swapped = st.swapped := by unfold State.swapped; rw [hs]
    split
    · refine Sat.ok ?_
      by_cases hv : saved = .invalid
      · subst hv
        exact ⟨hI.setStatus _, Kept.refl _ _, rfl, fun h => absurd rfl (hret h)⟩
      · have hp : QX sig st.swapped st.world (.ok ((st.push saved).setStatus status)) := by
          refine ⟨(hI.push _).setStatus _, by simpa [State.setStatus] using Kept.refl [] st.world, by simp, fun _ => ?_⟩
          exact ⟨saved, st.stack, by simp, hv⟩
        cases saved with
        | invalid => exact absurd rfl hv
        | void => exact hp
        | temp v m => exact hp
        | var id m => exact hp
        | ptc id => exact hp
    · rename_i d hd
      have hI1 := hI.takeDefer hs (.run d.1) (d := s.defers.dropLast) fun x hx => List.dropLast_subset _ hx
      refine sat_onOut (hr.expr hI1 (by simp [State.log]) (hI.defers s (by simp [hs]) d (List.mem_of_getLast? hd)))
        (fun hu => hu) (fun st' ho => ?_) fun e st' ho => ?_
      · obtain ⟨h1, h2, _, h4, h5, _, h7, _⟩ := ho
        refine sat_next h4 ?_
        refine (hr.claim (Claim.exitN h1 h7 hret)).imp fun o ho' => ?_
        have : st'.swapped = st.swapped := h5.trans hsw
        rw [this] at ho'
        exact ho'.trans h2
      · exact (hr.claim (Claim.exitE (e := e) ho.1 ho.2.2)).imp fun o ho' => (ho'.trans ho.2.1).toX

theorem exitE_safe (hr : R sem sig rec) {e : Value} {st : State P} (hI : Inv sig st) (hne : st.scopes ≠ []) :
    Sat (step sem rec (.exitE e) st) (QE sig st.world) := by
  unfold step; dsimp only
  split
  · exact absurd ‹_› hne
  · rename_i s ss hs
    split
    · exact Sat.exc ⟨hI, Kept.refl _ _⟩
    · rename_i d hd
      have hI1 := hI.takeDefer hs (.run d.1) (d := s.defers.dropLast) fun x hx => List.dropLast_subset _ hx
      refine sat_onOut (hr.expr hI1 (by simp [State.log]) (hI.defers s (by simp [hs]) d (List.mem_of_getLast? hd)))
        (fun hu => hu) (fun st' ho => ?_) fun e st' ho => ?_
      · obtain ⟨h1, h2, _, h4, h5, _, h7, _⟩ := ho
        exact sat_next h4 ((hr.claim (Claim.exitE (e := e) h1 h7)).imp fun o ho' => ho'.trans h2)
      · exact (hr.claim (Claim.exitE (e := e) ho.1 ho.2.2)).imp fun o ho' => ho'.trans ho.2.1

theorem top_of_length {l : List Ref} (h : 1 ≤ l.length) : ∃ r l', l = r :: l' := by
  cases l with
  | nil => simp at h
  | cons r l => exact ⟨r, l, rfl⟩

theorem find_safe (hr : R sem sig rec) {v : Value} {rest : List (Clause P)} {k : Nat} {target : Option Nat} {all : List (Clause P)}
    {st : State P} (hI : Inv sig st) (hne : st.scopes ≠ []) (hs : st.status = .next) (h1 : TypedClauses sig rest)
    (h2 : TypedClauses sig all) : Sat (step sem rec (.find v rest k target all) st) (QX sig st.swapped st.world) := by
  cases rest with
  | nil =>
    unfold step; dsimp only
    cases target with
    | none => exact Sat.ok ⟨hI, Kept.refl _ _, rfl, fun h => by rw [hs] at h; cases h⟩
    | some k =>
      refine hr.claim (Claim.within hI (Claim.clauses (hI.entered _) (by simp [entered, State.log]) hs
        (clauses_drop all k h2)) (fun o ho => ho) rfl)
  | cons c cs =>
    obtain ⟨kd, l, b, ns⟩ := c
    unfold TypedClauses at h1
    obtain ⟨⟨hw, hk, hb⟩, hcs⟩ := h1
    -- the labels, then the comparison
    have key : ∀ kd : ClauseKind, (∀ st' : State P, (outs sig T0 l).k ≤ st'.stack.length → st'.Defined sem →
          ∃ x, clauseMatches st' v kd = some x ∧ x ≠ .ub) →
        Sat (andThen (rec (.rod l) st) fun st => expectNext st <|
          match clauseMatches st v kd with
          | none => some .ub
          | some .ub => some .ub
          | some .throw => some (.exc message st)
          | some (.ok true) => rec (.find v [] k (some k) all) st
          | some (.ok false) => rec (.find v cs (k + 1) target all) st) (QX sig st.swapped st.world) := by
      intro kd hm
      refine sat_andThen (hr.expr hI hne hw) (fun hu => hu) (fun st' ho => ?_) fun e st' ho => ⟨ho.1, ho.2.1⟩
      obtain ⟨g1, g2, _, g4, g5, g6, g7, _, g9⟩ := ho
      refine sat_next g4 ?_
      obtain ⟨x, hx, hu⟩ := hm st' g6 g9
      rw [hx]
      have fin : ∀ rest target, TypedClauses sig rest →
          ∀ k, Sat (rec (.find v rest k target all) st') (QX sig st.swapped st.world) := by
        intro rest target h k
        refine (hr.claim (Claim.find g1 g7 g4 h h2)).imp fun o ho => ?_
        rw [g5] at ho
        exact ho.trans g2
      cases x with
      | ub => exact absurd rfl hu
      | throw => exact Sat.exc ⟨g1, g2⟩
      | ok x =>
        cases x with
        | true => exact fin [] _ (by simp [TypedClauses]) _
        | false => exact fin cs _ hcs _
    have hmap : ∀ (x : Res Value) (f : Value → Bool), x ≠ .ub → x.map f ≠ .ub := by
      intro x f hx; cases x <;> simp_all [Res.map]
    unfold step
    cases kd with
    | default =>
      exact (hr.claim (Claim.find hI hne hs hcs h2))
    | case =>
      refine key .case fun st' hl hd => ?_
      have hk' : 1 ≤ (outs sig T0 l).k := hk
      obtain ⟨r, l', hst⟩ := top_of_length (hk'.trans hl)
      refine ⟨_, by unfold clauseMatches; dsimp only; rw [hst], ?_⟩
      exact hmap _ _ (defined_stack hd r (by simp [hst])).1
    | each lc uc =>
      refine key (.each lc uc) fun st' hl hd => ?_
      have hk' : 2 ≤ (outs sig T0 l).k := hk
      obtain ⟨r, l', hst⟩ := top_of_length ((by omega : 1 ≤ (outs sig T0 l).k).trans hl)
      obtain ⟨r', l'', hst'⟩ := top_of_length (l := l') (by rw [hst] at hl; simp at hl; omega)
      subst hst'
      refine ⟨_, by unfold clauseMatches; dsimp only; rw [hst], ?_⟩
      have hd1 := (defined_stack hd r (by simp [hst])).1
      have hd2 := (defined_stack hd r' (by simp [hst])).1
      cases h3 : deref st'.world r' with
      | ub => exact absurd h3 hd2
      | throw => simp [Res.bind]
      | ok x => simp only [Res.bind]; exact hmap _ _ hd1

theorem clauses_safe (hr : R sem sig rec) {cs : List (Clause P)} {st : State P} (hI : Inv sig st) (hne : st.scopes ≠ [])
    (hs : st.status = .next) (h1 : TypedClauses sig cs) : Sat (step sem rec (.clauses cs) st) (QX sig st.swapped st.world) := by
  cases cs with
  | nil => exact Sat.ok ⟨hI, Kept.refl _ _, rfl, fun h => by rw [hs] at h; cases h⟩
  | cons c cs =>
    obtain ⟨kd, l, b, ns⟩ := c
    unfold TypedClauses at h1
    obtain ⟨⟨_, _, hb⟩, hcs⟩ := h1
    unfold step; dsimp only
    refine sat_andThen (hr.run (Claim.rod (na := False) (b := st.swapped) (ids := []) hI hb.1 (Sh.zero hne rfl) fun h => h.elim))
      (fun hu => hu.1) (fun st' ho => ?_) fun e st' ho => ⟨ho.1.1, ho.1.2.1⟩
    obtain ⟨g1, g2, g3, g4⟩ := QC.toX hb.2 ho.1
    have hne' := ho.2.ne rfl rfl hne
    split
    · rename_i hn
      refine (hr.claim (Claim.clauses g1 hne' hn hcs)).imp fun o ho => ?_
      rw [g3] at ho
      exact ho.trans g2
    · refine Sat.ok ?_
      split
      · exact ⟨g1.setStatus _, g2, g3, nofun⟩
      · exact ⟨g1, g2, g3, g4⟩

/-- The end of a turn of a loop. -/
theorem QX.status {b : Bool} {w : World} {st : State P} {c br : Status} (h1 : Inv sig st) (h2 : Kept [] w st.world)
    (h3 : st.swapped = b) (h4 : st.status = .ret → RetTop st) :
    QX sig b w (.ok (st.setStatus (afterBody st.status c br).2)) :=
  ⟨h1.setStatus _, h2, h3, fun h => retTop_of_stack rfl (h4 (afterBody_ret h))⟩

theorem doL_safe (hr : R sem sig rec) {b : List (Node P)} {neg : Bool} {c k : List (Node P)} {st : State P} (hI : Inv sig st)
    (hne : st.scopes ≠ []) (hb : Body sig b) (hc : Whole sig c) (h1 : 1 ≤ (outs sig T0 c).k) (hk : Body sig k) :
    Sat (step sem rec (.doL b neg c k) st) (QX sig st.swapped st.world) := by
  unfold step; dsimp only
  refine sat_andThen (hr.block hI hb) (fun hu => hu) (fun st₁ ho => ?_) fun e st' ho => ⟨ho.1, ho.2.1⟩
  obtain ⟨g1, g2, g3, g4, g5, _⟩ := ho
  split
  · refine sat_andThen (hr.expr (g1.setStatus _) (by rw [← g5] at hne; exact hne) hc) (fun hu => hu) (fun st₂ ho => ?_)
      fun e st' ho => ⟨ho.1, g2.trans' ho.2.1⟩
    obtain ⟨f1, f2, _, f4, f5, f6, f7, _, f9⟩ := ho
    have f5' : st₂.swapped = st.swapped := f5.trans g3
    have f2' : Kept [] st.world st₂.world := g2.trans' f2
    refine sat_next f4 ?_
    obtain ⟨r, l, hst⟩ := top_of_length (h1.trans f6)
    refine sat_top hst (sat_value (defined_stack f9 r (by simp [hst])).1 (fun _ => ⟨f1, f2'⟩) fun v _ => ?_)
    split
    · refine (hr.blockX f1 hk).imp fun o ho => ?_
      rw [f5'] at ho; exact ho.trans f2'
    · refine (hr.claim (Claim.doL f1 f7 hb hc h1 hk)).imp fun o ho => ?_
      rw [f5'] at ho; exact ho.trans f2'
  · exact Sat.ok (QX.status g1 g2 g3 g4)

theorem whileL_safe (hr : R sem sig rec) {b : List (Node P)} {neg : Bool} {c k : List (Node P)} {st : State P} (hI : Inv sig st)
    (hne : st.scopes ≠ []) (hb : Body sig b) (hc : Whole sig c) (h1 : 1 ≤ (outs sig T0 c).k) (hk : Body sig k) :
    Sat (step sem rec (.whileL neg c b k) st) (QX sig st.swapped st.world) := by
  unfold step; dsimp only
  refine sat_andThen (hr.expr hI hne hc) (fun hu => hu) (fun st₂ ho => ?_) fun e st' ho => ⟨ho.1, ho.2.1⟩
  obtain ⟨f1, f2, _, f4, f5, f6, f7, _, f9⟩ := ho
  refine sat_next f4 ?_
  obtain ⟨r, l, hst⟩ := top_of_length (h1.trans f6)
  refine sat_top hst (sat_value (defined_stack f9 r (by simp [hst])).1 (fun _ => ⟨f1, f2⟩) fun v _ => ?_)
  split
  · refine (hr.blockX f1 hk).imp fun o ho => ?_
    rw [f5] at ho; exact ho.trans f2
  · refine sat_andThen (hr.block f1 hb) (fun hu => hu) (fun st₁ ho => ?_) fun e st' ho => ⟨ho.1, f2.trans' ho.2.1⟩
    obtain ⟨g1, g2, g3, g4, g5, _⟩ := ho
    split
    · refine (hr.claim (Claim.whileL (g1.setStatus _) (by rw [← g5] at f7; exact f7) hb hc h1 hk)).imp fun o ho => ?_
      rw [setStatus_swapped, g3, f5] at ho; exact ho.trans (f2.trans' g2)
    · exact Sat.ok (QX.status g1 (f2.trans' g2) (g3.trans f5) g4)

theorem eachInit_safe (hr : R sem sig rec) {kn : Option Name} {mn : Name} {i b k : List (Node P)} {st : State P} (hI : Inv sig st)
    (hne : st.scopes ≠ []) (hl : Level st) (hn : ∀ l, headNames st = some l → ∀ n, (lookupName n l).bind Ref.var? = none)
    (hi : Whole sig i) (h1 : 1 ≤ (outs sig T0 i).k) (hb : Body sig b) (hk : Body sig k) :
    Sat (step sem rec (.eachInit kn mn i b k) st) (QX sig st.swapped st.world) := by
  unfold step; dsimp only
  refine sat_andThen (hr.expr hI hne hi) (fun hu => hu) (fun st₁ ho => ?_) fun e st' ho => ⟨ho.1, ho.2.1⟩
  obtain ⟨f1, f2, f3, f4, f5, f6, f7, f8, f9⟩ := ho
  refine sat_next f4 ?_
  obtain ⟨r, l, hst⟩ := top_of_length (h1.trans f6)
  refine sat_top hst ?_
  have hd := (defined_stack f9 r (by simp [hst])).1
  have hw : ∀ s : Scope P, ({ s with names := setName mn r s.names } : Scope P).swapped = s.swapped := fun _ => rfl
  have hI2 : Inv sig ((st₁.modScope fun s => { s with names := setName mn r s.names }).setStack (.invalid :: l)) :=
    Inv.setStack (f1.modScope (f := fun s => { s with names := setName mn r s.names }) fun _ => rfl) _
  have hN2 : headNames ((st₁.modScope fun s => { s with names := setName mn r s.names }).setStack (.invalid :: l)) =
      (headNames st).map (setName mn r) := by
    have : headNames ((st₁.modScope fun s => { s with names := setName mn r s.names }).setStack (.invalid :: l)) =
      headNames (st₁.modScope fun s => { s with names := setName mn r s.names }) := by simp [headNames]
    rw [this, headNames_modScope, f3]
  have hW2 : ((st₁.modScope fun s => { s with names := setName mn r s.names }).setStack (.invalid :: l)).world = st₁.world := by
    simp
  have hS2 : ((st₁.modScope fun s => { s with names := setName mn r s.names }).setStack (.invalid :: l)).swapped = st.swapped := by
    rw [setStack_swapped, modScope_swapped _ hw, f5]
  have hT2 : ((st₁.modScope fun s => { s with names := setName mn r s.names }).setStack (.invalid :: l)).scopes.tail =
      st.scopes.tail := by
    have : ((st₁.modScope fun s => { s with names := setName mn r s.names }).setStack (.invalid :: l)).scopes =
      (st₁.modScope fun s => { s with names := setName mn r s.names }).scopes := by simp
    rw [this, tail_modScope, f8]
  have hX2 : ((st₁.modScope fun s => { s with names := setName mn r s.names }).setStack (.invalid :: l)).status = .next := by
    simpa using f4
  have hE2 : ((st₁.modScope fun s => { s with names := setName mn r s.names }).setStack (.invalid :: l)).scopes ≠ [] := by
    simpa using f7
  generalize (st₁.modScope fun s => { s with names := setName mn r s.names }).setStack (.invalid :: l) = st₂ at *
  rw [hW2]
  have hK2 : Kept [] st.world st₂.world := by rw [hW2]; exact f2
  refine sat_value hd (fun _ => ⟨hI2, hK2⟩) fun v hv => ?_
  have hvar : ∀ id, r.var? = some id → (st₂.world.env id).value ≠ none := by
    intro id hid hnone
    rw [hW2] at hnone
    cases r <;> cases hid
    unfold deref Subscript.Ref.readonly at hv
    simp [Ref.toSub, hnone] at hv
  have hEl : ∀ es, Sat (rec (.eachL es kn mn r b k) st₂) (QX sig st.swapped st.world) := by
    intro es
    refine (hr.claim (Claim.eachL hI2 hE2 (hl.of hS2 hT2) hX2 hvar ?_ hb hk)).imp fun o ho => ?_
    · intro l n id hl hid _
      rw [hN2] at hl
      obtain ⟨l', hl', rfl⟩ := Option.map_eq_some_iff.1 hl
      rw [lookupName_setName] at hid
      split at hid
      · exact hvar id hid
      · rw [hn l' hl' n] at hid; cases hid
    · rw [hS2] at ho; exact ho.trans hK2
  have hlast : Sat (match elements v with
      | none => some (.exc message st₂)
      | some es => rec (.eachL es kn mn r b k) st₂) (QX sig st.swapped st.world) := by
    split
    · exact Sat.exc ⟨hI2, hK2⟩
    · exact hEl _
  cases v with
  | null => exact Sat.ok ⟨hI2, hK2, hS2, fun h => by rw [hX2] at h; cases h⟩
  | _ => exact hlast

theorem eachL_safe (hr : R sem sig rec) {es : List (Value × Subscript.Sub)} {kn : Option Name} {mn : Name} {r : Ref}
    {b k : List (Node P)} {st : State P} (hI : Inv sig st) (hne : st.scopes ≠ []) (hl : Level st)
    (hvar : ∀ id, r.var? = some id → (st.world.env id).value ≠ none)
    (hkey : ∀ l n id, headNames st = some l → (lookupName n l).bind Ref.var? = some id → kn = some n → (st.world.env id).value ≠ none)
    (hb : Body sig b) (hk : Body sig k) (hd : Task.Defined (.eachL es kn mn r b k) st) :
    Sat (step sem rec (.eachL es kn mn r b k) st) (QX sig st.swapped st.world) := by
  cases es with
  | nil => unfold step; dsimp only; exact hr.aside hI hne hl hk
  | cons e es =>
    unfold step; dsimp only
    have hB := bindElement_bound (kn := kn) mn e hI hne hvar hkey
    have hd : deref (bindElement kn mn r e st).world (r.pushSub e.2) ≠ .ub := hd
    generalize bindElement kn mn r e st = st₁ at *
    refine sat_value hd (fun _ => ⟨hB.inv, hB.kept⟩) fun v _ => ?_
    refine sat_andThen (hr.block hB.inv hb) (fun hu => hu) (fun st₂ ho => ?_) fun e st' ho => ⟨ho.1, hB.kept.trans' ho.2.1⟩
    obtain ⟨g1, g2, g3, g4, g5, _⟩ := ho
    split
    · rename_i hp
      have hx : (st₂.setStatus (afterBody st₂.status .contFor .brkFor).2).status = .next := by
        show (afterBody st₂.status .contFor .brkFor).2 = .next
        unfold afterBody at hp ⊢
        split at hp
        · rw [if_pos ‹_›]
        · split at hp
          · rw [if_neg ‹_›, if_pos ‹_›]
          · split at hp <;> cases hp
      refine (hr.claim (Claim.eachL (st := st₂.setStatus (afterBody st₂.status .contFor .brkFor).2) (g1.setStatus _)
        (by have := hB.ne; rw [← g5] at this; exact this) (hl.of (g3.trans hB.swapped) ((congrArg List.tail g5).trans hB.tail)) hx
        (fun id hid => kept_some g2 hB.inv.clean (hB.range id hid)) (fun l n id h1 h2 h3 => ?_) hb hk)).imp fun o ho => ?_
      · have h1' : headNames st₁ = some l := by
          rw [← h1]; show st₁.scopes.head?.map _ = st₂.scopes.head?.map _; rw [g5]
        exact kept_some g2 hB.inv.clean (hB.key l n id h1' h2 h3)
      · rw [setStatus_swapped, g3, hB.swapped] at ho; exact ho.trans (hB.kept.trans' g2)
    · exact Sat.ok (QX.status g1 (hB.kept.trans' g2) (g3.trans hB.swapped) g4)

theorem forInit_safe (hr : R sem sig rec) {i c s b k : List (Node P)} {st : State P} (hI : Inv sig st) (hne : st.scopes ≠ [])
    (hl : Level st) (hi : TypedSeq sig .init T0 i) (ha : (outs sig T0 i).alt = none) (hc : Whole sig c) (hs : Whole sig s)
    (hb : Body sig b) (hk : Body sig k) : Sat (step sem rec (.forInit i c s b k) st) (QX sig st.swapped st.world) := by
  unfold step; dsimp only
  refine sat_andThen (hr.run (Claim.rod (na := False) (b := st.swapped) (ids := []) hI hi (Sh.zero hne rfl) fun h => h.elim))
    (fun hu => hu.1) (fun st' ho => ?_) fun e st' ho => ⟨ho.1.1, ho.1.2.1⟩
  obtain ⟨⟨h1, h2, _, h4⟩, h5⟩ := ho
  rcases h4 with ⟨h6, ids', h7, _⟩ | ⟨_, h6, _⟩
  · refine sat_next h6 ?_
    have hsw := h7.flag ha
    have ht : st'.scopes.tail = st.scopes.tail := by
      cases hs : st.scopes with
      | nil => exact absurd hs hne
      | cons s ss =>
        obtain ⟨s', h8⟩ := (h5 _ rfl).2.2 rfl s ss hs
        simp [h8]
    refine (hr.claim (Claim.forL h1 h7.ne (hl.of hsw ht) hc hs hb hk)).imp fun o ho => ?_
    rw [hsw] at ho; exact ho.trans h2
  · cases h6

theorem forL_safe (hr : R sem sig rec) {c s b k : List (Node P)} {st : State P} (hI : Inv sig st) (hne : st.scopes ≠ [])
    (hl : Level st) (hc : Whole sig c) (hs : Whole sig s)
    (hb : Body sig b) (hk : Body sig k) : Sat (step sem rec (.forL c s b k) st) (QX sig st.swapped st.world) := by
  unfold step; dsimp only
  refine sat_andThen (hr.expr hI hne hc) (fun hu => hu) (fun st₁ ho => ?_) fun e st' ho => ⟨ho.1, ho.2.1⟩
  obtain ⟨f1, f2, f3, f4, f5, f6, f7, f8, f9⟩ := ho
  refine sat_next f4 ?_
  have hbody : Sat (andThen (rec (block b) st₁) fun st =>
      if (afterBody st.status .contFor .brkFor).1 then
        andThen (rec (.rod s) (st.setStatus (afterBody st.status .contFor .brkFor).2)) fun st => expectNext st (rec (.forL c s b k) st)
      else some (.ok (st.setStatus (afterBody st.status .contFor .brkFor).2))) (QX sig st.swapped st.world) := by
    refine sat_andThen (hr.block f1 hb) (fun hu => hu) (fun st₂ ho => ?_) fun e st' ho => ⟨ho.1, f2.trans' ho.2.1⟩
    obtain ⟨g1, g2, g3, g4, g5, _⟩ := ho
    split
    · refine sat_andThen (hr.expr (g1.setStatus _) (by rw [← g5] at f7; exact f7) hs) (fun hu => hu) (fun st₃ ho => ?_)
        fun e st' ho => ⟨ho.1, (f2.trans' g2).trans' ho.2.1⟩
      obtain ⟨e1, e2, _, e4, e5, _, e7, e8, _⟩ := ho
      have hsw : st₃.swapped = st.swapped := e5.trans (g3.trans f5)
      have ht : st₃.scopes.tail = st.scopes.tail := e8.trans ((congrArg List.tail g5).trans f8)
      refine sat_next e4 ((hr.claim (Claim.forL e1 e7 (hl.of hsw ht) hc hs hb hk)).imp fun o ho => ?_)
      rw [hsw] at ho; exact ho.trans ((f2.trans' g2).trans' e2)
    · exact Sat.ok (QX.status g1 (f2.trans' g2) (g3.trans f5) g4)
  split
  · exact hbody
  · rename_i r l hst
    refine sat_value (defined_stack f9 r (by simp [hst])).1 (fun _ => ⟨f1, f2⟩) fun v _ => ?_
    split
    · exact hbody
    · refine (hr.aside f1 f7 (hl.of f5 f8) hk).imp fun o ho => ?_
      rw [f5] at ho; exact ho.trans f2

theorem seq_safe (hr : R sem sig rec) {na : Prop} {j : Mode} {T : Ty} {b : Bool} {ids : List Nat} {code : List (Node P)}
    {st : State P} (hI : Inv sig st) (hs : st.status = .next) (ht : TypedSeq sig j T code) (h : Sh T b ids st)
    (hna : na → NoAltSeq code) : Sat (step sem rec (.seq code) st) (QC sig na j b (outs sig T code) ids st) := by
  cases code with
  | nil => exact Sat.ok (QC.next hs hI (Kept.refl _ _) (fun _ => rfl) h fun i hi => .inl hi)
  | cons n ns =>
    unfold TypedSeq at ht
    have hna1 : na → NoAlt n := fun h => by have := hna h; unfold NoAltSeq at this; exact this.1
    have hna2 : na → NoAltSeq ns := fun h => by have := hna h; unfold NoAltSeq at this; exact this.2
    unfold step; dsimp only
    show Sat _ (QC sig na j b (outs sig (out sig T n) ns) ids st)
    refine sat_andThen (hr.run (Claim.node hI hs ht.1 h hna1)) (fun hu => hu.1) (fun st₁ ho => ?_) fun e st' ho => ho.1
    obtain ⟨⟨h1, h2, h3, h4⟩, _⟩ := ho
    rcases h4 with ⟨h5, ids', h6, h7⟩ | h5
    · rw [if_pos h5]
      refine (hr.claim (Claim.seq h1 h5 ht.2 h6 hna2)).imp fun o ho => ?_
      exact ho.trans h2 h3 (fun hn => by rw [h6.sw, h.sw, out_alt ht.1 (hna1 hn)]) h7
    · rw [if_neg h5.1]
      exact Sat.ok ⟨h1, h2, h3, .inr h5⟩

theorem sub_safe (hr : R sem sig rec) {na : Prop} {j : Mode} {T : Ty} {b : Bool} {ids : List Nat} {a : Bool}
    {code : List (Node P)} {st : State P} (hI : Inv sig st) (hs : st.status = .next) (h : Sh T b ids st) (hc : 1 ≤ T.cur)
    (ha : Arm sig j T a code) (hna : na → NoAltSeq code) : Sat (step sem rec (.sub a code) st) (QC sig na j b T ids st) := by
  unfold step; dsimp only
  cases code with
  | nil => exact sat_next hs (Sat.ok (QC.next hs hI (Kept.refl _ _) (fun _ => rfl) h fun i hi => .inl hi))
  | cons n ns =>
    dsimp only
    have ha' := ha.resolve_left (by simp)
    cases a with
    | true =>
      simp only [if_true] at ha' ⊢
      refine sat_andThen (hr.run (Claim.rod hI ha'.1 h hna)) (fun hu => hu.1) (fun st₁ ho => ?_) fun e st' ho =>
        ⟨ho.1.1, ho.1.2.1, ho.1.2.2.1, fun hj => ho.1.2.2.2 rfl⟩
      obtain ⟨⟨h1, h2, h3, h4⟩, h5⟩ := ho
      rcases h4 with ⟨h6, ids', h7, h8⟩ | h6
      · rw [ha'.2] at h7
        have hcur := h7.cur
        rw [Ty.cur_setCur] at hcur
        obtain ⟨r, l, hst⟩ := top_of_length ((by omega : 1 ≤ T.cur + 1).trans hcur)
        obtain ⟨r1, l', hl⟩ := top_of_length (l := l) (by rw [hst] at hcur; simp at hcur; omega)
        have hsw : st₁.swapped = st.swapped := by rw [h7.sw, h.sw, Ty.setCur_isSome]
        have hdf := defined_stack (h5 _ rfl).1
        refine sat_next h6 (sat_top hst (sat_value (hdf r (by simp [hst])).copy (fun _ => ⟨h1, h2, fun _ => hsw, fun _ => h3 rfl⟩)
          fun v _ => ?_))
        subst hl
        dsimp only
        have hk : Kept [] st₁.world { st₁.world with env := (r1.toSub.assign sem.lim st₁.world.env v).1 } :=
          kept_assign st₁.world r1.toSub sem.lim v
        have hI1 : Inv sig { st₁ with world := { st₁.world with env := (r1.toSub.assign sem.lim st₁.world.env v).1 } } :=
          h1.kept rfl rfl rfl hk
        have hu := (hdf r1 (by simp [hst])).2 v
        have hsh : Sh (T.setCur (T.cur + 1)) b ids'
            { st₁ with world := { st₁.world with env := (r1.toSub.assign sem.lim st₁.world.env v).1 } } :=
          h7.move h7.ne rfl rfl rfl hk (by simp)
        have hst' : ({ st₁ with world := { st₁.world with env := (r1.toSub.assign sem.lim st₁.world.env v).1 } } : State P).stack =
          r :: r1 :: l' := hst
        split
        · refine Sat.ok (QC.next (by simpa using h6) (hI1.setStack _) (by simpa using h2.trans' hk) (fun hj => ?_)
            (by simpa using hsh.pop hst' (by simp)) h8)
          rw [← h3 rfl]; simp [headNames]
        · exact Sat.exc ⟨hI1, h2.trans' hk, fun _ => hsw, fun _ => h3 rfl⟩
        · exact absurd ‹_› hu
      · cases h6.2.1
    | false =>
      simp only [Bool.false_eq_true, if_false] at ha' ⊢
      obtain ⟨r, l, hst⟩ := h.top hc
      refine sat_top hst ?_
      have := hr.claim (Claim.rod (hI.setStack l) ha'.1 (h.pop hst hc) hna)
      rw [ha'.2] at this
      exact this.imp fun o ho => ho.from (by simp) (by simp [headNames]) (fun _ => by simp)

theorem call_safe (hr : R sem sig rec) {f : Nat} {r : Ref} {l : List Ref} {st : State P} (hI : Inv sig st) (hs : st.status = .next)
    (hst : st.stack = r :: l) : Sat (step sem rec (.tailOrCall .none f) st) (QT sig l st) := by
  unfold step; dsimp only
  refine sat_top hst ?_
  rw [if_pos rfl]
  refine sat_andThen (hr.run (Claim.enter hI)) (fun hu => hu.1) (fun st₁ ho => ?_) fun e st' ho =>
    ⟨ho.1.1, ho.1.2, (ho.2 _ rfl).2.1 rfl⟩
  obtain ⟨⟨h1, h2, h3, h4, h5⟩, h6⟩ := ho
  have hs1 : st₁.scopes = st.scopes := (h6 _ rfl).2.1 rfl
  refine sat_andThen (hr.run (Claim.check h1)) (fun hu => hu.1.1) (fun st₂ ho => ?_) fun e st' ho =>
    ⟨ho.1.1.1, h2.trans' ho.1.1.2, ((ho.2 _ rfl).2.1 rfl).trans hs1⟩
  obtain ⟨⟨⟨g1, g2, g3, g4, g5⟩, _⟩, g6⟩ := ho
  have hx : st₂.status = .next := g5.trans (h5.trans hs)
  refine sat_next hx (Sat.ok ⟨(g1.setStack _).setAlt _, by simpa using h2.trans' g2, ?_, by simpa using hx, st₂.result, by simp⟩)
  have : st₂.scopes = st.scopes := ((g6 _ rfl).2.1 rfl).trans hs1
  simpa using this

theorem tail_safe {ptc : Ptc} {f : Nat} {r : Ref} {l : List Ref} {st : State P} (hI : Inv sig st) (hp : ptc ≠ .none)
    (hst : st.stack = r :: l) : Sat (step sem rec (.tailOrCall ptc f) st) (QP sig st) := by
  unfold step; dsimp only
  refine sat_top hst ?_
  rw [if_neg hp]
  have hI1 : Inv sig { st with ptcs := st.ptcs ++ [⟨ptc, f, r, st.alt.reverse, []⟩] } := by
    refine ⟨hI.funcs, hI.defers, fun p hp => ?_, hI.clean⟩
    rcases List.mem_append.1 hp with h | h
    · exact hI.ptcs p h
    · rw [List.mem_singleton] at h; subst h; simp
  refine Sat.ok ⟨((hI1.setStack _).setAlt _).setStatus _, ?_, ?_, rfl, .ptc st.ptcs.length, l, by simp, by simp⟩
  · show (State.setAlt _ _).world = _; simp
  · show (State.setAlt _ _).scopes = _; simp

theorem body_safe (hr : R sem sig rec) {names : List (Name × Ref)} {b : List (Node P)} {st : State P} (hI : Inv sig st)
    (hb : Body sig b) : Sat (step sem rec (.call names b) st) (QB sig st.world) := by
  unfold step; dsimp only
  refine sat_andThen (hr.claim (Claim.scope hI hb)) (fun hu => hu) (fun st₁ ho => ?_) fun e st' ho => ho
  obtain ⟨h1, h2, h3, h4⟩ := ho
  have hI1 : ∀ r, Inv sig { st₁ with result := r } := fun r => h1.same rfl rfl rfl rfl
  unfold functionResult
  split
  · exact Sat.ok ⟨hI1 _, h2⟩
  · exact Sat.ok ⟨hI1 _, h2⟩
  · rename_i hx
    obtain ⟨r, l, hst, _⟩ := h4 hx
    exact sat_top hst (Sat.ok ⟨hI1 _, h2⟩)
  · exact Sat.exc ⟨h1, h2⟩

theorem enter_safe (hsem : SafeSem sem sig) (hr : R sem sig rec) {f : Nat} {self : Ref} {args : List Ref} {st : State P}
    (hI : Inv sig st) (hd : f < st.funcs.length) : Sat (step sem rec (.enter f self args) st) (QF sig st) := by
  unfold step; dsimp only
  rw [List.getElem?_eq_getElem hd]
  cases hf : st.funcs[f] with
  | native p =>
    dsimp only
    have h := hsem.native p st.world self args
    cases hn : sem.native p st.world self args with
    | ok w r =>
      rw [hn] at h
      exact Sat.ok ⟨⟨hI.funcs, hI.defers, hI.ptcs, h.clean hI.clean⟩, h, rfl, rfl, rfl⟩
    | throw e w =>
      rw [hn] at h
      exact Sat.exc ⟨⟨hI.funcs, hI.defers, hI.ptcs, h.clean hI.clean⟩, h⟩
    | ub => rw [hn] at h; exact h.elim
  | inst ps va body =>
    dsimp only
    split
    · exact Sat.exc ⟨hI, Kept.refl _ _⟩
    · have hI1 : Inv sig { st with scopes := [], stk0 := args.map fun _ => .invalid, stk1 := [], status := .next } :=
        ⟨hI.funcs, by simp, hI.ptcs, hI.clean⟩
      refine sat_onOut (hr.claim (Claim.body hI1 rfl (hI.funcs _ (List.getElem_mem hd) ps va body hf))) (fun hu => hu)
        (fun st' ho => Sat.ok ?_) fun e st' ho => Sat.exc ?_
      · exact ⟨hI.restore ho.1, ho.2, rfl, rfl, rfl⟩
      · exact ⟨hI.restore ho.1, ho.2⟩

theorem check_safe (hr : R sem sig rec) {r : Ref} {st : State P} (hI : Inv sig st) :
    Sat (step sem rec (.check r) st) fun o => QF sig st o ∧ ∀ st', o = .ok st' → st'.result.plain = true := by
  unfold step; dsimp only
  have hp : ∀ r : Ref, Sat (if r.plain then some (.ok { st with result := r }) else some (.exc message st))
      fun o => QF sig st o ∧ ∀ st', o = .ok st' → st'.result.plain = true := by
    intro r
    split
    · exact Sat.ok ⟨⟨hI.same rfl rfl rfl rfl, Kept.refl _ _, rfl, rfl, rfl⟩, fun st' h => by cases h; assumption⟩
    · exact Sat.exc ⟨⟨hI, Kept.refl _ _⟩, nofun⟩
  cases r with
  | ptc id =>
    dsimp only
    refine sat_andThen (hr.claim (Claim.unpack hI (.inr ⟨id, rfl⟩))) (fun hu => hu) (fun st₁ ho => ?_) fun e st' ho => ⟨ho, nofun⟩
    split
    · exact Sat.ok ⟨ho, fun st' h => by cases h; assumption⟩
    · exact Sat.exc ⟨⟨ho.1, ho.2.1⟩, nofun⟩
  | invalid => exact hp _
  | void => exact hp _
  | temp v m => exact hp _
  | var id m => exact hp _

theorem unpack_safe (hr : R sem sig rec) {r : Ref} {frames : List Nat} {st : State P} (hI : Inv sig st)
    (hf : frames ≠ [] ∨ ∃ id, r = .ptc id) (hd : Task.Defined (.unpack r frames) st) :
    Sat (step sem rec (.unpack r frames) st) (QF sig st) := by
  obtain ⟨d1, d2, d3⟩ := hd
  unfold step; dsimp only
  have hplain : ∀ r : Ref, r ≠ .ptc 0 → (∀ id, r ≠ .ptc id) → frames ≠ [] → deref st.world r ≠ .ub → Sat (match frames with
      | [] => some .ub
      | id :: _ =>
        match st.ptcs[id]? with
        | none => some .ub
        | some p =>
          if p.aware = .void then rec (.framesN frames none) { st with result := .void }
          else match r with
            | .void => rec (.framesN frames none) { st with result := .void }
            | r => match deref st.world r with
              | .ok v => rec (.framesN frames (some v)) { st with result := r }
              | .throw => rec (.framesE frames message) st
              | .ub => some .ub) (QF sig st) := by
    intro r _ _ hne hdr
    cases frames with
    | nil => exact absurd rfl hne
    | cons id fs =>
      dsimp only
      rw [List.getElem?_eq_getElem (d3 id (by simp))]
      dsimp only
      have hN : ∀ v (r : Ref), Sat (rec (.framesN (id :: fs) v) { st with result := r }) (QF sig st) := fun v r =>
        (hr.claim (Claim.framesN (st := { st with result := r }) (hI.same rfl rfl rfl rfl))).imp fun o ho =>
          ho.trans (Kept.refl _ _) rfl rfl rfl
      have hD : Sat (match deref st.world r with
              | .ok v => rec (.framesN (id :: fs) (some v)) { st with result := r }
              | .throw => rec (.framesE (id :: fs) message) st
              | .ub => some .ub) (QF sig st) := by
        split
        · exact hN _ _
        · exact (hr.claim (Claim.framesE hI)).imp fun o ho => ho.toF
        · exact absurd ‹_› hdr
      split
      · exact hN _ _
      · cases r with
        | void => exact hN _ _
        | invalid => exact hD
        | temp v m => exact hD
        | var id m => exact hD
        | ptc id => exact hD
  cases r with
  | ptc id =>
    dsimp only
    rw [List.getElem?_eq_getElem (d1 id rfl)]
    dsimp only
    refine sat_onOut (hr.claim (Claim.enter hI)) (fun hu => hu) (fun st₁ ho => ?_) fun e st₁ ho => ?_
    · obtain ⟨h1, h2, h3, h4, h5⟩ := ho
      exact (hr.claim (Claim.unpack h1 (.inl (by simp)))).imp fun o ho => ho.trans h2 h3 h4 h5
    · refine (hr.claim (Claim.framesE ho.1)).imp fun o ho' => ?_
      exact (ho'.trans ho.2).toF
  | invalid => exact hplain _ (by simp) (by simp) (hf.resolve_right (by simp)) d2
  | void => exact hplain _ (by simp) (by simp) (hf.resolve_right (by simp)) d2
  | temp v m => exact hplain _ (by simp) (by simp) (hf.resolve_right (by simp)) d2
  | var id m => exact hplain _ (by simp) (by simp) (hf.resolve_right (by simp)) d2

theorem framesN_safe (hr : R sem sig rec) {frames : List Nat} {v : Option Value} {st : State P} (hI : Inv sig st)
    (hd : Task.Defined (.framesN frames v) st) : Sat (step sem rec (.framesN frames v) st) (QF sig st) := by
  unfold step; dsimp only
  cases frames with
  | nil => exact Sat.ok ⟨hI, Kept.refl _ _, rfl, rfl, rfl⟩
  | cons id fs =>
    have hlt : id < st.ptcs.length := hd id (by simp)
    dsimp only
    rw [List.getElem?_eq_getElem hlt]
    dsimp only
    -- the result may be replaced
    have key : ∀ r : Ref, Sat (onOut (rec (.exitN .invalid .next) (({ ({ st with result := r } : State P) with
          ptcs := st.ptcs.modify id fun p => { p with defers := [] },
          scopes := [⟨[], st.ptcs[id].defers, false⟩], stk0 := [], stk1 := [], status := .next } : State P).log (.resume id)))
          (fun st' => rec (.framesN fs none) ({ restore ({ st with result := r } : State P) st' with result := r }.log .leave))
          fun e st' => rec (.framesE fs e) ((restore ({ st with result := r } : State P) st').log .leave)) (QF sig st) := by
      intro r
      have hI0 : Inv sig { st with result := r } := hI.same rfl rfl rfl rfl
      have hI1 := hI0.resume (List.getElem?_eq_getElem hlt) (.resume id)
      refine sat_onOut (hr.claim (Claim.exitN (saved := .invalid) (status := .next) hI1 (by simp [State.log]) nofun)) (fun hu => hu)
        (fun st' ho => ?_) fun e st' ho => ?_
      · have hI2 : Inv sig ({ restore ({ st with result := r } : State P) st' with result := r }.log .leave) :=
          (hI0.restore ho.1).same rfl rfl rfl rfl
        exact (hr.claim (Claim.framesN (v := none) hI2)).imp fun o ho' => ho'.trans ho.2.1 rfl rfl rfl
      · have hI2 : Inv sig ((restore ({ st with result := r } : State P) st').log .leave) := Inv.log (hI0.restore ho.1) _
        exact (hr.claim (Claim.framesE (e := e) hI2)).imp fun o ho' => QE.toF (ho'.trans ho.2)
    split
    · exact key _
    · exact key st.result

theorem framesE_safe (hr : R sem sig rec) {frames : List Nat} {e : Value} {st : State P} (hI : Inv sig st)
    (hd : Task.Defined (.framesE frames e) st) : Sat (step sem rec (.framesE frames e) st) (QE sig st.world) := by
  unfold step; dsimp only
  cases frames with
  | nil => exact Sat.exc ⟨hI, Kept.refl _ _⟩
  | cons id fs =>
    have hlt : id < st.ptcs.length := hd id (by simp)
    dsimp only
    rw [List.getElem?_eq_getElem hlt]
    dsimp only
    have hI1 := hI.resume (List.getElem?_eq_getElem hlt) (.resume id)
    refine sat_onOut (hr.claim (Claim.exitE (e := e) hI1 (by simp [State.log]))) (fun hu => hu)
      (fun st' ho => ho.elim) fun e st' ho => ?_
    have hI2 : Inv sig ((restore st st').log .leave) := Inv.log (hI.restore ho.1) _
    exact (hr.claim (Claim.framesE (e := e) hI2)).imp fun o ho' => ho'.trans ho.2

/-- A step of an execution. -/
theorem step_safe (hsem : SafeSem sem sig) (hr : R sem sig rec) {t : Task P} {st : State P} {Q : Out P → Prop}
    (hc : Claim sig t st Q) (hd : st.Defined sem) (ht : t.Defined st) (hl : LocalsFound t st) : Sat (step sem rec t st) Q := by
  cases hc with
  | rod hI h1 h2 h3 =>
    unfold step; dsimp only
    exact (hr.claim (Claim.seq (hI.setStatus _) rfl h1 (h2.setStatus _) h3)).imp fun o ho => ho.from rfl rfl fun _ => rfl
  | seq hI hs h1 h2 h3 => exact seq_safe hr hI hs h1 h2 h3
  | node hI hs h1 h2 h3 => unfold step; exact runNode_safe hsem hr hI hs h1 h2 h3 hd hl
  | within hI h1 h2 h3 => exact within_safe hr h1 h2 h3
  | exit hI h1 h2 => exact exit_safe hr hI h1 h2 ht
  | exitN hI h1 h2 => exact exitN_safe hr hI h1 h2
  | exitE hI h1 => exact exitE_safe hr hI h1
  | find hI h1 h2 h3 h4 => exact find_safe hr hI h1 h2 h3 h4
  | clauses hI h1 h2 h3 => exact clauses_safe hr hI h1 h2 h3
  | doL hI h1 h2 h3 h4 h5 => exact doL_safe hr hI h1 h2 h3 h4 h5
  | whileL hI h1 h2 h3 h4 h5 => exact whileL_safe hr hI h1 h2 h3 h4 h5
  | eachInit hI h1 h2 h3 h4 h5 h6 h7 => exact eachInit_safe hr hI h1 h2 h3 h4 h5 h6 h7
  | eachL hI h1 h2 _ h3 h4 h5 h6 => exact eachL_safe hr hI h1 h2 h3 h4 h5 h6 ht
  | forInit hI h1 h2 h3 h4 h5 h6 h7 h8 => exact forInit_safe hr hI h1 h2 h3 h4 h5 h6 h7 h8
  | forL hI h1 h2 h3 h4 h5 h6 => exact forL_safe hr hI h1 h2 h3 h4 h5 h6
  | sub hI h1 h2 h3 h4 h5 => exact sub_safe hr hI h1 h2 h3 h4 h5
  | call hI h1 h2 => exact call_safe hr hI h1 h2
  | tail hI h1 h2 => exact tail_safe hI h1 h2
  | body hI h1 h2 => exact body_safe hr hI h2
  | enter hI => exact enter_safe hsem hr hI ht
  | check hI => exact check_safe hr hI
  | unpack hI h1 => exact unpack_safe hr hI h1 ht
  | framesN hI => exact framesN_safe hr hI ht
  | framesE hI => exact framesE_safe hr hI ht

end Asteria.Exec.Safe
