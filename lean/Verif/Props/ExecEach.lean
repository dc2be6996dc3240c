import Verif.Props.ExecDefer
import Verif.Proof.ExecFlow
import Verif.Proof.ExecDemo

/-!
# C98: variables that a `for each` statement writes to
-/

namespace Asteria.Exec

variable {P : Type}

/-- The variable `id` exists and is the same as in `s`: it has the same value, and is immutable if it was. -/
def Untouched (id : Nat) (s : State P) : Out P → Prop
  | .ok s' | .exc _ s' => id < s'.world.nvars ∧ s'.world.env id = s.world.env id
  | .ub => True

/-- The contexts have the same names, for the same references, and the same deferred expressions. -/
def SameContexts (s : State P) : Out P → Prop
  | .ok s' | .exc _ s' => s'.scopes.map (fun c => (c.names, c.defers)) = s.scopes.map (fun c => (c.names, c.defers))
  | .ub => True

/-- Whatever code is executed from a state in which `id` exists keeps it. -/
def Leaves (sem : Sem P) (id : Nat) (t : Task P) : Prop :=
  ∀ s o, id < s.world.nvars → Runs sem t s o → Untouched id s o

section
variable {sem : Sem P} {id : Nat}

theorem Untouched.trans {s s' : State P} {o : Out P} (h : Untouched id s (.ok s')) (h' : Untouched id s' o) :
    Untouched id s o := by
  cases o with
  | ok x => exact ⟨h'.1, h'.2.trans h.2⟩
  | exc e x => exact ⟨h'.1, h'.2.trans h.2⟩
  | ub => trivial

theorem lookupName_setName (n m : Name) (r : Ref) (l : List (Name × Ref)) :
    lookupName n (setName m r l) = if n = m then some r else lookupName n l := by
  induction l with
  | nil => simp [setName, lookupName, eq_comm]
  | cons p l ih =>
    obtain ⟨k, x⟩ := p
    simp only [setName]
    by_cases h : k = m
    · subst h
      simp only [if_true, lookupName]
      by_cases h2 : n = k
      · simp [h2]
      · simp [h2, Ne.symm h2]
    · simp only [if_neg h, lookupName]
      by_cases h2 : k = n
      · subst h2; simp [h]
      · simp [h2, ih]

/-- The key of the current context, if there is one, is not the variable `id`. -/
def KeyApart (kn : Option Name) (id : Nat) (s : State P) : Prop :=
  ∀ n, kn = some n → ∀ r, (s.scopes.head?.bind fun c => lookupName n c.names) = some r → r.var? ≠ some id

theorem bindElement_keeps {kn : Option Name} {mn : Name} (hn : kn ≠ some mn) (r : Ref) (x : Value × Subscript.Sub)
    {s : State P} (hid : id < s.world.nvars) (hk : KeyApart kn id s) :
    Untouched id s (.ok (bindElement kn mn r x s)) ∧ KeyApart kn id (bindElement kn mn r x s) := by
  have mod : ∀ (n : Name) (r : Ref) (s : State P), (s.modScope fun c => { c with names := setName n r c.names }).world = s.world :=
    fun n r s => by unfold State.modScope; split <;> rfl
  have head : ∀ (n m : Name) (r : Ref) (s : State P),
      ((s.modScope fun c => { c with names := setName m r c.names }).scopes.head?.bind fun c => lookupName n c.names) =
        s.scopes.head?.bind fun c => if n = m then some r else lookupName n c.names := fun n m r s => by
    unfold State.modScope
    split
    · rename_i h; simp [h]
    · rename_i c cs h
      simp only [h, List.head?_cons, Option.bind_some]
      rw [lookupName_setName]
  unfold bindElement
  cases kn with
  | none => exact ⟨⟨by rw [mod]; exact hid, by rw [mod]⟩, fun n h => by cases h⟩
  | some n =>
    have hne : n ≠ mn := fun h => hn (by rw [h])
    have h1 : Untouched id s (.ok (setKey s n x.1)) ∧ KeyApart (some n) id (setKey s n x.1) := by
      unfold setKey
      split
      · rename_i i hi
        have hii : id ≠ i := by
          intro h
          rw [Option.bind_eq_some_iff] at hi
          obtain ⟨r', h1, h2⟩ := hi
          exact hk n rfl r' h1 (by rw [h2, h])
        refine ⟨⟨hid, ?_⟩, ?_⟩
        · simp [initVar, hii]
        · exact hk
      · refine ⟨⟨?_, ?_⟩, ?_⟩
        · simp only [initVar]; rw [mod]; simp only [newVar]; omega
        · have hne : id ≠ s.world.nvars := by omega
          show (if id = s.world.nvars then _ else _) = _
          rw [if_neg hne, mod]
          show (if id = s.world.nvars then _ else _) = _
          rw [if_neg hne]
        · intro m hm r' hr'
          cases hm
          have h2 := head n n (.var (newVar s).1 []) (newVar s).2
          simp only [initVar] at hr'
          rw [h2] at hr'
          cases hs : (newVar s).2.scopes.head? with
          | none => rw [hs] at hr'; simp at hr'
          | some c =>
            rw [hs] at hr'
            simp only [Option.bind_some, if_true, Option.some.injEq] at hr'
            subst hr'
            simp only [Ref.var?, newVar, ne_eq, Option.some.injEq]
            omega
    refine ⟨⟨by rw [mod]; exact h1.1.1, by rw [mod]; exact h1.1.2⟩, ?_⟩
    intro m hm r' hr'
    cases hm
    rw [head] at hr'
    simp only [if_neg hne] at hr'
    exact h1.2 n rfl r' hr'

theorem eachL_keeps {kn : Option Name} {mn : Name} (hn : kn ≠ some mn) {r : Ref} {b k : List (Node P)}
    (hb : Leaves sem id (block b)) (hk : Leaves sem id (block k)) :
    ∀ (es : List (Value × Subscript.Sub)) (n : Nat) (s : State P) (o : Out P), id < s.world.nvars → KeyApart kn id s →
      exec sem n (.eachL es kn mn r b k) s = some o →
      Untouched id s o ∧ ∀ s', (o = .ok s' ∨ ∃ e, o = .exc e s') → s'.scopes.map Scope.defers = s.scopes.map Scope.defers := by
  intro es
  induction es with
  | nil =>
    intro n s o hid hka h
    cases n with
    | zero => cases h
    | succ n =>
      simp only [exec, step, aside] at h
      split at h
      · simp only [Option.some.injEq] at h; subst h; exact ⟨trivial, by rintro s' (h | ⟨e, h⟩) <;> cases h⟩
      · rename_i c cs hs
        unfold finish onOut at h
        have hw : Sat _ (WholeOut False [] cs) :=
          (good_exec (P := P) False sem n).whole (block k) [] ({ s with scopes := cs } : State P) rfl (fun hf => hf.elim)
        split at h
        · rename_i x hx
          have h1 := hk ({ s with scopes := cs } : State P) _ hid ⟨n, hx⟩
          have h2 := (hw.app _ hx).1
          cases h
          refine ⟨h1, ?_⟩
          rintro s' (h | ⟨e, h⟩) <;> cases h
          simp [hs, h2]
        · rename_i e x hx
          have h1 := hk ({ s with scopes := cs } : State P) _ hid ⟨n, hx⟩
          have h2 := (hw.app _ hx).1
          cases h
          refine ⟨h1, ?_⟩
          rintro s' (h | ⟨e, h⟩) <;> cases h
          simp [hs, h2]
        · rename_i h1 h2
          cases o with
          | ok x => exact absurd h (h1 x)
          | exc e x => exact absurd h (h2 e x)
          | ub => exact ⟨trivial, by rintro s' (h | ⟨e, h⟩) <;> cases h⟩
  | cons x es ih =>
    intro n s o hid hka h
    cases n with
    | zero => cases h
    | succ n =>
      obtain ⟨hu, hka'⟩ := bindElement_keeps hn r x hid hka
      have hdef : (bindElement kn mn r x s).scopes.map Scope.defers = s.scopes.map Scope.defers := by
        have mod : ∀ (n : Name) (r : Ref) (s : State P),
            (s.modScope fun c => { c with names := setName n r c.names }).scopes.map Scope.defers = s.scopes.map Scope.defers :=
          fun n r s => by
            unfold State.modScope
            split
            · rfl
            · rename_i h; simp [h]
        unfold bindElement
        rw [mod]
        cases kn with
        | none => rfl
        | some m =>
          simp only [setKey]
          split
          · rfl
          · show (State.modScope _ _).scopes.map Scope.defers = _
            rw [mod]; rfl
      simp only [exec, step] at h
      unfold withValue at h
      split at h
      · unfold andThen onOut at h
        have hw := (good_exec (P := P) False sem n).whole (block b) [] (bindElement kn mn r x s) rfl (fun hf => hf.elim)
        split at h
        · rename_i s₁ hx
          have h1 := hb _ _ hu.1 ⟨n, hx⟩
          have h2 := (hw.app _ hx).1
          dsimp only at h
          split at h
          · have hka₁ : KeyApart kn id (s₁.setStatus (afterBody s₁.status .contFor .brkFor).2) := by
              unfold KeyApart
              rw [setStatus_scopes, h2]
              exact hka'
            have h3 := ih n (s₁.setStatus (afterBody s₁.status .contFor .brkFor).2) o h1.1 hka₁ h
            refine ⟨hu.trans (Untouched.trans h1 h3.1), fun s' hs' => ?_⟩
            rw [h3.2 s' hs', setStatus_scopes, h2, hdef]
          · cases h
            refine ⟨hu.trans h1, ?_⟩
            rintro s' (h | ⟨e, h⟩) <;> cases h
            rw [setStatus_scopes, h2, hdef]
        · rename_i e s₁ hx
          have h1 := hb _ _ hu.1 ⟨n, hx⟩
          have h2 := (hw.app _ hx).1
          cases h
          refine ⟨hu.trans h1, ?_⟩
          rintro s' (h | ⟨e, h⟩) <;> cases h
          rw [h2, hdef]
        · rename_i h1 h2
          cases o with
          | ok x => exact absurd h (h1 x)
          | exc e x => exact absurd h (h2 e x)
          | ub => exact ⟨trivial, by rintro s' (h | ⟨e, h⟩) <;> cases h⟩
      · cases h
        refine ⟨hu, ?_⟩
        rintro s' (h | ⟨e, h⟩) <;> cases h
        exact hdef
      · cases h; exact ⟨trivial, by rintro s' (h | ⟨e, h⟩) <;> cases h⟩

/-- The outcome of a context without deferred expressions is that of its content. -/
theorem within_plain {names : List (Name × Ref)} {t : Task P} {s : State P} {o : Out P}
    (h : Runs sem (.within names t) s o)
    (ht : ∀ s' o', s'.world = s.world → s'.scopes = ⟨names, [], s.swapped⟩ :: s.scopes → Runs sem t s' o' → Untouched id s' o' ∧
      ∀ x, (o' = .ok x ∨ ∃ e, o' = .exc e x) → x.scopes.map Scope.defers = s'.scopes.map Scope.defers) : Untouched id s o := by
  obtain ⟨n, h⟩ := h
  cases n with
  | zero => cases h
  | succ n =>
    simp only [exec, step] at h
    unfold onOut at h
    have top : ∀ (l : List (Scope P)), l.map Scope.defers = [] :: s.scopes.map Scope.defers →
        ∃ c cs, l = c :: cs ∧ c.defers = [] := by
      rintro (_ | ⟨c, cs⟩) hl
      · simp at hl
      · simp only [List.map_cons, List.cons.injEq] at hl
        exact ⟨c, cs, rfl, hl.1⟩
    split at h
    · rename_i s₁ hx
      have h1 := ht (({ s with scopes := ⟨names, [], s.swapped⟩ :: s.scopes } : State P).log .enter) _ rfl rfl ⟨n, hx⟩
      obtain ⟨c, cs, h2, h3⟩ := top s₁.scopes (h1.2 s₁ (.inl rfl))
      cases n with
      | zero => cases hx
      | succ n =>
        have h4 : exec sem (n + 1) .exit (s₁.log .done) = some (.ok (s₁.log .done)) := by
          simp [exec, step, State.log, h2, h3]
        simp only [finish, onOut, h4, Option.some.injEq] at h
        subst h
        exact h1.1
    · rename_i e s₁ hx
      have h1 := ht (({ s with scopes := ⟨names, [], s.swapped⟩ :: s.scopes } : State P).log .enter) _ rfl rfl ⟨n, hx⟩
      obtain ⟨c, cs, h2, h3⟩ := top s₁.scopes (h1.2 s₁ (.inr ⟨e, rfl⟩))
      cases n with
      | zero => cases hx
      | succ n =>
        have h4 : exec sem (n + 1) (.exitE e) (s₁.log .done) = some (.exc e (s₁.log .done)) := by
          simp [exec, step, State.log, h2, h3]
        simp only [finish, onOut, h4, Option.some.injEq] at h
        subst h
        exact h1.1
    · rename_i h1 h2
      cases o with
      | ok x => exact absurd h (h1 x)
      | exc e x => exact absurd h (h2 e x)
      | ub => trivial

end

/-- **C98** (the part that holds).  A `for each` statement whose key has another name than its mapped element: every
variable that exists before it is left alone, by the statement itself.  That is, if its initializer, its body and its
`__ifcomplete` block leave the variable alone, so does the statement, no matter how the loop is left.  The initializer
is an expression, so it does not change the names of contexts.  Missing: the key and the mapped element having the same
name, where this is false. -/
theorem C98_partial (sem : Sem P) (id : Nat) (kn : Option Name) (mn : Name) (i b k : List (Node P)) (s : State P) (o : Out P)
    (hn : kn ≠ some mn) (hid : id < s.world.nvars)
    (hi : Leaves sem id (.rod i)) (hi' : ∀ s o, Runs sem (.rod i) s o → SameContexts s o)
    (hb : Leaves sem id (block b)) (hk : Leaves sem id (block k))
    (h : Runs sem (.node (.forEach kn mn i b k)) s o) : Untouched id s o := by
  obtain ⟨n, h⟩ := h
  cases n with
  | zero => cases h
  | succ n =>
    simp only [exec, step, runNode] at h
    refine within_plain ⟨n, h⟩ fun s₁ o₁ hw hs₁ h₁ => ?_
    obtain ⟨m, h₁⟩ := h₁
    have defers : ∀ {s s' : State P}, s'.scopes.map (fun c => (c.names, c.defers)) = s.scopes.map (fun c => (c.names, c.defers)) →
        s'.scopes.map Scope.defers = s.scopes.map Scope.defers := fun {s s'} h => by
      have := congrArg (List.map Prod.snd) h
      simpa [Function.comp_def] using this
    cases m with
    | zero => cases h₁
    | succ m =>
      simp only [exec, step] at h₁
      unfold andThen onOut at h₁
      split at h₁
      · rename_i s₂ hx
        have h2 := hi s₁ _ (by rw [hw]; exact hid) ⟨m, hx⟩
        have h3 := hi' s₁ _ ⟨m, hx⟩
        have h4 := defers h3
        dsimp only at h₁
        unfold expectNext withTop at h₁
        split at h₁
        · split at h₁
          · cases h₁; exact ⟨trivial, by rintro s' (h | ⟨e, h⟩) <;> cases h⟩
          · rename_i r l hl
            have h5 : ((s₂.modScope fun c => { c with names := setName mn r c.names }).setStack (.invalid :: l)).world = s₂.world := by
              unfold State.setStack State.modScope
              split <;> split <;> rfl
            have h6 : ((s₂.modScope fun c => { c with names := setName mn r c.names }).setStack (.invalid :: l)).scopes.map
                Scope.defers = s₁.scopes.map Scope.defers := by
              rw [setStack_scopes, ← h4]
              unfold State.modScope
              split
              · rfl
              · rename_i h; simp [h]
            have h7 : KeyApart kn id ((s₂.modScope fun c => { c with names := setName mn r c.names }).setStack (.invalid :: l)) := by
              intro n' hn' r' hr'
              rw [setStack_scopes] at hr'
              subst hn'
              have hne : n' ≠ mn := fun h => hn (by rw [h])
              simp only [SameContexts] at h3
              rw [hs₁] at h3
              unfold State.modScope at hr'
              split at hr'
              · rename_i h; rw [h] at hr'; simp at hr'
              · rename_i c cs hc
                rw [hc] at h3
                simp only [List.map_cons, List.cons.injEq, Prod.mk.injEq] at h3
                simp only [List.head?_cons, Option.bind_some, lookupName_setName, if_neg hne, h3.1.1] at hr'
                simp only [List.cons_append, List.nil_append, lookupName, if_true, Option.some.injEq] at hr'
                subst hr'
                simp [Ref.var?]
            have h8 : Untouched id s₁ (.ok ((s₂.modScope fun c => { c with names := setName mn r c.names }).setStack (.invalid :: l))) :=
              ⟨by rw [h5]; exact h2.1, by rw [h5]; exact h2.2⟩
            unfold withValue at h₁
            dsimp only at h₁
            split at h₁
            · split at h₁
              · cases h₁
                refine ⟨h8, ?_⟩
                rintro s' (h | ⟨e, h⟩) <;> cases h
                exact h6
              · split at h₁
                · cases h₁
                  refine ⟨h8, ?_⟩
                  rintro s' (h | ⟨e, h⟩) <;> cases h
                  exact h6
                · have h9 := eachL_keeps hn hb hk _ m _ o₁ h8.1 h7 h₁
                  exact ⟨h8.trans h9.1, fun x hx => (h9.2 x hx).trans h6⟩
            · cases h₁
              refine ⟨h8, ?_⟩
              rintro s' (h | ⟨e, h⟩) <;> cases h
              exact h6
            · cases h₁; exact ⟨trivial, by rintro s' (h | ⟨e, h⟩) <;> cases h⟩
        · cases h₁; exact ⟨trivial, by rintro s' (h | ⟨e, h⟩) <;> cases h⟩
      · rename_i e s₂ hx
        have h2 := hi s₁ _ (by rw [hw]; exact hid) ⟨m, hx⟩
        have h3 := hi' s₁ _ ⟨m, hx⟩
        cases h₁
        refine ⟨h2, ?_⟩
        rintro s' (h | ⟨e, h⟩) <;> cases h
        exact defers h3
      · rename_i h1 h2
        cases o₁ with
        | ok x => exact absurd h₁ (h1 x)
        | exc e x => exact absurd h₁ (h2 e x)
        | ub => exact ⟨trivial, by rintro s' (h | ⟨e, h⟩) <;> cases h⟩

namespace EachDemo

/-- `const x = [ 7 ];` has been executed. -/
def before : State Demo.Prim :=
  { Demo.start with world := ⟨fun _ => ⟨some (.arr [.int 7]), true⟩, 1, []⟩, scopes := [⟨[(1, .var 0 [])], [], false⟩] }

/-- `for(each k, k -> x) {}` -/
def loop (kn : Name) : Node Demo.Prim := .forEach (some kn) 2 [.pushLocal 1 1] [] []

/-- **C98 is false.**  If the key and the mapped element have the same name, both are the same reference, which is that of
the range; so the variable of the range is taken for that of the key, and is overwritten with the key although it is
a constant.  Initializer, body and `__ifcomplete` block do nothing. -/
theorem C98_false : ∃ e s', Runs Demo.sem (.node (loop 2)) before (.exc e s') ∧
    before.world.env 0 = ⟨some (.arr [.int 7]), true⟩ ∧ s'.world.env 0 = ⟨some (.int 0), true⟩ :=
  ⟨_, _, ⟨20, rfl⟩, rfl, rfl⟩

theorem leaves_empty (sem : Sem Demo.Prim) (id : Nat) : Leaves sem id (block []) := by
  intro s o hid h
  have : Runs sem (block []) s (.ok ((({ s with status := .next }.log .enter).log .done).log .leave)) := by
    refine ⟨4, ?_⟩
    simp [exec, step, block, onOut, finish, State.log, State.setStatus]
  cases Runs.det h this
  exact ⟨hid, rfl⟩

theorem init_outcome (sem : Sem Demo.Prim) (s : State Demo.Prim) (o : Out Demo.Prim)
    (h : Runs sem (.rod [.pushLocal 1 1]) s o) :
    o = .ub ∨ o = .exc message (s.setStatus .next) ∨ ∃ r, o = .ok ((s.setStatus .next).push r) := by
  have key : ∃ o', Runs sem (.rod [.pushLocal 1 1]) s o' ∧
      (o' = .ub ∨ o' = .exc message (s.setStatus .next) ∨ ∃ r, o' = .ok ((s.setStatus .next).push r)) := by
    have hp : ∀ r, ((s.setStatus .next).push r).status = .next := fun r => by
      unfold State.push State.setStack; split <;> rfl
    cases h1 : s.scopes[1]? with
    | none => exact ⟨.ub, ⟨4, by simp [exec, step, runNode, andThen, onOut, State.setStatus, h1]⟩, .inl rfl⟩
    | some c =>
      cases h2 : lookupName 1 c.names with
      | none => exact ⟨_, ⟨4, by simp [exec, step, runNode, andThen, onOut, State.setStatus, h1, h2]⟩, .inr (.inl rfl)⟩
      | some r =>
        by_cases h3 : r = .invalid
        · subst h3
          exact ⟨_, ⟨4, by simp [exec, step, runNode, andThen, onOut, State.setStatus, h1, h2]⟩, .inr (.inl rfl)⟩
        · refine ⟨_, ⟨4, ?_⟩, .inr (.inr ⟨r, rfl⟩)⟩
          have h4 : exec sem 2 (.node (.pushLocal 1 1)) (s.setStatus .next) = some (.ok ((s.setStatus .next).push r)) := by
            rw [exec, step, runNode, setStatus_scopes, h1]
            dsimp only
            rw [h2]
            cases r <;> first | rfl | exact absurd rfl h3
          have h5 : exec sem 3 (.seq [.pushLocal 1 1]) (s.setStatus .next) = some (.ok ((s.setStatus .next).push r)) := by
            rw [exec, step, h4, andThen, onOut]
            rw [hp, if_pos rfl]
            rfl
          exact h5
  obtain ⟨o', h1, h2⟩ := key
  rw [Runs.det h h1]
  exact h2

/-- With different names, the conditions of `C98_partial` are met: the loop leaves the constant alone. -/
example (o : Out Demo.Prim) (h : Runs Demo.sem (.node (loop 3)) before o) : Untouched 0 before o := by
  refine C98_partial Demo.sem 0 (some 3) 2 _ _ _ _ o (by decide) (by decide) ?_ ?_ (leaves_empty _ _) (leaves_empty _ _) h
  · intro s o hid h
    rcases init_outcome _ s o h with rfl | rfl | ⟨r, rfl⟩
    · trivial
    · exact ⟨hid, rfl⟩
    · unfold State.push State.setStack
      split <;> exact ⟨hid, rfl⟩
  · intro s o h
    rcases init_outcome _ s o h with rfl | rfl | ⟨r, rfl⟩
    · trivial
    · rfl
    · simp [SameContexts]

/-- It ends normally. -/
example : ∃ s', Runs Demo.sem (.node (loop 3)) before (.ok s') := ⟨_, 20, rfl⟩

end EachDemo

end Asteria.Exec
