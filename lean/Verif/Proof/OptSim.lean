import Verif.Proof.OptStmt

/-! Whatever is executed, code that does the same does the same. -/

namespace Asteria.Exec.Opt

open Safe

variable {P : Type} {sem : Sem P} {n k : Nat} {s s' : State P} {R : Task P → State P → Option (Out P)}

/-! ### Loops and `switch` -/

/-- An expression that is executed as a whole. -/
theorem exRod (ih : IH sem R) (hn : 1 ≤ n) (hb : Bs sem n s s') {c d : List (Node P)} (hx : Ex sem k c d) :
    Sim (PostE sem .any n k ⟨[], [], [], [], s.swapped, s'.swapped⟩) (R (.rod c) s) (run sem (.rod d) s') :=
  ih.app (.rod (.x (hb.setStatus _ _) hn rfl rfl hx))

/-- After an expression, both stacks are the same. -/
theorem exStack {τ τ' : Bool} (h : EOk sem .any n k ⟨[], [], [], [], τ, τ'⟩ s s') (hs : s.status = .next) :
    ∃ Y : List Ref, Y.length = k ∧ s.stack = Y ∧ s'.stack = Y := by
  obtain ⟨Y, h1, h2, h3⟩ := h.stk hs
  exact ⟨Y, h1, by simpa using h2, by simpa using h3⟩

theorem exStack1 {τ τ' : Bool} (h : EOk sem .any n 1 ⟨[], [], [], [], τ, τ'⟩ s s') (hs : s.status = .next) :
    ∃ r : Ref, s.stack = [r] ∧ s'.stack = [r] := by
  obtain ⟨Y, h1, h2, h3⟩ := exStack h hs
  match Y, h1 with
  | [r], _ => exact ⟨r, h2, h3⟩

theorem afterBody_ret {s c b : Status} (h : (afterBody s c b).2 = .ret) : s = .ret := by
  unfold afterBody at h
  split_ifs at h
  exact h

theorem afterBody_next {s c b : Status} (h : (afterBody s c b).1 = true) : (afterBody s c b).2 = .next := by
  unfold afterBody at h ⊢
  split_ifs at h ⊢ <;> rfl

/-- The body of a loop. -/
theorem turn_sim (ih : IH sem R) (hb : Bs sem n s s') (hf : s.swapped = false) (hf' : s'.swapped = false) {b b' : List (Node P)} (hbd : Body sem b b') (c br : Status)
    {K K' : State P → Option (Out P)}
    (hK : ∀ t t', Bs sem n t t' → t.swapped = false → t'.swapped = false → t.status = .next → t'.status = .next → Sim (PostS sem n 0) (K t) (K' t')) :
    Sim (PostS sem n 0)
      (andThen (R (block b) s) fun st =>
        let p := afterBody st.status c br
        let st := st.setStatus p.2
        if p.1 then K st else some (.ok st))
      (andThen (run sem (block b') s') fun st =>
        let p := afterBody st.status c br
        let st := st.setStatus p.2
        if p.1 then K' st else some (.ok st)) := by
  refine (block_sim ih hb hf hf' hbd).andThen (fun t t' hq => ?_) fun _ _ h => h.bs
  simp only
  rw [← hq.status]
  refine Sim.ite Iff.rfl (fun hp => hK _ _ (hq.bs.setStatus _ _) hq.sw hq.sw' (afterBody_next hp) (afterBody_next hp)) fun _ => ?_
  exact .ok (SOk.done (hq.bs.setStatus _ _) hq.sw hq.sw' rfl fun h => hq.ret (afterBody_ret h))

theorem aside_sim (ih : IH sem R) (hn : 1 ≤ n) (hb : Bs sem n s s') (hf : s.swapped = false) (hf' : s'.swapped = false) {b b' : List (Node P)} (hbd : Body sem b b') :
    Sim (PostS sem n 0) (aside R (block b) s) (aside (run sem) (block b') s') := by
  obtain ⟨a, l, a', l', e1, e2, hr, hl⟩ := hb.head hn
  unfold aside
  rw [e1, e2]
  obtain ⟨n, rfl⟩ : ∃ m, n = m + 1 := ⟨n - 1, by omega⟩
  have hlen : l.length = n := by have := hb.len; rw [e1] at this; simpa using this
  have fl : ∀ x ∈ l, x.swapped = false := by have := hb.flat; rw [e1] at this; exact this
  have fl' : ∀ x ∈ l', x.swapped = false := by have := hb.flat'; rw [e2] at this; exact this
  have ha : a.swapped = false := by unfold State.swapped at hf; rw [e1] at hf; exact hf
  have ha' : a'.swapped = false := by unfold State.swapped at hf'; rw [e2] at hf'; exact hf'
  have hb2 : Bs sem n { s with scopes := l } { s' with scopes := l' } :=
    ⟨hb.world, hb.funcs, hb.ptcs, hl, hlen, fun x hx => fl x (List.mem_of_mem_tail hx), fun x hx => fl' x (List.mem_of_mem_tail hx), hb.result, hb.trace⟩
  have s1 : ({ s with scopes := l } : State P).swapped = false := by
    unfold State.swapped; cases l with
    | nil => rfl
    | cons x l => exact fl x (by simp)
  have s2 : ({ s' with scopes := l' } : State P).swapped = false := by
    unfold State.swapped; cases l' with
    | nil => rfl
    | cons x l => exact fl' x (by simp)
  have back : ∀ t t' : State P, Bs sem n t t' → t.swapped = false → t'.swapped = false →
      Bs sem (n + 1) { t with scopes := a :: t.scopes } { t' with scopes := a' :: t'.scopes } := by
    intro t t' h f f'
    have all : ∀ u : State P, u.swapped = false → (∀ x ∈ u.scopes.tail, x.swapped = false) → ∀ x ∈ u.scopes, x.swapped = false := by
      intro u hu ht x hx
      unfold State.swapped at hu
      cases hs : u.scopes with
      | nil => rw [hs] at hx; cases hx
      | cons y ys =>
        rw [hs] at hx hu ht
        rcases List.mem_cons.1 hx with rfl | hx
        · exact hu
        · exact ht x hx
    exact ⟨h.world, h.funcs, h.ptcs, .cons hr h.scopes, by simp [h.len], all t f h.flat, all t' f' h.flat', h.result, h.trace⟩
  refine (block_sim ih hb2 s1 s2 hbd).finish (fun t t' hq => SOk.done (back t t' hq.bs hq.sw hq.sw') ha ha' hq.status fun h => ?_) fun t t' hq => back t t' hq.bs hq.sw hq.sw'
  obtain ⟨X, m, m', b1, b2, b3⟩ := hq.ret h
  refine ⟨X, m, m', b1, ?_, ?_⟩
  · rw [← b2]; unfold State.stack; rw [hq.sw]; simp only [State.swapped, ha]
  · rw [← b3]; unfold State.stack; rw [hq.sw']; simp only [State.swapped, ha']

theorem doL_sim (ih : IH sem R) (hn : 1 ≤ n) (hb : Bs sem n s s') (hf : s.swapped = false) (hf' : s'.swapped = false) {b b' x x' q q' : List (Node P)} (neg : Bool)
    (h1 : Body sem b b') (h2 : Ex sem 1 x x') (h3 : Body sem q q') :
    Sim (PostS sem n 0) (step sem R (.doL b neg x q) s) (step sem (run sem) (.doL b' neg x' q') s') := by
  refine turn_sim (K := fun st => andThen (R (.rod x) st) fun st => expectNext st <| withTop st fun r _ => withValue st (deref st.world r) fun v =>
      if test v = neg then R (block q) st else R (.doL b neg x q) st)
    (K' := fun st => andThen (run sem (.rod x') st) fun st => expectNext st <| withTop st fun r _ => withValue st (deref st.world r) fun v =>
      if test v = neg then run sem (block q') st else run sem (.doL b' neg x' q') st) ih hb hf hf' h1 .contWhile .brkWhile fun t t' hb hf hf' _ _ => ?_
  refine (exRod ih hn hb h2).andThen (fun t t' hq => Sim.next hq.status fun g1 g2 => ?_) fun _ _ h => h.bs
  obtain ⟨r, e1, e2⟩ := exStack1 hq g1
  refine Sim.top e1 e2 (Sim.value (deref_eq hq.bs.world r) hq.bs fun v => Sim.ite Iff.rfl (fun _ => ?_) fun _ => ?_)
  · exact PostW.toS (block_sim ih hq.bs (hq.sw.trans hf) (hq.sw'.trans hf') h3)
  · exact ih.app (.st (.doL neg h1 h2 h3) hq.bs hn (hq.sw.trans hf) (hq.sw'.trans hf') (.inl ⟨g1, g2⟩))

theorem whileL_sim (ih : IH sem R) (hn : 1 ≤ n) (hb : Bs sem n s s') (hf : s.swapped = false) (hf' : s'.swapped = false) {b b' x x' q q' : List (Node P)} (neg : Bool)
    (h2 : Ex sem 1 x x') (h1 : Body sem b b') (h3 : Body sem q q') :
    Sim (PostS sem n 0) (step sem R (.whileL neg x b q) s) (step sem (run sem) (.whileL neg x' b' q') s') := by
  refine (exRod ih hn hb h2).andThen (fun t t' hq => Sim.next hq.status fun g1 g2 => ?_) fun _ _ h => h.bs
  obtain ⟨r, e1, e2⟩ := exStack1 hq g1
  refine Sim.top e1 e2 (Sim.value (deref_eq hq.bs.world r) hq.bs fun v => Sim.ite Iff.rfl (fun _ => ?_) fun _ => ?_)
  · exact PostW.toS (block_sim ih hq.bs (hq.sw.trans hf) (hq.sw'.trans hf') h3)
  · exact turn_sim ih hq.bs (hq.sw.trans hf) (hq.sw'.trans hf') h1 _ _ fun t t' hb hf hf' g1 g2 => ih.app (.st (.whileL neg h2 h1 h3) hb hn hf hf' (.inl ⟨g1, g2⟩))

theorem eachInit_sim (ih : IH sem R) (hn : 1 ≤ n) (hb : Bs sem n s s') (hf : s.swapped = false) (hf' : s'.swapped = false) {b b' x x' q q' : List (Node P)} (kn : Option Name) (mn : Name)
    (h2 : Ex sem 1 x x') (h1 : Body sem b b') (h3 : Body sem q q') :
    Sim (PostS sem n 0) (step sem R (.eachInit kn mn x b q) s) (step sem (run sem) (.eachInit kn mn x' b' q') s') := by
  refine (exRod ih hn hb h2).andThen (fun t t' hq => Sim.next hq.status fun g1 g2 => ?_) fun _ _ h => h.bs
  obtain ⟨r, e1, e2⟩ := exStack1 hq g1
  refine Sim.top e1 e2 ?_
  have hb2 := (hq.bs.setName mn r).setStack [.invalid] [.invalid]
  have f1 : ((t.modScope fun s => { s with names := setName mn r s.names }).setStack [.invalid]).swapped = false := by
    rw [setStack_swapped, names_swapped]; exact hq.sw.trans hf
  have f2 : ((t'.modScope fun s => { s with names := setName mn r s.names }).setStack [.invalid]).swapped = false := by
    rw [setStack_swapped, names_swapped]; exact hq.sw'.trans hf'
  have c1 : ((t.modScope fun s => { s with names := setName mn r s.names }).setStack [.invalid]).status = .next := by
    rw [setStack_status, names_status]; exact g1
  have c2 : ((t'.modScope fun s => { s with names := setName mn r s.names }).setStack [.invalid]).status = .next := by
    rw [setStack_status, names_status]; exact g2
  refine Sim.value (deref_eq hb2.world r) hb2 fun v => ?_
  have key : Sim (PostS sem n 0)
      (match elements v with
        | none => some (.exc message ((t.modScope fun s => { s with names := setName mn r s.names }).setStack [.invalid]))
        | some es => R (.eachL es kn mn r b q) ((t.modScope fun s => { s with names := setName mn r s.names }).setStack [.invalid]))
      (match elements v with
        | none => some (.exc message ((t'.modScope fun s => { s with names := setName mn r s.names }).setStack [.invalid]))
        | some es => run sem (.eachL es kn mn r b' q') ((t'.modScope fun s => { s with names := setName mn r s.names }).setStack [.invalid])) := by
    cases elements v with
    | none => exact .exc _ hb2
    | some es => exact ih.app (.st (.eachL es kn mn r h1 h3) hb2 hn f1 f2 (.inl ⟨c1, c2⟩))
  cases v <;> first | exact key | exact .ok (SOk.put hb2 f1 f2 c1 c2 (Top.zero _ _))

theorem Bs.setKey (hb : Bs sem n s s') (x : Name) (v : Value) : Bs sem n (setKey s x v) (setKey s' x v) := by
  have h1 : (s.scopes.head?.bind fun s => lookupName x s.names).bind Ref.var? = (s'.scopes.head?.bind fun s => lookupName x s.names).bind Ref.var? := by
    have h4 := hb.scopes
    revert h4
    cases s.scopes <;> cases s'.scopes <;> intro h4
    · rfl
    · cases h4
    · cases h4
    · cases h4 with
      | cons ha _ => simp only [List.head?_cons, Option.bind_some, ha.names]
  unfold Exec.setKey
  rw [← h1]
  cases (s.scopes.head?.bind fun s => lookupName x s.names).bind Ref.var? with
  | some id => exact hb.initVar _ _ _
  | none =>
    obtain ⟨e, hb2⟩ := hb.newVar
    simp only
    rw [← e]
    exact (hb2.setName _ _).initVar _ _ _

theorem setKey_swapped (s : State P) (x : Name) (v : Value) : (setKey s x v).swapped = s.swapped := by
  unfold Exec.setKey
  split
  · rfl
  · simp only [initVar_swapped]; exact names_swapped _ _

theorem setKey_status (s : State P) (x : Name) (v : Value) : (setKey s x v).status = s.status := by
  unfold Exec.setKey
  split
  · rfl
  · simp only [initVar_status]; exact names_status _ _

theorem bind_ok (kn : Option Name) (mn : Name) (r : Ref) (e : Value × Subscript.Sub) (hb : Bs sem n s s') :
    Bs sem n (bindElement kn mn r e s) (bindElement kn mn r e s') ∧ (bindElement kn mn r e s).swapped = s.swapped ∧ (bindElement kn mn r e s').swapped = s'.swapped := by
  unfold bindElement
  cases kn with
  | none => exact ⟨hb.setName _ _, names_swapped _ _, names_swapped _ _⟩
  | some x => exact ⟨(hb.setKey x _).setName _ _, (names_swapped _ _).trans (setKey_swapped _ _ _), (names_swapped _ _).trans (setKey_swapped _ _ _)⟩

theorem eachL_sim (ih : IH sem R) (hn : 1 ≤ n) (hb : Bs sem n s s') (hf : s.swapped = false) (hf' : s'.swapped = false) {b b' q q' : List (Node P)}
    (es : List (Value × Subscript.Sub)) (kn : Option Name) (mn : Name) (r : Ref) (h1 : Body sem b b') (h3 : Body sem q q') :
    Sim (PostS sem n 0) (step sem R (.eachL es kn mn r b q) s) (step sem (run sem) (.eachL es kn mn r b' q') s') := by
  cases es with
  | nil => exact aside_sim ih hn hb hf hf' h3
  | cons e es =>
    obtain ⟨b1, b2, b3⟩ := bind_ok kn mn r e hb
    refine Sim.value (deref_eq b1.world _) b1 fun _ => turn_sim ih b1 (b2.trans hf) (b3.trans hf') h1 _ _ fun t t' hb hf hf' g1 g2 =>
      ih.app (.st (.eachL es kn mn r h1 h3) hb hn hf hf' (.inl ⟨g1, g2⟩))

theorem forInit_sim (ih : IH sem R) (hn : 1 ≤ n) (hb : Bs sem n s s') (hf : s.swapped = false) (hf' : s'.swapped = false) {j j' : Nat} {i i' x x' z z' b b' q q' : List (Node P)}
    (h0 : Body sem i i') (h1 : Ex sem j x x') (h2 : Ex sem j' z z') (h3 : Body sem b b') (h4 : Body sem q q') :
    Sim (PostS sem n 0) (step sem R (.forInit i x z b q) s) (step sem (run sem) (.forInit i' x' z' b' q') s') := by
  refine (ih.app (.st (.rod h0) hb hn hf hf' (.inr ⟨i, rfl⟩))).andThen (fun t t' hq => Sim.next hq.status fun g1 g2 => ?_) fun _ _ h => h
  exact ih.app (.st (.forL h1 h2 h3 h4) hq.bs hn hq.sw hq.sw' (.inl ⟨g1, g2⟩))

theorem forL_sim (ih : IH sem R) (hn : 1 ≤ n) (hb : Bs sem n s s') (hf : s.swapped = false) (hf' : s'.swapped = false) {j j' : Nat} {x x' z z' b b' q q' : List (Node P)}
    (h1 : Ex sem j x x') (h2 : Ex sem j' z z') (h3 : Body sem b b') (h4 : Body sem q q') :
    Sim (PostS sem n 0) (step sem R (.forL x z b q) s) (step sem (run sem) (.forL x' z' b' q') s') := by
  refine (exRod ih hn hb h1).andThen (fun t t' hq => Sim.next hq.status fun g1 g2 => ?_) fun _ _ h => h.bs
  obtain ⟨Y, _, e1, e2⟩ := exStack hq g1
  have hsw := hq.sw.trans hf
  have hsw' := hq.sw'.trans hf'
  have body : Sim (PostS sem n 0) _ _ := turn_sim (K := fun st => andThen (R (.rod z) st) fun st => expectNext st (R (.forL x z b q) st))
    (K' := fun st => andThen (run sem (.rod z') st) fun st => expectNext st (run sem (.forL x' z' b' q') st)) ih hq.bs hsw hsw' h3 .contFor .brkFor
    fun t t' hb hf hf' _ _ => (exRod ih hn hb h2).andThen (fun t t' hq => Sim.next hq.status fun g1 g2 =>
      ih.app (.st (.forL h1 h2 h3 h4) hq.bs hn (hq.sw.trans hf) (hq.sw'.trans hf') (.inl ⟨g1, g2⟩))) fun _ _ h => h.bs
  simp only [e1, e2]
  cases Y with
  | nil => exact body
  | cons r Y => exact Sim.value (deref_eq hq.bs.world r) hq.bs fun v => Sim.ite Iff.rfl (fun _ => body) fun _ => aside_sim ih hn hq.bs hsw hsw' h4

theorem Cl.names {cs cs' : List (Clause P)} : Cl sem cs cs' → ∀ i, (cs.take i).flatMap Clause.names = (cs'.take i).flatMap Clause.names
  | .nil, i => by simp
  | .default _ _ _ h, 0 | .case _ _ _ h, 0 | .each _ _ _ _ _ h, 0 => by simp
  | .default _ _ _ h, i + 1 | .case _ _ _ h, i + 1 | .each _ _ _ _ _ h, i + 1 => by
    simp only [List.take_succ_cons, List.flatMap_cons, Clause.names, Cl.names h i]

theorem Cl.drop {cs cs' : List (Clause P)} : Cl sem cs cs' → ∀ i, Cl sem (cs.drop i) (cs'.drop i)
  | .nil, i => by simp only [List.drop_nil]; exact .nil
  | .default ns a b h, 0 => .default ns a b h
  | .case ns a b h, 0 => .case ns a b h
  | .each l u ns a b h, 0 => .each l u ns a b h
  | .default _ _ _ h, i + 1 | .case _ _ _ h, i + 1 | .each _ _ _ _ _ h, i + 1 => Cl.drop h i

theorem label_sim (ih : IH sem R) (hn : 1 ≤ n) (hb : Bs sem n s s') (hf : s.swapped = false) (hf' : s'.swapped = false) {l l' : List (Node P)} (hl : Ex sem k l l') (v : Value)
    (kind : ClauseKind) (j : Nat) (target : Option Nat) {cs cs' all all' : List (Clause P)} (hc : Cl sem cs cs') (ha : Cl sem all all') :
    Sim (PostS sem n 0)
      (andThen (R (.rod l) s) fun st => expectNext st <|
        match clauseMatches st v kind with
        | none => some .ub
        | some .ub => some .ub
        | some .throw => some (.exc message st)
        | some (.ok true) => R (.find v [] j (some j) all) st
        | some (.ok false) => R (.find v cs (j + 1) target all) st)
      (andThen (run sem (.rod l') s') fun st => expectNext st <|
        match clauseMatches st v kind with
        | none => some .ub
        | some .ub => some .ub
        | some .throw => some (.exc message st)
        | some (.ok true) => run sem (.find v [] j (some j) all') st
        | some (.ok false) => run sem (.find v cs' (j + 1) target all') st) := by
  refine (exRod ih hn hb hl).andThen (fun t t' hq => Sim.next hq.status fun g1 g2 => ?_) fun _ _ h => h.bs
  obtain ⟨Y, _, e1, e2⟩ := exStack hq g1
  have hm : clauseMatches t v kind = clauseMatches t' v kind := by
    unfold clauseMatches; rw [e1, e2, hq.bs.world]
  rw [← hm]
  rcases clauseMatches t v kind with _ | r
  · exact .ub
  · rcases r with b | _ | _
    · cases b
      · exact ih.app (.st (.find v _ _ hc ha) hq.bs hn (hq.sw.trans hf) (hq.sw'.trans hf') (.inl ⟨g1, g2⟩))
      · exact ih.app (.st (.find v _ _ .nil ha) hq.bs hn (hq.sw.trans hf) (hq.sw'.trans hf') (.inl ⟨g1, g2⟩))
    · exact .exc _ hq.bs
    · exact .ub

theorem find_sim (ih : IH sem R) (hn : 1 ≤ n) (hb : Bs sem n s s') (hf : s.swapped = false) (hf' : s'.swapped = false) (h1 : s.status = .next) (h2 : s'.status = .next)
    {cs cs' all all' : List (Clause P)} (v : Value) (j : Nat) (target : Option Nat) (ha : Cl sem all all') :
    Cl sem cs cs' → Sim (PostS sem n 0) (step sem R (.find v cs j target all) s) (step sem (run sem) (.find v cs' j target all') s')
  | .nil => by
    cases target with
    | none => exact .ok (SOk.begin hb hf hf' h1 h2)
    | some i =>
      simp only [step]
      rw [ha.names i]
      exact PostW.toS (ih.app (.within _ (.clauses (ha.drop i)) hb hf hf' (.inl ⟨h1, h2⟩)))
  | .default _ _ _ h => ih.app (.st (.find v _ _ h ha) hb hn hf hf' (.inl ⟨h1, h2⟩))
  | .case _ hl _ h => label_sim ih hn hb hf hf' hl v .case j target h ha
  | .each lc uc _ hl _ h => label_sim ih hn hb hf hf' hl v (.each lc uc) j target h ha

theorem body_sim (ih : IH sem R) (hn : 1 ≤ n) (hb : Bs sem n s s') (hf : s.swapped = false) (hf' : s'.swapped = false) {b b' : List (Node P)} {cs cs' : List (Clause P)}
    (hbd : Body sem b b') (hc : Cl sem cs cs') :
    Sim (PostS sem n 0)
      (andThen (R (.rod b) s) fun st => if st.status = .next then R (.clauses cs) st
        else some (.ok (if st.status = .brk ∨ st.status = .brkSwitch then st.setStatus .next else st)))
      (andThen (run sem (.rod b') s') fun st => if st.status = .next then run sem (.clauses cs') st
        else some (.ok (if st.status = .brk ∨ st.status = .brkSwitch then st.setStatus .next else st))) := by
  refine (ih.app (.st (.rod hbd) hb hn hf hf' (.inr ⟨b, rfl⟩))).andThen (fun t t' hq => ?_) fun _ _ h => h
  refine Sim.ite (by rw [hq.status]) (fun g1 => ih.app (.st (.clauses hc) hq.bs hn hq.sw hq.sw' (.inl ⟨g1, hq.status ▸ g1⟩))) fun _ => .ok ?_
  rw [← hq.status]
  by_cases h : t.status = .brk ∨ t.status = .brkSwitch
  · rw [if_pos h, if_pos h]; exact SOk.put (hq.bs.setStatus _ _) hq.sw hq.sw' rfl rfl (Top.zero _ _)
  · rw [if_neg h, if_neg h]; exact hq

theorem clauses_sim (ih : IH sem R) (hn : 1 ≤ n) (hb : Bs sem n s s') (hf : s.swapped = false) (hf' : s'.swapped = false) (h1 : s.status = .next) (h2 : s'.status = .next)
    {cs cs' : List (Clause P)} : Cl sem cs cs' → Sim (PostS sem n 0) (step sem R (.clauses cs) s) (step sem (run sem) (.clauses cs') s')
  | .nil => .ok (SOk.begin hb hf hf' h1 h2)
  | .default _ _ hbd h => body_sim ih hn hb hf hf' hbd h
  | .case _ _ hbd h => body_sim ih hn hb hf hf' hbd h
  | .each _ _ _ _ hbd h => body_sim ih hn hb hf hf' hbd h

theorem tr_sim (ih : IH sem R) (hn : 1 ≤ n) (hb : Bs sem n s s') (hf : s.swapped = false) (hf' : s'.swapped = false) {t t' : Task P} (ht : TR sem t t') (hs : Started t s s') :
    Sim (PostS sem n 0) (step sem R t s) (step sem (run sem) t' s') := by
  cases ht with
  | rod h => exact ih.app (.s (hb.setStatus _ _) hn hf hf' rfl rfl h)
  | doL neg h1 h2 h3 => exact doL_sim ih hn hb hf hf' neg h1 h2 h3
  | whileL neg h1 h2 h3 => exact whileL_sim ih hn hb hf hf' neg h1 h2 h3
  | eachInit kn mn h1 h2 h3 => exact eachInit_sim ih hn hb hf hf' kn mn h1 h2 h3
  | eachL es kn mn r h1 h2 => exact eachL_sim ih hn hb hf hf' es kn mn r h1 h2
  | forInit h1 h2 h3 h4 h5 => exact forInit_sim ih hn hb hf hf' h1 h2 h3 h4 h5
  | forL h1 h2 h3 h4 => exact forL_sim ih hn hb hf hf' h1 h2 h3 h4
  | find v j target h1 h2 =>
    rcases hs with ⟨g1, g2⟩ | ⟨c, hc⟩
    · exact find_sim ih hn hb hf hf' g1 g2 v j target h2 h1
    · cases hc
  | clauses h =>
    rcases hs with ⟨g1, g2⟩ | ⟨c, hc⟩
    · exact clauses_sim ih hn hb hf hf' g1 g2 h
    · cases hc

/-! ### Contexts -/

/-- The current context is left. -/
def leave (st : State P) : State P := { st with scopes := st.scopes.tail }.log .leave

theorem leave_swapped (h : ∀ x ∈ s.scopes.tail, x.swapped = false) : (leave s).swapped = false := by
  unfold leave State.swapped
  simp only [State.log]
  cases hs : s.scopes.tail with
  | nil => rfl
  | cons x l => exact h x (by rw [hs]; simp)

theorem leave_bs (h : Bs sem (n + 1) s s') : Bs sem n (leave s) (leave s') := by
  refine Bs.log (s := { s with scopes := s.scopes.tail }) (s' := { s' with scopes := s'.scopes.tail })
    ⟨h.world, h.funcs, h.ptcs, ?_, ?_, fun x hx => h.flat x (List.mem_of_mem_tail hx), fun x hx => h.flat' x (List.mem_of_mem_tail hx), h.result, h.trace⟩ _
  · have h4 := h.scopes
    revert h4
    simp only
    generalize s.scopes = a
    generalize s'.scopes = b
    intro h4
    cases h4 with
    | nil => exact .nil
    | cons _ h => exact h
  · simp [h.len]

theorem leave_stack (h : ∀ x ∈ s.scopes.tail, x.swapped = false) (hf : s.swapped = false) : (leave s).stack = s.stack := by
  have h1 := leave_swapped h
  unfold State.stack
  rw [h1, hf]
  rfl

theorem within_sim (ih : IH sem R) (hb : Bs sem n s s') (hf : s.swapped = false) (hf' : s'.swapped = false) (names : List (Name × Ref)) {t t' : Task P}
    (ht : TR sem t t') (hs : Started t s s') :
    Sim (PostW sem n) (step sem R (.within names t) s) (step sem (run sem) (.within names t') s') := by
  have all : ∀ u : State P, u.swapped = false → (∀ x ∈ u.scopes.tail, x.swapped = false) → ∀ x ∈ u.scopes, x.swapped = false := by
    intro u hu ht x hx
    unfold State.swapped at hu
    cases hs : u.scopes with
    | nil => rw [hs] at hx; cases hx
    | cons y ys =>
      rw [hs] at hx hu ht
      rcases List.mem_cons.1 hx with rfl | hx
      · exact hu
      · exact ht x hx
  have hb1 : Bs sem (n + 1) (({ s with scopes := ⟨names, [], s.swapped⟩ :: s.scopes } : State P).log .enter)
      (({ s' with scopes := ⟨names, [], s'.swapped⟩ :: s'.scopes } : State P).log .enter) :=
    Bs.log (s := { s with scopes := ⟨names, [], s.swapped⟩ :: s.scopes }) (s' := { s' with scopes := ⟨names, [], s'.swapped⟩ :: s'.scopes })
      ⟨hb.world, hb.funcs, hb.ptcs, .cons ⟨rfl, .nil⟩ hb.scopes, by simp [hb.len], all s hf hb.flat, all s' hf' hb.flat', hb.result, hb.trace⟩ _
  have lv : ∀ u u' : State P, Bs sem (n + 1) u u' → WX sem n (leave u) (leave u') := fun u u' h => ⟨leave_bs h, leave_swapped h.flat, leave_swapped h.flat'⟩
  refine Sim.onOut trivial (ih.app (.st ht hb1 (by omega) hf hf' ?_)) (fun u u' hq => ?_) fun e u u' hq => ?_
  · rcases hs with h | h
    · exact .inl h
    · exact .inr h
  · refine (ih.app (.exit (n := n + 1) (s := u.log .done) (s' := u'.log .done) ⟨hq.bs.log _, hq.sw, hq.sw', hq.status, hq.top, hq.ret⟩ (by omega))).finish
      (fun v v' hv => ?_) fun v v' hv => lv v v' hv
    have h1 := lv v v' hv.bs
    refine SOk.done h1.bs h1.sw h1.sw' hv.status fun h => ?_
    obtain ⟨X, l, l', a1, a2, a3⟩ := hv.ret h
    exact ⟨X, l, l', a1, (leave_stack hv.bs.flat hv.sw).trans a2, (leave_stack hv.bs.flat' hv.sw').trans a3⟩
  · exact (ih.app (.exitE e (hq.log _) (by omega))).finish (fun _ _ h => h.elim) fun v v' hv => lv v v' hv

/-- The deferred expressions of the current context are changed. -/
theorem Bs.setDefers (hb : Bs sem n s s') {a a' : Scope P} {l l' : List (Scope P)} (e1 : s.scopes = a :: l) (e2 : s'.scopes = a' :: l') (hr : ScopeRel sem a a')
    {ds ds' : List (Nat × List (Node P))} (hd : List.Forall₂ (DeferRel sem) ds ds') :
    Bs sem n { s with scopes := { a with defers := ds } :: l } { s' with scopes := { a' with defers := ds' } :: l' } := by
  have h4 := hb.scopes
  have h5 := hb.len
  have h6 := hb.flat
  have h7 := hb.flat'
  rw [e1, e2] at h4
  rw [e1] at h5 h6
  rw [e2] at h7
  cases h4 with
  | cons _ hl => exact ⟨hb.world, hb.funcs, hb.ptcs, .cons ⟨hr.names, hd⟩ hl, h5, h6, h7, hb.result, hb.trace⟩

theorem defers_swapped {a : Scope P} {l : List (Scope P)} (e1 : s.scopes = a :: l) (ds : List (Nat × List (Node P))) :
    ({ s with scopes := { a with defers := ds } :: l } : State P).swapped = s.swapped := by
  unfold State.swapped; rw [e1]

theorem exitE_sim (ih : IH sem R) (hn : 1 ≤ n) (hb : Bs sem n s s') (e : Value) :
    Sim (Post (fun _ _ => False) (Bs sem n)) (step sem R (.exitE e) s) (step sem (run sem) (.exitE e) s') := by
  obtain ⟨a, l, a', l', e1, e2, hr, hl⟩ := hb.head hn
  simp only [step]
  rw [e1, e2]
  rcases f2_last hr.defers with ⟨h1, h2⟩ | ⟨d, d', h1, h2, ⟨h3, j, h4⟩, h5⟩
  · simp only [h1, h2, List.getLast?_nil]; exact .exc _ hb
  · simp only [h1, h2, h3]
    refine Sim.onOut trivial (exRod ih hn (Bs.log (hb.setDefers e1 e2 hr h5) _) h4) (fun t t' hq => Sim.next hq.status fun _ _ => ih.app (.exitE e hq.bs hn)) fun e' t t' hq =>
      ih.app (.exitE e' hq.bs hn)

theorem exitN_sim (ih : IH sem R) (hn : 1 ≤ n) (hb : Bs sem n s s') (hf : s.swapped = false) (hf' : s'.swapped = false) (saved : Ref) (status : Status) :
    Sim (Post (NOk sem n saved status) (Bs sem n)) (step sem R (.exitN saved status) s) (step sem (run sem) (.exitN saved status) s') := by
  obtain ⟨a, l, a', l', e1, e2, hr, hl⟩ := hb.head hn
  simp only [step]
  rw [e1, e2]
  rcases f2_last hr.defers with ⟨h1, h2⟩ | ⟨d, d', h1, h2, ⟨h3, j, h4⟩, h5⟩
  · simp only [h1, h2, List.getLast?_nil]
    have key : ∀ r, NOk sem n r status ((s.push r).setStatus status) ((s'.push r).setStatus status) := fun r =>
      ⟨(hb.push _ _).setStatus _ _, (push_swapped s _).trans hf, (push_swapped s' _).trans hf', rfl, rfl, fun _ => Top.weaken (push_stack s _) (push_stack s' _)⟩
    cases saved <;> first | exact .ok (key _) | exact .ok ⟨hb.setStatus _ _, hf, hf', rfl, rfl, fun h => absurd rfl h⟩
  · simp only [h1, h2, h3]
    have g := exRod ih hn (Bs.log (hb.setDefers e1 e2 hr h5) (.run d'.1)) h4
    refine Sim.onOut trivial g (fun t t' hq => Sim.next hq.status fun _ _ => ih.app (.exitN saved status hq.bs hn ?_ ?_)) fun e' t t' hq =>
      (ih.app (.exitE e' hq.bs hn)).mono (fun _ _ h => h.elim) fun _ _ h => h
    · exact hq.sw.trans ((defers_swapped e1 a.defers.dropLast).trans hf)
    · exact hq.sw'.trans ((defers_swapped e2 a'.defers.dropLast).trans hf')

theorem exit_sim (ih : IH sem R) (hn : 1 ≤ n) (ho : SOk sem n 0 s s') :
    Sim (PostS sem n 0) (step sem R .exit s) (step sem (run sem) .exit s') := by
  have hb := ho.bs
  obtain ⟨a, l, a', l', e1, e2, hr, hl⟩ := hb.head hn
  simp only [step]
  rw [e1, e2]
  simp only
  refine Sim.ite (by rw [hr.defers.length_eq]) (fun _ => .ok ho) fun _ => Sim.ite (by rw [ho.status]) (fun h => ?_) fun h => ?_
  · obtain ⟨r, X, m, m', b1, b2, b3⟩ := (ho.ret h).cons
    refine Sim.top b2 b3 ?_
    have key : r ≠ .invalid → Sim (PostS sem n 0) (R (.exitN r s.status) (s.setStack (.invalid :: (X ++ m)))) (run sem (.exitN r s'.status) (s'.setStack (.invalid :: (X ++ m')))) := by
      intro hne
      rw [← ho.status]
      refine (ih.app (.exitN r s.status (hb.setStack _ _) hn ((setStack_swapped _ _).trans ho.sw) ((setStack_swapped _ _).trans ho.sw'))).mono (fun t t' hq => ?_) fun _ _ h => h
      exact SOk.done hq.bs hq.sw hq.sw' (hq.status.trans hq.status'.symm) fun _ => hq.top hne
    cases r <;> first | exact .ub | exact key (by simp) | skip
    rename_i id
    refine Sim.ite (by rw [hb.ptcs.length_eq]) (fun _ => .ok ?_) fun _ => .ub
    have hb3 := hb.setDefers e1 e2 hr (ds := []) (ds' := []) .nil
    have st : ∀ (u : State P) (c : Scope P) (q : List (Scope P)) (ps : List (PtcArgs P)) (ev : Event), u.scopes = c :: q →
        ((({ u with ptcs := ps, scopes := { c with defers := [] } :: q } : State P).log ev).swapped = u.swapped ∧
          (({ u with ptcs := ps, scopes := { c with defers := [] } :: q } : State P).log ev).stack = u.stack) := by
      intro u c q ps ev hu
      have : (({ u with ptcs := ps, scopes := { c with defers := [] } :: q } : State P).log ev).swapped = u.swapped := by unfold State.swapped; rw [hu]; rfl
      refine ⟨this, ?_⟩
      unfold State.stack; rw [this]; rfl
    have hm : List.Forall₂ (PtcRel sem) (s.ptcs.modify id fun p => { p with defers := p.defers ++ a.defers })
        (s'.ptcs.modify id fun p => { p with defers := p.defers ++ a'.defers }) := by
      refine f2_modify hb.ptcs ?_ id
      intro p q hpq
      exact ⟨hpq.1, hpq.2, hpq.3, hpq.4, f2_append hpq.5 hr.defers⟩
    have hb4 : Bs sem n { s with ptcs := s.ptcs.modify id fun p => { p with defers := p.defers ++ a.defers }, scopes := { a with defers := [] } :: l }
        { s' with ptcs := s'.ptcs.modify id fun p => { p with defers := p.defers ++ a'.defers }, scopes := { a' with defers := [] } :: l' } :=
      ⟨hb3.world, hb3.funcs, hm, hb3.scopes, hb3.len, hb3.flat, hb3.flat', hb3.result, hb3.trace⟩
    refine SOk.done (hb4.log _) ?_ ?_ ho.status fun _ => ?_
    · exact (st s a l _ _ e1).1.trans ho.sw
    · exact (st s' a' l' _ _ e2).1.trans ho.sw'
    · exact Top.weaken ((st s a l _ _ e1).2.trans b2) ((st s' a' l' _ _ e2).2.trans b3)
  · rw [← ho.status]
    refine (ih.app (.exitN .invalid s.status hb hn ho.sw ho.sw')).mono (fun t t' hq => ?_) fun _ _ h => h
    exact SOk.done hq.bs hq.sw hq.sw' (hq.status.trans hq.status'.symm) fun h' => absurd (hq.status.symm.trans h') h

/-! ### Parts of expressions -/

theorem arm_sim (ih : IH sem R) (hn : 1 ≤ n) (hb : Bs sem n s s') (h1 : s.status = .next) (h2 : s'.status = .next) {m : Mode} {t t' : List (Node P)} {r : Ref} {B B' : List Ref}
    (a : Bool) (e1 : s.stack = r :: B) (e2 : s'.stack = r :: B') : Arm sem m t t' →
    Sim (PostE sem m n 1 ⟨B, B', s.alt, s'.alt, s.swapped, s'.swapped⟩) (step sem R (.sub a t) s) (step sem (run sem) (.sub a t') s')
  | .nil _ => by
    refine Sim.next (h1.trans h2.symm) fun _ _ => .ok ⟨hb, rfl, rfl, h1.trans h2.symm, fun _ => ⟨[r], rfl, e1, e2⟩, fun h => absurd h1 h, fun _ => ⟨rfl, rfl⟩⟩
  | .code (t := x :: t) (t' := x' :: t') _ _ h => by
    simp only [step]
    refine Sim.ite Iff.rfl (fun _ => ?_) fun _ => ?_
    · refine (ih.app (.rod (.e (hb.setStatus _ _) hn rfl rfl h))).andThen (fun u u' hq => Sim.next hq.status fun g1 g2 => ?_) fun u u' hq => ⟨hq.bs, hq.sw⟩
      obtain ⟨v, Y, hY, k1, k2⟩ := hq.cons g1
      obtain rfl : Y = [] := List.length_eq_zero_iff.1 hY
      have k1 : u.stack = v :: r :: B := by rw [k1]; show v :: s.stack = _; rw [e1]
      have k2 : u'.stack = v :: r :: B' := by rw [k2]; show v :: s'.stack = _; rw [e2]
      have hx : EX sem m n ⟨B, B', s.alt, s'.alt, s.swapped, s'.swapped⟩ u u' := ⟨hq.bs, fun _ => ⟨hq.sw, hq.sw'⟩⟩
      refine Sim.top k1 k2 (Sim.value (derefCopy_eq hq.bs.world v) hx fun y => ?_)
      simp only
      rw [← hq.bs.world]
      cases hq2 : (r.toSub.assign sem.lim u.world.env y).2 with
      | ok _ =>
        simp only
        refine .ok ⟨(hq.bs.setWorld _).setStack _ _, (setStack_swapped _ _).trans hq.sw, (setStack_swapped _ _).trans hq.sw', ?_, fun _ => ⟨[r], rfl, setStack_stack _ _, setStack_stack _ _⟩,
          fun h => absurd (by rw [setStack_status]; exact g1) h, fun hm => ⟨(setStack_alt _ _).trans (hq.alt hm).1, (setStack_alt _ _).trans (hq.alt hm).2⟩⟩
        rw [setStack_status, setStack_status]; exact hq.status
      | throw => exact .exc _ ⟨hq.bs.setWorld _, fun _ => ⟨hq.sw, hq.sw'⟩⟩
      | ub => exact .ub
    · refine Sim.top e1 e2 ?_
      refine (ih.app (.rod (.e ((hb.setStack B B').setStatus _ _) hn rfl rfl h))).mono (fun u u' hq => ?_) fun u u' hq => ?_
      · refine hq.reframe (Z := []) ?_ ?_ ?_ ?_ ?_ rfl
        · exact setStack_stack s _
        · exact setStack_stack s' _
        · exact setStack_swapped s _
        · exact setStack_swapped s' _
        · exact fun _ => ⟨setStack_alt s _, setStack_alt s' _⟩
      · refine hq.reframe ?_ ?_
        · exact setStack_swapped s _
        · exact setStack_swapped s' _

/-! ### Calls -/

theorem Kp.refl (s : State P) : Kp s s := ⟨rfl, rfl, rfl, rfl⟩

theorem Kp.trans {a b c : State P} (h : Kp a b) (h' : Kp b c) : Kp a c :=
  ⟨h'.1.trans h.1, h'.2.trans h.2, h'.3.trans h.3, h'.4.trans h.4⟩

theorem COk.trans {t t' u u' : State P} (h : COk sem n s s' t t') (h' : COk sem n t t' u u') : COk sem n s s' u u' :=
  ⟨h'.bs, h.kp.trans h'.kp, h.kp'.trans h'.kp'⟩

theorem COk.refl (h : Bs sem n s s') : COk sem n s s' s s' := ⟨h, Kp.refl _, Kp.refl _⟩

theorem PostC.trans {t t' : State P} {o o' : Option (Out P)} (h : COk sem n s s' t t') (ho : Sim (PostC sem n t t') o o') : Sim (PostC sem n s s') o o' :=
  ho.mono (fun _ _ h' => h.trans h') fun _ _ h' => h.trans h'

/-- What belongs to the caller is restored. -/
theorem Bs.restore {j : Nat} {t t' : State P} (hb : Bs sem n s s') (h : Bs sem j t t') : Bs sem n (restore s t) (restore s' t') :=
  ⟨h.world, h.funcs, h.ptcs, hb.scopes, hb.len, hb.flat, hb.flat', h.result, h.trace⟩

theorem COk.restore {j : Nat} {t t' : State P} (hb : Bs sem n s s') (h : Bs sem j t t') : COk sem n s s' (restore s t) (restore s' t') :=
  ⟨hb.restore h, ⟨rfl, rfl, rfl, rfl⟩, ⟨rfl, rfl, rfl, rfl⟩⟩

theorem tailOrCall_sim (ih : IH sem R) (hb : Bs sem n s s') (h1 : s.status = .next) (h2 : s'.status = .next) {r : Ref} {l l' : List Ref} (ptc : Ptc) (f : Nat)
    (e1 : s.stack = r :: l) (e2 : s'.stack = r :: l') (ha : s.alt = s'.alt) :
    Sim (Post (TOk sem n l l' s.swapped s'.swapped) (TX sem n s.swapped s'.swapped)) (step sem R (.tailOrCall ptc f) s) (step sem (run sem) (.tailOrCall ptc f) s') := by
  refine Sim.top e1 e2 (Sim.ite Iff.rfl (fun _ => ?_) fun _ => ?_)
  · rw [← ha]
    refine (ih.app (.enter f r _ hb)).andThen (fun t t' hq => ?_) fun t t' hq => ⟨hq.bs, kp_swapped hq.kp, kp_swapped hq.kp'⟩
    rw [← hq.bs.result]
    refine (PostC.trans hq (ih.app (.check _ hq.bs))).andThen (fun t t' hq => ?_) fun t t' hq => ⟨hq.bs, kp_swapped hq.kp, kp_swapped hq.kp'⟩
    refine Sim.next ((hq.kp.status.trans h1).trans (hq.kp'.status.trans h2).symm) fun g1 g2 => .ok ⟨(hq.bs.setStack _ _).setAlt _ _, ?_, ?_, ?_, ?_, t.result, ?_, ?_⟩
    · rw [setAlt_swapped, setStack_swapped]; exact kp_swapped hq.kp
    · rw [setAlt_swapped, setStack_swapped]; exact kp_swapped hq.kp'
    · rw [setAlt_status, setStack_status, setAlt_status, setStack_status]; exact g1.trans g2.symm
    · left; rw [setAlt_status, setStack_status]; exact g1
    · rw [setAlt_stack, setStack_stack]
    · rw [setAlt_stack, setStack_stack, hq.bs.result]
  · rw [← ha, hb.ptcs.length_eq]
    have hb2 : Bs sem n { s with ptcs := s.ptcs ++ [⟨ptc, f, r, s.alt.reverse, []⟩] } { s' with ptcs := s'.ptcs ++ [⟨ptc, f, r, s.alt.reverse, []⟩] } :=
      ⟨hb.1, hb.2, f2_append hb.3 (.cons ⟨rfl, rfl, rfl, rfl, .nil⟩ .nil), hb.4, hb.5, hb.6, hb.7, hb.8, hb.9⟩
    refine .ok ⟨((hb2.setStack _ _).setAlt _ _).setStatus _ _, ?_, ?_, rfl, .inr rfl, .ptc s'.ptcs.length, ?_, ?_⟩
    · rw [setStatus_swapped, setAlt_swapped, setStack_swapped]; rfl
    · rw [setStatus_swapped, setAlt_swapped, setStack_swapped]; rfl
    · rw [setStatus_stack, setAlt_stack, setStack_stack]
    · rw [setStatus_stack, setAlt_stack, setStack_stack]

theorem call_sim' (ih : IH sem R) (hb : Bs sem 0 s s') (names : List (Name × Ref)) {c d : List (Node P)} (h : Body sem c d) :
    Sim (Post (FOk sem) (FOk sem)) (step sem R (.call names c) s) (step sem (run sem) (.call names d) s') := by
  have sw : ∀ u : State P, u.scopes.length = 0 → u.swapped = false := by
    intro u hu; unfold State.swapped; rw [List.length_eq_zero_iff.1 hu]
  refine (ih.app (.within names (.rod h) hb (sw _ hb.len) (sw _ hb.len') (.inr ⟨c, rfl⟩))).andThen (fun t t' hq => ?_) fun _ _ hq => ⟨hq.bs⟩
  unfold functionResult
  have res : ∀ (r : Ref) (q q' : Status), Bs sem 0 { t with status := q, result := r } { t' with status := q', result := r } := fun r q q' => (hq.bs.setStatus q q').setResult r
  rw [← hq.status]
  cases hs : t.status <;> simp only
  case next => exact Sim.ok ⟨res _ _ _⟩
  case retVoid => exact Sim.ok ⟨res _ _ _⟩
  all_goals first | exact Sim.exc message ⟨hq.bs⟩ | skip
  obtain ⟨r, X, l, l', a1, a2, a3⟩ := (hq.ret hs).cons
  exact Sim.top a2 a3 (.ok ⟨res _ _ _⟩)

theorem enter_sim (ih : IH sem R) (hb : Bs sem n s s') (f : Nat) (self : Ref) (args : List Ref) :
    Sim (PostC sem n s s') (step sem R (.enter f self args) s) (step sem (run sem) (.enter f self args) s') := by
  simp only [step]
  rcases f2_get hb.funcs f with ⟨h1, h2⟩ | ⟨a, b, h1, h2, h3⟩
  · rw [h1, h2]; exact .ub
  · rw [h1, h2]
    cases h3 with
    | native p =>
      simp only
      rw [← hb.world]
      cases sem.native p s.world self args with
      | ok w r => exact .ok ⟨(hb.setWorld w).setResult r, ⟨rfl, rfl, rfl, rfl⟩, ⟨rfl, rfl, rfl, rfl⟩⟩
      | throw e w => exact .exc _ ⟨hb.setWorld w, ⟨rfl, rfl, rfl, rfl⟩, ⟨rfl, rfl, rfl, rfl⟩⟩
      | ub => exact .ub
    | inst ps va hbd =>
      simp only
      cases bindArgs va [] ps args with
      | none => exact .exc _ (COk.refl hb)
      | some names =>
        have hb2 : Bs sem 0 { s with scopes := [], stk0 := args.map fun _ => .invalid, stk1 := [], status := .next }
            { s' with scopes := [], stk0 := args.map fun _ => .invalid, stk1 := [], status := .next } :=
          ⟨hb.1, hb.2, hb.3, .nil, rfl, (fun _ h => by cases h), (fun _ h => by cases h), hb.8, hb.9⟩
        exact Sim.onOut trivial (ih.app (.call names hb2 hbd)) (fun t t' hq => .ok (COk.restore hb hq.bs)) fun e t t' hq => .exc e (COk.restore hb hq.bs)

theorem check_sim' (ih : IH sem R) (hb : Bs sem n s s') (r : Ref) :
    Sim (PostC sem n s s') (step sem R (.check r) s) (step sem (run sem) (.check r) s') := by
  have key : ∀ r : Ref, Sim (PostC sem n s s') (if r.plain then some (.ok { s with result := r }) else some (.exc message s))
      (if r.plain then some (.ok { s' with result := r }) else some (.exc message s')) := fun r =>
    Sim.ite Iff.rfl (fun _ => .ok ⟨hb.setResult r, ⟨rfl, rfl, rfl, rfl⟩, ⟨rfl, rfl, rfl, rfl⟩⟩) fun _ => .exc _ (COk.refl hb)
  cases r <;> simp only [step] <;> first | exact key _ | skip
  refine (ih.app (.unpack _ [] hb)).andThen (fun t t' hq => ?_) fun _ _ h => h
  exact Sim.ite (by rw [hq.bs.result]) (fun _ => .ok hq) fun _ => .exc _ hq

theorem unpack_sim (ih : IH sem R) (hb : Bs sem n s s') (r : Ref) (fr : List Nat) :
    Sim (PostC sem n s s') (step sem R (.unpack r fr) s) (step sem (run sem) (.unpack r fr) s') := by
  have res : ∀ r, COk sem n s s' { s with result := r } { s' with result := r } := fun r => ⟨hb.setResult r, ⟨rfl, rfl, rfl, rfl⟩, ⟨rfl, rfl, rfl, rfl⟩⟩
  cases r
  case ptc id =>
    simp only [step]
    rcases f2_get hb.ptcs id with ⟨h1, h2⟩ | ⟨a, b, h1, h2, h3⟩
    · rw [h1, h2]; exact .ub
    · rw [h1, h2]
      simp only [h3.target, h3.self, h3.args]
      refine Sim.onOut trivial (ih.app (.enter _ _ _ hb)) (fun t t' hq => ?_) fun e t t' hq => PostC.trans hq (ih.app (.framesE _ e hq.bs))
      rw [← hq.bs.result]
      exact PostC.trans hq (ih.app (.unpack _ _ hq.bs))
  all_goals
    cases fr with
    | nil => exact .ub
    | cons id fr =>
      simp only [step]
      rcases f2_get hb.ptcs id with ⟨h1, h2⟩ | ⟨a, b, h1, h2, h3⟩
      · rw [h1, h2]; exact .ub
      · rw [h1, h2]
        simp only [h3.aware]
        refine Sim.ite Iff.rfl (fun _ => PostC.trans (res _) (ih.app (.framesN _ none (res _).bs))) fun _ => ?_
        first
          | exact PostC.trans (res _) (ih.app (.framesN _ none (res _).bs))
          | (rw [← deref_eq hb.world]
             cases deref s.world _ with
             | ok v => exact PostC.trans (res _) (ih.app (.framesN _ (some v) (res _).bs))
             | throw => exact ih.app (.framesE _ _ hb)
             | ub => exact .ub)

theorem resume_bs {a b : PtcArgs P} (hb : Bs sem n s s') (h : PtcRel sem a b) (id : Nat) :
    Bs sem 1 (({ s with ptcs := s.ptcs.modify id fun p => { p with defers := [] }, scopes := [⟨[], a.defers, false⟩], stk0 := [], stk1 := [], status := .next } : State P).log (.resume id))
      (({ s' with ptcs := s'.ptcs.modify id fun p => { p with defers := [] }, scopes := [⟨[], b.defers, false⟩], stk0 := [], stk1 := [], status := .next } : State P).log (.resume id)) :=
  Bs.log (s := { s with ptcs := s.ptcs.modify id fun p => { p with defers := [] }, scopes := [⟨[], a.defers, false⟩], stk0 := [], stk1 := [], status := .next })
    (s' := { s' with ptcs := s'.ptcs.modify id fun p => { p with defers := [] }, scopes := [⟨[], b.defers, false⟩], stk0 := [], stk1 := [], status := .next })
    ⟨hb.1, hb.2, f2_modify (f := fun p => { p with defers := [] }) (g := fun p => { p with defers := [] }) hb.3 (fun _ _ h => ⟨h.1, h.2, h.3, h.4, .nil⟩) id, .cons ⟨rfl, h.defers⟩ .nil, rfl, (fun _ h => by cases h), (fun _ h => by cases h), hb.8, hb.9⟩ _

theorem framesE_sim (ih : IH sem R) (hb : Bs sem n s s') (fr : List Nat) (e : Value) :
    Sim (PostC sem n s s') (step sem R (.framesE fr e) s) (step sem (run sem) (.framesE fr e) s') := by
  cases fr with
  | nil => exact .exc _ (COk.refl hb)
  | cons id fr =>
    simp only [step]
    rcases f2_get hb.ptcs id with ⟨h1, h2⟩ | ⟨a, b, h1, h2, h3⟩
    · rw [h1, h2]; exact .ub
    · rw [h1, h2]
      simp only
      refine Sim.onOut trivial (ih.app (.exitE e (resume_bs hb h3 id) (le_refl 1))) (fun t t' hq => hq.elim) fun e' t t' hq => ?_
      have hc : COk sem n s s' ((restore s t).log .leave) ((restore s' t').log .leave) := ⟨(hb.restore hq).log _, ⟨rfl, rfl, rfl, rfl⟩, ⟨rfl, rfl, rfl, rfl⟩⟩
      exact PostC.trans hc (ih.app (.framesE fr e' hc.bs))

theorem framesN_go (ih : IH sem R) (hb : Bs sem n s s') (fr : List Nat) (id : Nat) {a b : PtcArgs P} (h3 : PtcRel sem a b) :
    Sim (PostC sem n s s')
      (onOut (R (.exitN .invalid .next) (({ s with ptcs := s.ptcs.modify id fun p => { p with defers := [] }, scopes := [⟨[], a.defers, false⟩], stk0 := [], stk1 := [], status := .next } : State P).log (.resume id)))
        (fun st' => R (.framesN fr none) ({ restore s st' with result := s.result }.log .leave)) fun e st' => R (.framesE fr e) ((restore s st').log .leave))
      (onOut (run sem (.exitN .invalid .next) (({ s' with ptcs := s'.ptcs.modify id fun p => { p with defers := [] }, scopes := [⟨[], b.defers, false⟩], stk0 := [], stk1 := [], status := .next } : State P).log (.resume id)))
        (fun st' => run sem (.framesN fr none) ({ restore s' st' with result := s'.result }.log .leave)) fun e st' => run sem (.framesE fr e) ((restore s' st').log .leave)) := by
  refine Sim.onOut trivial (ih.app (.exitN .invalid .next (resume_bs hb h3 id) (le_refl 1) rfl rfl)) (fun t t' hq => ?_) fun e' t t' hq => ?_
  · rw [← hb.result]
    have hc : COk sem n s s' ({ restore s t with result := s.result }.log .leave) ({ restore s' t' with result := s.result }.log .leave) :=
      ⟨((hb.restore hq.bs).setResult _).log _, ⟨rfl, rfl, rfl, rfl⟩, ⟨rfl, rfl, rfl, rfl⟩⟩
    exact PostC.trans hc (ih.app (.framesN fr none hc.bs))
  · have hc : COk sem n s s' ((restore s t).log .leave) ((restore s' t').log .leave) := ⟨(hb.restore hq).log _, ⟨rfl, rfl, rfl, rfl⟩, ⟨rfl, rfl, rfl, rfl⟩⟩
    exact PostC.trans hc (ih.app (.framesE fr e' hc.bs))

theorem framesN_sim (ih : IH sem R) (hb : Bs sem n s s') (fr : List Nat) (v : Option Value) :
    Sim (PostC sem n s s') (step sem R (.framesN fr v) s) (step sem (run sem) (.framesN fr v) s') := by
  have res : ∀ r, COk sem n s s' { s with result := r } { s' with result := r } := fun r => ⟨hb.setResult r, ⟨rfl, rfl, rfl, rfl⟩, ⟨rfl, rfl, rfl, rfl⟩⟩
  cases fr with
  | nil => exact .ok (COk.refl hb)
  | cons id fr =>
    simp only [step]
    rcases f2_get hb.ptcs id with ⟨h1, h2⟩ | ⟨a, b, h1, h2, h3⟩
    · rw [h1, h2]; exact .ub
    · rw [h1, h2]
      simp only [h3.aware]
      cases b.aware <;> cases v <;> first | exact framesN_go ih hb fr id h3 | exact PostC.trans (res _) (framesN_go ih (res _).bs fr id h3)

/-! ### Everything -/

theorem claim_step (ih : IH sem R) {t t' : Task P} {Q : Out P → Out P → Prop} (h : Claim sem t s t' s' Q)
    (hnot : ∀ c, t ≠ .seq c) : Sim Q (step sem R t s) (step sem (run sem) t' s') := by
  cases h with
  | e _ _ _ _ _ => exact absurd rfl (hnot _)
  | x _ _ _ _ _ => exact absurd rfl (hnot _)
  | s _ _ _ _ _ _ _ => exact absurd rfl (hnot _)
  | rod h => exact ih.app h
  | st ht hb hn hf hf' hs => exact tr_sim ih hn hb hf hf' ht hs
  | within names ht hb hf hf' hs => exact within_sim ih hb hf hf' names ht hs
  | exit ho hn => exact exit_sim ih hn ho
  | exitN saved status hb hn hf hf' => exact exitN_sim ih hn hb hf hf' saved status
  | exitE e hb hn => exact exitE_sim ih hn hb e
  | sub a hb hn h1 h2 ha e1 e2 => exact arm_sim ih hn hb h1 h2 a e1 e2 ha
  | tailOrCall ptc f hb h1 h2 e1 e2 ha => exact tailOrCall_sim ih hb h1 h2 ptc f e1 e2 ha
  | call names hb h => exact call_sim' ih hb names h
  | enter f self args hb => exact enter_sim ih hb f self args
  | check r hb => exact check_sim' ih hb r
  | unpack r fr hb => exact unpack_sim ih hb r fr
  | framesN fr v hb => exact framesN_sim ih hb fr v
  | framesE fr e hb => exact framesE_sim ih hb fr e

theorem x_sim (ih : IH sem R) (hn : 1 ≤ n) (hb : Bs sem n s s') (h1 : s.status = .next) (h2 : s'.status = .next) {c d : List (Node P)} : Ex sem k c d →
    Sim (PostE sem .any n k ⟨[], [], [], [], s.swapped, s'.swapped⟩) (runSeq sem R c s) (runSeq sem (run sem) d s')
  | .mk h => by
    have g1 : (s.setStack []).status = .next := (setStack_status _ _).trans h1
    have g2 : (s'.setStack []).status = .next := (setStack_status _ _).trans h2
    simp only [runSeq, runNode, andThen, onOut]
    rw [if_pos g1, if_pos g2]
    refine (e_sim ih hn h (hb.setStack [] []) g1 g2).mono (fun u u' hq => ?_) fun u u' hq => hq.reframe (setStack_swapped _ _) (setStack_swapped _ _)
    exact hq.reframe (Z := []) (setStack_stack _ _) (setStack_stack _ _) (setStack_swapped _ _) (setStack_swapped _ _) (fun h => by cases h) rfl

theorem seq_sim (ih : IH sem R) {c : List (Node P)} {t' : Task P} {Q : Out P → Out P → Prop} (h : Claim sem (.seq c) s t' s' Q) :
    Sim Q (runSeq sem R c s) (run sem t' s') := by
  cases h with
  | e hb hn h1 h2 he => rw [run_seq]; exact e_sim ih hn he hb h1 h2
  | x hb hn h1 h2 he => rw [run_seq]; exact x_sim ih hn hb h1 h2 he
  | s hb hn hf hf' h1 h2 hbd =>
    rw [run_seq]
    cases hbd with
    | mk h => exact (s_sim ih hn h hb hf hf' h1 h2).mono (fun _ _ hq => hq.zero) fun _ _ hq => hq
  | st ht => cases ht

theorem all_sim (sem : Sem P) : ∀ i : Nat, IH sem (exec sem i)
  | 0 => ⟨fun _ => .none _⟩
  | i + 1 => ⟨fun {t t' s s' Q} h => by
    have ih := all_sim sem i
    by_cases hc : ∃ c, t = .seq c
    · obtain ⟨c, rfl⟩ := hc
      exact (seq_sim ih h).le (seq_le i c s)
    · rw [run_step]
      exact claim_step ih h fun c hc' => hc ⟨c, hc'⟩⟩

/-- Calls of functions that do the same, from states that are the same. -/
theorem enter_runs (hb : Bs sem n s s') (f : Nat) (self : Ref) (args : List Ref) {o : Out P} (h : Runs sem (.enter f self args) s o) :
    ∃ o', Runs sem (.enter f self args) s' o' ∧ PostC sem n s s' o o' := by
  obtain ⟨i, hi⟩ := h
  obtain ⟨x, h1, h2⟩ := ((all_sim sem i).app (.enter f self args hb)).app o hi
  exact ⟨x, run_eq_some.1 h1, h2⟩

end Asteria.Exec.Opt
