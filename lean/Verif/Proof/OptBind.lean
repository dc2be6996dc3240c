import Verif.Proof.Opt

/-! The capture of references keeps pairs of code that do the same. -/

namespace Asteria.Exec.Opt

variable {P : Type}

/-- Both succeed with results that are related, or both fail in the same way. -/
def RR {α β : Type} (Q : α → β → Prop) : Res α → Res β → Prop
  | .ok a, .ok b => Q a b
  | .throw, .throw => True
  | .ub, .ub => True
  | _, _ => False

section
variable {α β γ δ : Type} {Q : α → β → Prop} {R : γ → δ → Prop}

theorem RR.bind {a : Res α} {b : Res β} {f : α → Res γ} {g : β → Res δ} (h : RR Q a b) (hf : ∀ x y, Q x y → RR R (f x) (g y)) :
    RR R (a.bind f) (b.bind g) := by
  cases a <;> cases b <;> simp only [RR] at h
  · exact hf _ _ h
  · trivial
  · trivial

theorem RR.map {a : Res α} {b : Res β} {f : α → γ} {g : β → δ} (h : RR Q a b) (hf : ∀ x y, Q x y → R (f x) (g y)) :
    RR R (a.map f) (b.map g) := by
  cases a <;> cases b <;> simp only [RR] at h
  · exact hf _ _ h
  · trivial
  · trivial

theorem RR.ok_left {a : Res α} {b : Res β} (h : RR Q a b) {x : α} (hx : a = .ok x) : ∃ y, b = .ok y ∧ Q x y := by
  subst hx
  cases b <;> simp only [RR] at h
  exact ⟨_, rfl, h⟩
end

abbrev Ctx := List (Option (List (Name × Ref)))

theorem rebindAll_append (ctx : Ctx) (b : List (Node P)) : ∀ a : List (Node P),
    rebindAll ctx (a ++ b) = (rebindAll ctx a).bind fun a => (rebindAll ctx b).map fun b => a ++ b
  | [] => by
    simp only [rebindAll, List.nil_append, Res.bind, Res.map]
    cases rebindAll ctx b <;> rfl
  | n :: a => by
    simp only [List.cons_append, rebindAll]
    rw [rebindAll_append ctx b a]
    cases rebind ctx n <;> simp only [Res.bind, Res.map]
    cases rebindAll ctx a <;> simp only
    cases rebindAll ctx b <;> simp

theorem rebindAll_single (ctx : Ctx) (n : Node P) : rebindAll ctx [n] = (rebind ctx n).map fun n => [n] := by
  simp only [rebindAll]; cases rebind ctx n <;> rfl

theorem rebindAll_pure (ctx : Ctx) : ∀ {a : List (Node P)}, (∀ n ∈ a, isPure n = true) → rebindAll ctx a = .ok a
  | [], _ => rfl
  | n :: a, h => by
    have h1 := h n (by simp)
    have h2 := rebindAll_pure ctx (a := a) fun x hx => h x (List.mem_cons_of_mem _ hx)
    cases n <;> simp only [isPure, Bool.false_eq_true] at h1 <;> simp [rebindAll, rebind, h2, Res.bind, Res.map]

theorem rebindAll_ne (ctx : Ctx) {a : List (Node P)} (h : a ≠ []) : ∀ b, rebindAll ctx a = .ok b → b ≠ [] := by
  intro b hb
  cases a with
  | nil => exact absurd rfl h
  | cons n a =>
    simp only [rebindAll] at hb
    cases hn : rebind ctx n <;> rw [hn] at hb <;> simp only [Res.bind, reduceCtorEq] at hb
    cases ha : rebindAll ctx a <;> rw [ha] at hb <;> simp only [Res.map, reduceCtorEq, Res.ok.injEq] at hb
    subst hb; simp

/-- Something is appended to both. -/
theorem snoc {sem : Sem P} {α : List (Node P) → List (Node P) → Prop} {β : List (Node P) → List (Node P) → Prop} {ctx : Ctx} {c d a b : List (Node P)}
    {γ : List (Node P) → List (Node P) → Prop}
    (h : RR α (rebindAll ctx c) (rebindAll ctx d)) (hs : RR β (rebindAll ctx a) (rebindAll ctx b))
    (hq : ∀ c d a b, α c d → β a b → γ (c ++ a) (d ++ b)) : RR γ (rebindAll ctx (c ++ a)) (rebindAll ctx (d ++ b)) := by
  have _ := sem
  rw [rebindAll_append, rebindAll_append]
  exact h.bind fun c d hc => hs.map fun a b ha => hq c d a b hc ha

/-- A node is appended to both. -/
theorem snoc1 {α : List (Node P) → List (Node P) → Prop} {β : Node P → Node P → Prop} {ctx : Ctx} {c d : List (Node P)} {n n' : Node P}
    {γ : List (Node P) → List (Node P) → Prop}
    (h : RR α (rebindAll ctx c) (rebindAll ctx d)) (hs : RR β (rebind ctx n) (rebind ctx n'))
    (hq : ∀ c d a b, α c d → β a b → γ (c ++ [a]) (d ++ [b])) : RR γ (rebindAll ctx (c ++ [n])) (rebindAll ctx (d ++ [n'])) := by
  rw [rebindAll_append, rebindAll_append, rebindAll_single, rebindAll_single]
  refine h.bind fun c d hc => RR.map (Q := fun a b => ∃ x y, a = [x] ∧ b = [y] ∧ β x y) (hs.map fun x y hxy => ⟨x, y, rfl, rfl, hxy⟩) ?_
  rintro _ _ ⟨x, y, rfl, rfl, hxy⟩
  exact hq c d x y hc hxy

theorem snocs {α : List (Node P) → List (Node P) → Prop} {ctx : Ctx} {c d : List (Node P)} {n : Node P}
    {γ : List (Node P) → List (Node P) → Prop}
    (h : RR α (rebindAll ctx c) (rebindAll ctx d)) (hn : rebind ctx n = .ok n)
    (hq : ∀ c d, α c d → γ (c ++ [n]) (d ++ [n])) : RR γ (rebindAll ctx (c ++ [n])) (rebindAll ctx (d ++ [n])) := by
  refine snoc1 (β := fun x y => x = n ∧ y = n) h (by rw [hn]; exact ⟨rfl, rfl⟩) ?_
  rintro c d _ _ hc ⟨rfl, rfl⟩
  exact hq c d hc

theorem rebind_local {sem : Sem P} {m : Mode} {k : Nat} {c d : List (Node P)} {ctx : Ctx} (dp : Nat) (n : Name)
    (h : RR (E sem m k) (rebindAll ctx c) (rebindAll ctx d)) :
    RR (E sem m (k + 1)) (rebindAll ctx (c ++ [.pushLocal dp n])) (rebindAll ctx (d ++ [.pushLocal dp n])) := by
  refine snoc1 (β := fun x y => x = y ∧ ((x = .pushLocal dp n) ∨ ∃ r, x = .pushBound r)) h ?_ ?_
  · simp only [rebind, rebindLocal]
    cases ctx[dp]? with
    | none => trivial
    | some o =>
      cases o with
      | none => exact ⟨rfl, .inl rfl⟩
      | some names =>
        cases hl : lookupName n names with
        | none => simp only [hl]; exact ⟨rfl, .inl rfl⟩
        | some r =>
          simp only [hl]
          cases r <;> first | trivial | exact ⟨rfl, .inr ⟨_, rfl⟩⟩
  · rintro c d x y hc ⟨rfl, rfl | ⟨r, rfl⟩⟩
    · exact .loc dp n hc
    · exact .bound r hc

theorem rebind_form {sem : Sem P} {n : Nat} {ptc : Ptc} {A A' x y : List (Node P)} {ctx : Ctx} (hx : Form n ptc A x) (hy : Form n ptc A' y)
    (h : RR (E sem .simple n) (rebindAll ctx A) (rebindAll ctx A')) :
    RR (fun x y => ∃ A A', E sem .simple n A A' ∧ Form n ptc A x ∧ Form n ptc A' y) (rebindAll ctx x) (rebindAll ctx y) := by
  have one : ∀ {A x : List (Node P)}, Form n ptc A x → ∃ f : List (Node P) → List (Node P), (∀ A, Form n ptc A (f A)) ∧
      rebindAll ctx x = (rebindAll ctx A).map f := by
    intro A x hx
    rcases hx with rfl | rfl
    · refine ⟨fun A => A ++ [.funcCall n ptc], fun A => .inl rfl, ?_⟩
      rw [rebindAll_append, rebindAll_single]
      cases rebindAll ctx A <;> rfl
    · refine ⟨fun A => .altClear :: (A ++ [.altCall ptc]), fun A => .inr rfl, ?_⟩
      rw [rebindAll, rebindAll_append, rebindAll_single]
      cases rebindAll ctx A <;> rfl
  obtain ⟨f, hf, hf'⟩ := one hx
  obtain ⟨g, hg, hg'⟩ := one hy
  rw [hf', hg']
  exact h.map fun A A' hA => ⟨A, A', hA, hf A, hg A'⟩

theorem rebind_ret {sem : Sem P} {v : Value} {x : List (Node P)} {ctx : Ctx} (hx : Ret sem v x) : rebindAll ctx x = .ok x := by
  rcases hx with rfl | ⟨a, r, h, rfl⟩
  · rfl
  · rw [rebindAll_append, rebindAll_pure ctx h.left]; rfl

mutual
theorem E.rebind {sem : Sem P} {m : Mode} {k : Nat} {c d : List (Node P)} (ctx : Ctx) : E sem m k c d →
    RR (E sem m k) (rebindAll ctx c) (rebindAll ctx d)
  | .nil _ => .nil _
  | .pure h hs => snoc (sem := sem) (β := SameCode sem _ _) (E.rebind ctx h)
      (by rw [rebindAll_pure ctx hs.left, rebindAll_pure ctx hs.right]; exact hs) fun _ _ _ _ hc ha => .pure hc ha
  | .loc dp n h => rebind_local dp n (E.rebind ctx h)
  | .bound r h => snocs (E.rebind ctx h) rfl fun _ _ hc => .bound r hc
  | .func ps va h hb => snoc1 (β := fun x y => ∃ b b', x = .defineFunc ps va b ∧ y = .defineFunc ps va b' ∧ Body sem b b') (E.rebind ctx h)
      ((Body.rebind _ hb).map fun b b' hb => ⟨b, b', rfl, rfl, hb⟩)
      (by rintro c d _ _ hc ⟨b, b', rfl, rfl, hb⟩; exact .func ps va hc hb)
  | .branch a h ht hf => snoc1 (β := fun x y => ∃ t f t' f', x = .branchE t f a ∧ y = .branchE t' f' a ∧ Arm sem m t t' ∧ Arm sem m f f')
      (E.rebind ctx h)
      ((Arm.rebind ctx ht).bind fun t t' ht => (Arm.rebind ctx hf).map fun f f' hf => ⟨t, f, t', f', rfl, rfl, ht, hf⟩)
      (by rintro c d _ _ hc ⟨t, f, t', f', rfl, rfl, ht, hf⟩; exact .branch a hc ht hf)
  | .coal a h ht => snoc1 (β := fun x y => ∃ t t', x = .coalesceE t a ∧ y = .coalesceE t' a ∧ Arm sem m t t')
      (E.rebind ctx h) ((Arm.rebind ctx ht).map fun t t' ht => ⟨t, t', rfl, rfl, ht⟩)
      (by rintro c d _ _ hc ⟨t, t', rfl, rfl, ht⟩; exact .coal a hc ht)
  | .check r h => snocs (E.rebind ctx h) rfl fun _ _ hc => .check r hc
  | .call ptc hm h => snocs (E.rebind ctx h) rfl fun _ _ hc => .call ptc hm hc
  | .alt ptc h hA hx hy => snoc (sem := sem) (E.rebind ctx h) (rebind_form hx hy (E.rebind ctx hA))
      (by rintro c d _ _ hc ⟨A, A', hA, hx, hy⟩; exact .alt ptc hc hA hx hy)
  | .catchE hm h hb => snoc1 (β := fun x y => ∃ b b', x = .catchE b ∧ y = .catchE b' ∧ E sem .plain _ b b') (E.rebind ctx h)
      ((E.rebind ctx hb).map fun b b' hb => ⟨b, b', rfl, rfl, hb⟩)
      (by rintro c d _ _ hc ⟨b, b', rfl, rfl, hb⟩; exact .catchE hm hc hb)

theorem Arm.rebind {sem : Sem P} {m : Mode} {c d : List (Node P)} (ctx : Ctx) : Arm sem m c d →
    RR (Arm sem m) (rebindAll ctx c) (rebindAll ctx d)
  | .nil _ => .nil _
  | .code hc hd h => by
    have h1 := E.rebind ctx h
    have hc := rebindAll_ne ctx hc
    have hd := rebindAll_ne ctx hd
    revert h1 hc hd
    cases rebindAll ctx c <;> cases rebindAll ctx d <;> simp only [RR]
    all_goals first | exact fun h _ _ => h | exact fun h hc hd => .code (hc _ rfl) (hd _ rfl) h

theorem Ex.rebind {sem : Sem P} {k : Nat} {c d : List (Node P)} (ctx : Ctx) : Ex sem k c d →
    RR (Ex sem k) (rebindAll ctx c) (rebindAll ctx d)
  | .mk h => by
    have h1 := E.rebind ctx h
    simp only [rebindAll, Exec.rebind, Res.bind]
    exact h1.map fun c d h => .mk h

theorem St.rebind {sem : Sem P} {k : Nat} {c d : List (Node P)} (ctx : Ctx) : St sem k c d →
    RR (St sem k) (rebindAll ctx c) (rebindAll ctx d)
  | .nil => .nil
  | .clear h => snocs (St.rebind ctx h) rfl fun _ _ hc => .clear hc
  | .expr h he => snoc (sem := sem) (St.rebind ctx h) (E.rebind ctx he) fun _ _ _ _ hc ha => .expr hc ha
  | .pure h hs => snoc (sem := sem) (β := SameCode sem _ _) (St.rebind ctx h)
      (by rw [rebindAll_pure ctx hs.left, rebindAll_pure ctx hs.right]; exact hs) fun _ _ _ _ hc ha => .pure hc ha
  | .declareVar n h => snocs (St.rebind ctx h) rfl fun _ _ hc => .declareVar n hc
  | .initVar i h => snocs (St.rebind ctx h) rfl fun _ _ hc => .initVar i hc
  | .defineNull i n h => snocs (St.rebind ctx h) rfl fun _ _ hc => .defineNull i n hc
  | .declareRef n h => snocs (St.rebind ctx h) rfl fun _ _ hc => .declareRef n hc
  | .initRef n h => snocs (St.rebind ctx h) rfl fun _ _ hc => .initRef n hc
  | .block h hb => snoc1 (β := fun x y => ∃ b b', x = .block b ∧ y = .block b' ∧ Body sem b b') (St.rebind ctx h)
      ((Body.rebind _ hb).map fun b b' hb => ⟨b, b', rfl, rfl, hb⟩)
      (by rintro c d _ _ hc ⟨b, b', rfl, rfl, hb⟩; exact .block hc hb)
  | .ifS neg h ht hf => snoc1 (β := fun x y => ∃ t f t' f', x = .ifS neg t f ∧ y = .ifS neg t' f' ∧ Body sem t t' ∧ Body sem f f')
      (St.rebind ctx h)
      ((Body.rebind _ ht).bind fun t t' ht => (Body.rebind _ hf).map fun f f' hf => ⟨t, f, t', f', rfl, rfl, ht, hf⟩)
      (by rintro c d _ _ hc ⟨t, f, t', f', rfl, rfl, ht, hf⟩; exact .ifS neg hc ht hf)
  | .switchS h hcl => snoc1 (β := fun x y => ∃ b b', x = .switchS b ∧ y = .switchS b' ∧ Cl sem b b') (St.rebind ctx h)
      ((Cl.rebind _ hcl).map fun b b' hb => ⟨b, b', rfl, rfl, hb⟩)
      (by rintro c d _ _ hc ⟨b, b', rfl, rfl, hb⟩; exact .switchS hc hb)
  | .doWhile neg h h1 h2 h3 => snoc1 (β := fun x y => ∃ b c k b' c' k', x = .doWhile b neg c k ∧ y = .doWhile b' neg c' k' ∧
        Body sem b b' ∧ Ex sem 1 c c' ∧ Body sem k k') (St.rebind ctx h)
      ((Body.rebind _ h1).bind fun b b' h1 => (Ex.rebind _ h2).bind fun c c' h2 => (Body.rebind _ h3).map fun k k' h3 =>
        ⟨b, c, k, b', c', k', rfl, rfl, h1, h2, h3⟩)
      (by rintro c d _ _ hc ⟨b, x, k, b', x', k', rfl, rfl, h1, h2, h3⟩; exact .doWhile neg hc h1 h2 h3)
  | .whileS neg h h1 h2 h3 => snoc1 (β := fun x y => ∃ c b k c' b' k', x = .whileS neg c b k ∧ y = .whileS neg c' b' k' ∧
        Ex sem 1 c c' ∧ Body sem b b' ∧ Body sem k k') (St.rebind ctx h)
      ((Ex.rebind _ h1).bind fun b b' h1 => (Body.rebind _ h2).bind fun c c' h2 => (Body.rebind _ h3).map fun k k' h3 =>
        ⟨b, c, k, b', c', k', rfl, rfl, h1, h2, h3⟩)
      (by rintro c d _ _ hc ⟨b, x, k, b', x', k', rfl, rfl, h1, h2, h3⟩; exact .whileS neg hc h1 h2 h3)
  | .forEach kn mn h h1 h2 h3 => snoc1 (β := fun x y => ∃ c b k c' b' k', x = .forEach kn mn c b k ∧ y = .forEach kn mn c' b' k' ∧
        Ex sem 1 c c' ∧ Body sem b b' ∧ Body sem k k') (St.rebind ctx h)
      ((Ex.rebind _ h1).bind fun b b' h1 => (Body.rebind _ h2).bind fun c c' h2 => (Body.rebind _ h3).map fun k k' h3 =>
        ⟨b, c, k, b', c', k', rfl, rfl, h1, h2, h3⟩)
      (by rintro c d _ _ hc ⟨b, x, k, b', x', k', rfl, rfl, h1, h2, h3⟩; exact .forEach kn mn hc h1 h2 h3)
  | .forS h h1 h2 h3 h4 h5 => snoc1 (β := fun x y => ∃ i c s b k i' c' s' b' k', x = .forS i c s b k ∧ y = .forS i' c' s' b' k' ∧
        Body sem i i' ∧ Ex sem _ c c' ∧ Ex sem _ s s' ∧ Body sem b b' ∧ Body sem k k') (St.rebind ctx h)
      ((Body.rebind _ h1).bind fun i i' h1 => (Ex.rebind _ h2).bind fun c c' h2 => (Ex.rebind _ h3).bind fun s s' h3 =>
        (Body.rebind _ h4).bind fun b b' h4 => (Body.rebind _ h5).map fun k k' h5 =>
        ⟨i, c, s, b, k, i', c', s', b', k', rfl, rfl, h1, h2, h3, h4, h5⟩)
      (by rintro c d _ _ hc ⟨i, x, s, b, k, i', x', s', b', k', rfl, rfl, h1, h2, h3, h4, h5⟩; exact .forS hc h1 h2 h3 h4 h5)
  | .tryS n h h1 h2 => snoc1 (β := fun x y => ∃ t f t' f', x = .tryS t n f ∧ y = .tryS t' n f' ∧ Body sem t t' ∧ Body sem f f')
      (St.rebind ctx h)
      ((Body.rebind _ h1).bind fun t t' ht => (Body.rebind _ h2).map fun f f' hf => ⟨t, f, t', f', rfl, rfl, ht, hf⟩)
      (by rintro c d _ _ hc ⟨t, f, t', f', rfl, rfl, ht, hf⟩; exact .tryS n hc ht hf)
  | .throwS h => snocs (St.rebind ctx h) rfl fun _ _ hc => .throwS hc
  | .assertS h => snocs (St.rebind ctx h) rfl fun _ _ hc => .assertS hc
  | .status s hs h => snocs (St.rebind ctx h) rfl fun _ _ hc => .status s hs hc
  | .deferE h hb => snoc1 (β := fun x y => ∃ b b', x = .deferE b ∧ y = .deferE b' ∧ Ex sem _ b b') (St.rebind ctx h)
      ((Ex.rebind _ hb).map fun b b' hb => ⟨b, b', rfl, rfl, hb⟩)
      (by rintro c d _ _ hc ⟨b, b', rfl, rfl, hb⟩; exact .deferE hc hb)
  | .ret r h => snocs (St.rebind ctx h) rfl fun _ _ hc => .ret r hc
  | .retVoid r h => snocs (St.rebind ctx h) rfl fun _ _ hc => .retVoid r hc
  | .retConst v h hx hy => snoc (sem := sem) (β := fun x y => Ret sem v x ∧ Ret sem v y) (St.rebind ctx h)
      (by rw [rebind_ret hx, rebind_ret hy]; exact ⟨hx, hy⟩) fun _ _ _ _ hc ha => .retConst v hc ha.1 ha.2

theorem Body.rebind {sem : Sem P} {c d : List (Node P)} (ctx : Ctx) : Body sem c d →
    RR (Body sem) (rebindAll ctx c) (rebindAll ctx d)
  | .mk h => by
    have h1 := St.rebind ctx h
    revert h1
    cases rebindAll ctx c <;> cases rebindAll ctx d <;> simp only [RR] <;> first | exact fun h => h | exact fun h => .mk h

theorem Cl.rebind {sem : Sem P} {c d : List (Clause P)} (ctx : Ctx) : Cl sem c d →
    RR (Cl sem) (rebindClauses ctx c) (rebindClauses ctx d)
  | .nil => .nil
  | .default ns hl hb h => (Lab.rebind ctx hl).bind fun l l' hl => (Body.rebind _ hb).bind fun b b' hb => (Cl.rebind ctx h).map
      fun cs cs' h => .default ns hl hb h
  | .case ns hl hb h => (Ex.rebind ctx hl).bind fun l l' hl => (Body.rebind _ hb).bind fun b b' hb => (Cl.rebind ctx h).map
      fun cs cs' h => .case ns hl hb h
  | .each lc uc ns hl hb h => (Ex.rebind ctx hl).bind fun l l' hl => (Body.rebind _ hb).bind fun b b' hb => (Cl.rebind ctx h).map
      fun cs cs' h => .each lc uc ns hl hb h

theorem Lab.rebind {sem : Sem P} {c d : List (Node P)} (ctx : Ctx) : Lab sem c d →
    RR (Lab sem) (rebindAll ctx c) (rebindAll ctx d)
  | .nil => .nil
end

end Asteria.Exec.Opt
