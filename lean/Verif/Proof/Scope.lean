import Verif.Model.ExecCode

/-!
# Code in which every local reference refers to a declared name

Helper judgement for `Verif.Props.Scope`.
-/

namespace Asteria.Exec.Scope

variable {P : Type}

/-- The contexts `Γ'` have what `Γ` has. -/
def Sub (Γ Γ' : List (List Name)) : Prop := ∀ (d : Nat) ns, Γ[d]? = some ns → ∃ ns', Γ'[d]? = some ns' ∧ ns ⊆ ns'

theorem Sub.refl (Γ : List (List Name)) : Sub Γ Γ := fun _ ns h => ⟨ns, h, fun _ h => h⟩

theorem Sub.trans {Γ Γ' Γ'' : List (List Name)} (h : Sub Γ Γ') (h' : Sub Γ' Γ'') : Sub Γ Γ'' := fun d ns hd => by
  obtain ⟨ns', h1, h2⟩ := h d ns hd
  obtain ⟨ns'', h3, h4⟩ := h' d ns' h1
  exact ⟨ns'', h3, fun x hx => h4 (h2 hx)⟩

theorem Sub.cons {ns ns' : List Name} {Γ Γ' : List (List Name)} (h : ns ⊆ ns') (hs : Sub Γ Γ') :
    Sub (ns :: Γ) (ns' :: Γ') := fun d l hd => by
  cases d with
  | zero => simp at hd; exact ⟨ns', by simp, hd ▸ h⟩
  | succ d => simpa using hs d l (by simpa using hd)

theorem Sub.same {ns : List Name} {Γ Γ' : List (List Name)} (hs : Sub Γ Γ') : Sub (ns :: Γ) (ns :: Γ') :=
  Sub.cons (fun _ h => h) hs

theorem Sub.tail {ns ns' : List Name} {Γ Γ' : List (List Name)} (h : Sub (ns :: Γ) (ns' :: Γ')) : Sub Γ Γ' :=
  fun d l hd => by simpa using h (d + 1) l (by simpa using hd)

theorem Sub.head {ns ns' : List Name} {Γ Γ' : List (List Name)} (h : Sub (ns :: Γ) (ns' :: Γ')) : ns ⊆ ns' := by
  obtain ⟨l, h1, h2⟩ := h 0 ns rfl
  simp at h1; exact h1 ▸ h2

theorem Sub.nil (Γ : List (List Name)) : Sub [] Γ := fun _ _ h => by simp at h

/-- Names are added to the innermost context. -/
def addHead (l : List Name) (Γ : List (List Name)) : List (List Name) := Γ.modifyHead (· ++ l)

@[simp] theorem addHead_cons (l ns : List Name) (Γ : List (List Name)) : addHead l (ns :: Γ) = (ns ++ l) :: Γ := rfl
@[simp] theorem addHead_nil (l : List Name) : addHead l [] = [] := rfl
@[simp] theorem addHead_none (Γ : List (List Name)) : addHead [] Γ = Γ := by cases Γ <;> simp
@[simp] theorem addHead_add (l l' : List Name) (Γ : List (List Name)) : addHead l (addHead l' Γ) = addHead (l' ++ l) Γ := by
  cases Γ <;> simp

theorem Sub.add (l : List Name) (Γ : List (List Name)) : Sub Γ (addHead l Γ) := by
  cases Γ with
  | nil => exact Sub.refl _
  | cons ns Γ => exact Sub.cons (by simp) (Sub.refl _)

theorem Sub.addHead {Γ Γ' : List (List Name)} (h : Sub Γ Γ') (l : List Name) : Sub (addHead l Γ) (addHead l Γ') := by
  cases Γ with
  | nil => exact Sub.nil _
  | cons ns Γ =>
    cases Γ' with
    | nil => obtain ⟨_, h1, _⟩ := h 0 ns rfl; simp at h1
    | cons ns' Γ' =>
      refine Sub.cons (fun x hx => ?_) h.tail
      rcases List.mem_append.1 hx with hx | hx
      · exact List.mem_append_left _ (h.head hx)
      · exact List.mem_append_right _ hx

/-- The names that a node declares in the current context. -/
def declares : Node P → List Name
  | .declareVar n => [n]
  | .defineNull _ n => [n]
  | .declareRef n => [n]
  | _ => []

/-- The names that code declares in the current context. -/
def declared (code : List (Node P)) : List Name := code.flatMap declares

@[simp] theorem declared_nil : declared ([] : List (Node P)) = [] := rfl
@[simp] theorem declared_cons (n : Node P) (ns : List (Node P)) : declared (n :: ns) = declares n ++ declared ns := rfl
@[simp] theorem declared_append (a b : List (Node P)) : declared (a ++ b) = declared a ++ declared b := by
  simp [declared]

mutual
/-- Every local reference in a node refers to a name in the contexts. -/
def Scoped (Γ : List (List Name)) : Node P → Prop
  | .block b => ScopedSeq ([] :: Γ) b
  | .ifS _ t f => ScopedSeq ([] :: Γ) t ∧ ScopedSeq ([] :: Γ) f
  | .switchS cs => ScopedClauses Γ [] cs
  | .doWhile b _ c k => ScopedSeq ([] :: Γ) b ∧ ScopedEach Γ c ∧ ScopedSeq ([] :: Γ) k
  | .whileS _ c b k => ScopedEach Γ c ∧ ScopedSeq ([] :: Γ) b ∧ ScopedSeq ([] :: Γ) k
  | .forEach kn mn i b k => ScopedEach ((kn.toList ++ [mn]) :: Γ) i ∧ ScopedSeq ([] :: (kn.toList ++ [mn]) :: Γ) b ∧
      ScopedSeq ([] :: Γ) k
  | .forS i c s b k => ScopedSeq ([] :: Γ) i ∧ ScopedEach (declared i :: Γ) c ∧ ScopedEach (declared i :: Γ) s ∧
      ScopedSeq ([] :: declared i :: Γ) b ∧ ScopedSeq ([] :: Γ) k
  | .tryS b n h => ScopedSeq ([] :: Γ) b ∧ ScopedSeq ([n] :: Γ) h
  | .pushLocal d n => ∃ ns, Γ[d]? = some ns ∧ n ∈ ns
  | .defineFunc ps _ b => ScopedSeq (ps :: Γ) b
  | .branchE t f _ => ScopedEach Γ t ∧ ScopedEach Γ f
  | .coalesceE c _ => ScopedEach Γ c
  | .deferE b => ScopedEach Γ b
  | .catchE b => ScopedEach Γ b
  | _ => True

/-- The same for nodes that are executed one after another. -/
def ScopedSeq (Γ : List (List Name)) : List (Node P) → Prop
  | [] => True
  | n :: ns => Scoped Γ n ∧ ScopedSeq (addHead (declares n) Γ) ns

/-- The same for the code of an expression. -/
def ScopedEach (Γ : List (List Name)) : List (Node P) → Prop
  | [] => True
  | n :: ns => Scoped Γ n ∧ ScopedEach Γ ns

/-- The same for the clauses of a `switch` statement: the bodies share a context, which has `Δ` so far. -/
def ScopedClauses (Γ : List (List Name)) (Δ : List Name) : List (Clause P) → Prop
  | [] => True
  | .mk _ l b names :: cs => ScopedEach Γ l ∧ ScopedSeq (Δ :: Γ) b ∧ declared b ⊆ names ∧
      ScopedClauses Γ (Δ ++ declared b) cs
end

mutual
theorem Scoped.mono : ∀ (n : Node P) {Γ Γ' : List (List Name)}, Sub Γ Γ' → Scoped Γ n → Scoped Γ' n
  | .block b, _, _, hs, h => by simp only [Scoped] at *; exact ScopedSeq.mono b hs.same h
  | .ifS _ t f, _, _, hs, h => by
    simp only [Scoped] at *; exact ⟨ScopedSeq.mono t hs.same h.1, ScopedSeq.mono f hs.same h.2⟩
  | .switchS cs, _, _, hs, h => by simp only [Scoped] at *; exact ScopedClauses.mono cs hs (fun _ h => h) h
  | .doWhile b _ c k, _, _, hs, h => by
    simp only [Scoped] at *
    exact ⟨ScopedSeq.mono b hs.same h.1, ScopedEach.mono c hs h.2.1, ScopedSeq.mono k hs.same h.2.2⟩
  | .whileS _ c b k, _, _, hs, h => by
    simp only [Scoped] at *
    exact ⟨ScopedEach.mono c hs h.1, ScopedSeq.mono b hs.same h.2.1, ScopedSeq.mono k hs.same h.2.2⟩
  | .forEach kn mn i b k, _, _, hs, h => by
    simp only [Scoped] at *
    exact ⟨ScopedEach.mono i hs.same h.1, ScopedSeq.mono b hs.same.same h.2.1, ScopedSeq.mono k hs.same h.2.2⟩
  | .forS i c s b k, _, _, hs, h => by
    simp only [Scoped] at *
    exact ⟨ScopedSeq.mono i hs.same h.1, ScopedEach.mono c hs.same h.2.1, ScopedEach.mono s hs.same h.2.2.1,
      ScopedSeq.mono b hs.same.same h.2.2.2.1, ScopedSeq.mono k hs.same h.2.2.2.2⟩
  | .tryS b n h', _, _, hs, h => by
    simp only [Scoped] at *; exact ⟨ScopedSeq.mono b hs.same h.1, ScopedSeq.mono h' hs.same h.2⟩
  | .pushLocal d n, _, _, hs, h => by
    simp only [Scoped] at *
    obtain ⟨ns, h1, h2⟩ := h
    obtain ⟨ns', h3, h4⟩ := hs d ns h1
    exact ⟨ns', h3, h4 h2⟩
  | .defineFunc ps _ b, _, _, hs, h => by simp only [Scoped] at *; exact ScopedSeq.mono b hs.same h
  | .branchE t f _, _, _, hs, h => by
    simp only [Scoped] at *; exact ⟨ScopedEach.mono t hs h.1, ScopedEach.mono f hs h.2⟩
  | .coalesceE c _, _, _, hs, h => by simp only [Scoped] at *; exact ScopedEach.mono c hs h
  | .deferE b, _, _, hs, h => by simp only [Scoped] at *; exact ScopedEach.mono b hs h
  | .catchE b, _, _, hs, h => by simp only [Scoped] at *; exact ScopedEach.mono b hs h
  | .clearStack, _, _, _, _ | .declareVar _, _, _, _, _ | .initVar _, _, _, _, _ | .throwS, _, _, _, _
  | .assertS, _, _, _, _ | .simpleStatus _, _, _, _, _ | .checkArg _, _, _, _, _ | .pushBound _, _, _, _, _
  | .pushConst _, _, _, _, _ | .funcCall _ _, _, _, _, _ | .altClear, _, _, _, _ | .altCall _, _, _, _, _
  | .returnS _ _, _, _, _, _ | .returnConst _, _, _, _, _ | .defineNull _ _, _, _, _, _ | .declareRef _, _, _, _, _
  | .initRef _, _, _, _, _ | .prim _, _, _, _, _ => by simp only [Scoped]

theorem ScopedSeq.mono : ∀ (l : List (Node P)) {Γ Γ' : List (List Name)}, Sub Γ Γ' → ScopedSeq Γ l → ScopedSeq Γ' l
  | [], _, _, _, _ => by simp only [ScopedSeq]
  | n :: ns, _, _, hs, h => by
    simp only [ScopedSeq] at *
    exact ⟨Scoped.mono n hs h.1, ScopedSeq.mono ns (hs.addHead _) h.2⟩

theorem ScopedEach.mono : ∀ (l : List (Node P)) {Γ Γ' : List (List Name)}, Sub Γ Γ' → ScopedEach Γ l → ScopedEach Γ' l
  | [], _, _, _, _ => by simp only [ScopedEach]
  | n :: ns, _, _, hs, h => by
    simp only [ScopedEach] at *
    exact ⟨Scoped.mono n hs h.1, ScopedEach.mono ns hs h.2⟩

theorem ScopedClauses.mono : ∀ (l : List (Clause P)) {Γ Γ' : List (List Name)} {Δ Δ' : List Name}, Sub Γ Γ' → Δ ⊆ Δ' →
    ScopedClauses Γ Δ l → ScopedClauses Γ' Δ' l
  | [], _, _, _, _, _, _, _ => by simp only [ScopedClauses]
  | .mk _ l b names :: cs, _, _, _, _, hs, hd, h => by
    simp only [ScopedClauses] at *
    refine ⟨ScopedEach.mono l hs h.1, ScopedSeq.mono b (Sub.cons hd hs) h.2.1, h.2.2.1, ScopedClauses.mono cs hs ?_ h.2.2.2⟩
    intro x hx
    rcases List.mem_append.1 hx with hx | hx
    · exact List.mem_append_left _ (hd hx)
    · exact List.mem_append_right _ hx
end

theorem ScopedEach.seq : ∀ (l : List (Node P)) {Γ Γ' : List (List Name)}, Sub Γ Γ' → ScopedEach Γ l → ScopedSeq Γ' l
  | [], _, _, _, _ => by simp only [ScopedSeq]
  | n :: ns, _, _, hs, h => by
    simp only [ScopedEach, ScopedSeq] at *
    exact ⟨Scoped.mono n hs h.1, ScopedEach.seq ns (hs.trans (Sub.add _ _)) h.2⟩

theorem ScopedSeq.each : ∀ (l : List (Node P)) {Γ : List (List Name)}, declared l = [] → ScopedSeq Γ l → ScopedEach Γ l
  | [], _, _, _ => by simp only [ScopedEach]
  | n :: ns, Γ, hd, h => by
    simp only [ScopedEach, ScopedSeq, declared_cons, List.append_eq_nil_iff] at *
    rw [hd.1, addHead_none] at h
    exact ⟨h.1, ScopedSeq.each ns hd.2 h.2⟩

theorem scopedSeq_append : ∀ (a b : List (Node P)) {Γ : List (List Name)},
    ScopedSeq Γ (a ++ b) ↔ ScopedSeq Γ a ∧ ScopedSeq (addHead (declared a) Γ) b
  | [], b, Γ => by simp [ScopedSeq]
  | n :: a, b, Γ => by simp [ScopedSeq, scopedSeq_append a b, and_assoc]

/-! ### Capture -/

/-- The contexts in which references are captured: the first `m` are those of the code itself, the others have the
names that the code expects. -/
def Fit (ctx : List (Option (List (Name × Ref)))) (Γ : List (List Name)) (m : Nat) : Prop :=
  ∀ (d : Nat) ns, Γ[d]? = some ns → (d < m ∧ ctx[d]? = some none) ∨
    (m ≤ d ∧ ∃ names, ctx[d]? = some (some names) ∧ ∀ n ∈ ns, lookupName n names ≠ none)

theorem Fit.cons {ctx : List (Option (List (Name × Ref)))} {Γ : List (List Name)} {m : Nat} (h : Fit ctx Γ m)
    (ns : List Name) : Fit (none :: ctx) (ns :: Γ) (m + 1) := fun d l hd => by
  cases d with
  | zero => exact .inl ⟨by omega, rfl⟩
  | succ d =>
    simp only [List.getElem?_cons_succ] at hd ⊢
    rcases h d l hd with ⟨h1, h2⟩ | ⟨h1, h2⟩
    · exact .inl ⟨by omega, h2⟩
    · exact .inr ⟨by omega, h2⟩

theorem Fit.add {ctx : List (Option (List (Name × Ref)))} {Γ : List (List Name)} {m : Nat} (h : Fit ctx Γ (m + 1))
    (l : List Name) : Fit ctx (addHead l Γ) (m + 1) := by
  cases Γ with
  | nil => simpa using h
  | cons ns Γ =>
    intro d l' hd
    cases d with
    | zero =>
      rcases h 0 ns rfl with h | h
      · exact .inl h
      · omega
    | succ d => exact h (d + 1) l' (by simpa using hd)

@[simp] theorem take_addHead (l : List Name) (Γ : List (List Name)) (m : Nat) :
    (addHead l Γ).take (m + 1) = addHead l (Γ.take (m + 1)) := by
  cases Γ <;> simp

/-- What is known about the result of a capture. -/
def Cap {α : Type} (r : Res α) (Q : α → Prop) : Prop := r ≠ .ub ∧ ∀ x, r = .ok x → Q x

theorem Cap.ok {α : Type} {x : α} {Q : α → Prop} (h : Q x) : Cap (.ok x) Q := ⟨by simp, fun y hy => by cases hy; exact h⟩

theorem Cap.map {α β : Type} {r : Res α} {f : α → β} {R : α → Prop} {Q : β → Prop} (h : Cap r R) (hq : ∀ x, R x → Q (f x)) :
    Cap (r.map f) Q := by
  cases r with
  | ok x => exact Cap.ok (hq x (h.2 x rfl))
  | throw => exact ⟨by simp, by simp⟩
  | ub => exact absurd rfl h.1

theorem Cap.bind {α β : Type} {r : Res α} {f : α → Res β} {R : α → Prop} {Q : β → Prop} (h : Cap r R)
    (hq : ∀ x, R x → Cap (f x) Q) : Cap (r.bind f) Q := by
  cases r with
  | ok x => exact hq x (h.2 x rfl)
  | throw => exact ⟨by simp, by simp⟩
  | ub => exact absurd rfl h.1

mutual
theorem cap_node : ∀ (n : Node P) {ctx : List (Option (List (Name × Ref)))} {Γ : List (List Name)} {m : Nat}, Fit ctx Γ m →
    Scoped Γ n → Cap (rebind ctx n) fun n' => Scoped (Γ.take m) n' ∧ declares n' = declares n
  | .block b, _, _, _, hf, h => by
    simp only [Scoped, rebind] at *
    exact (cap_seq b (hf.cons _) h).map fun x hx => by simpa [Scoped, declares] using hx.1
  | .ifS _ t f, _, _, _, hf, h => by
    simp only [Scoped, rebind] at *
    exact (cap_seq t (hf.cons _) h.1).bind fun x hx => (cap_seq f (hf.cons _) h.2).map fun y hy => by
      simpa [Scoped, declares] using ⟨hx.1, hy.1⟩
  | .switchS cs, _, _, _, hf, h => by
    simp only [Scoped, rebind] at *
    exact (cap_clauses cs hf h).map fun x hx => by simpa [Scoped, declares] using hx
  | .doWhile b _ c k, _, _, _, hf, h => by
    simp only [Scoped, rebind] at *
    exact (cap_seq b (hf.cons _) h.1).bind fun x hx => (cap_each c hf h.2.1).bind fun y hy =>
      (cap_seq k (hf.cons _) h.2.2).map fun z hz => by simpa [Scoped, declares] using ⟨hx.1, hy.1, hz.1⟩
  | .whileS _ c b k, _, _, _, hf, h => by
    simp only [Scoped, rebind] at *
    exact (cap_each c hf h.1).bind fun x hx => (cap_seq b (hf.cons _) h.2.1).bind fun y hy =>
      (cap_seq k (hf.cons _) h.2.2).map fun z hz => by simpa [Scoped, declares] using ⟨hx.1, hy.1, hz.1⟩
  | .forEach kn mn i b k, _, _, _, hf, h => by
    simp only [Scoped, rebind] at *
    exact (cap_each i (hf.cons _) h.1).bind fun x hx => (cap_seq b ((hf.cons _).cons _) h.2.1).bind fun y hy =>
      (cap_seq k (hf.cons _) h.2.2).map fun z hz => by simpa [Scoped, declares] using ⟨hx.1, hy.1, hz.1⟩
  | .forS i c s b k, _, _, _, hf, h => by
    simp only [Scoped, rebind] at *
    exact (cap_seq i (hf.cons _) h.1).bind fun x hx => (cap_each c (hf.cons _) h.2.1).bind fun y hy =>
      (cap_each s (hf.cons _) h.2.2.1).bind fun z hz => (cap_seq b ((hf.cons _).cons _) h.2.2.2.1).bind fun u hu =>
      (cap_seq k (hf.cons _) h.2.2.2.2).map fun v hv => by
        simpa [Scoped, declares, hx.2] using ⟨hx.1, hy.1, hz.1, hu.1, hv.1⟩
  | .tryS b n h', _, _, _, hf, h => by
    simp only [Scoped, rebind] at *
    exact (cap_seq b (hf.cons _) h.1).bind fun x hx => (cap_seq h' (hf.cons _) h.2).map fun y hy => by
      simpa [Scoped, declares] using ⟨hx.1, hy.1⟩
  | .pushLocal d n, _, Γ, m, hf, h => by
    simp only [Scoped, rebind, rebindLocal] at *
    obtain ⟨ns, h1, h2⟩ := h
    rcases hf d ns h1 with ⟨h3, h4⟩ | ⟨h3, names, h4, h5⟩
    · rw [h4]
      refine Cap.ok ⟨?_, rfl⟩
      simp only [Scoped]
      exact ⟨ns, by rw [List.getElem?_take_of_lt h3, h1], h2⟩
    · rw [h4]
      simp only
      split
      · rename_i h6; exact absurd h6 (h5 n h2)
      · exact ⟨by simp, by simp⟩
      · exact Cap.ok ⟨by simp only [Scoped], rfl⟩
  | .defineFunc ps _ b, _, _, _, hf, h => by
    simp only [Scoped, rebind] at *
    exact (cap_seq b (hf.cons _) h).map fun x hx => by simpa [Scoped, declares] using hx.1
  | .branchE t f _, _, _, _, hf, h => by
    simp only [Scoped, rebind] at *
    exact (cap_each t hf h.1).bind fun x hx => (cap_each f hf h.2).map fun y hy => by
      simpa [Scoped, declares] using ⟨hx.1, hy.1⟩
  | .coalesceE c _, _, _, _, hf, h => by
    simp only [Scoped, rebind] at *
    exact (cap_each c hf h).map fun x hx => by simpa [Scoped, declares] using hx.1
  | .deferE b, _, _, _, hf, h => by
    simp only [Scoped, rebind] at *
    exact (cap_each b hf h).map fun x hx => by simpa [Scoped, declares] using hx.1
  | .catchE b, _, _, _, hf, h => by
    simp only [Scoped, rebind] at *
    exact (cap_each b hf h).map fun x hx => by simpa [Scoped, declares] using hx.1
  | .clearStack, _, _, _, _, _ | .declareVar _, _, _, _, _, _ | .initVar _, _, _, _, _, _ | .throwS, _, _, _, _, _
  | .assertS, _, _, _, _, _ | .simpleStatus _, _, _, _, _, _ | .checkArg _, _, _, _, _, _ | .pushBound _, _, _, _, _, _
  | .pushConst _, _, _, _, _, _ | .funcCall _ _, _, _, _, _, _ | .altClear, _, _, _, _, _ | .altCall _, _, _, _, _, _
  | .returnS _ _, _, _, _, _, _ | .returnConst _, _, _, _, _, _ | .defineNull _ _, _, _, _, _, _
  | .declareRef _, _, _, _, _, _ | .initRef _, _, _, _, _, _ | .prim _, _, _, _, _, _ => by
    simp only [rebind]; exact Cap.ok ⟨by simp only [Scoped], rfl⟩

theorem cap_seq : ∀ (l : List (Node P)) {ctx : List (Option (List (Name × Ref)))} {Γ : List (List Name)} {m : Nat},
    Fit ctx Γ (m + 1) → ScopedSeq Γ l →
    Cap (rebindAll ctx l) fun l' => ScopedSeq (Γ.take (m + 1)) l' ∧ declared l' = declared l
  | [], _, _, _, _, _ => by simp only [rebindAll]; exact Cap.ok ⟨by simp only [ScopedSeq], rfl⟩
  | n :: ns, _, _, _, hf, h => by
    simp only [ScopedSeq, rebindAll] at *
    exact (cap_node n hf h.1).bind fun x hx => (cap_seq ns (hf.add _) h.2).map fun y hy => by
      rw [take_addHead] at hy
      simpa [ScopedSeq, hx.2, hy.2] using ⟨hx.1, hy.1⟩

theorem cap_each : ∀ (l : List (Node P)) {ctx : List (Option (List (Name × Ref)))} {Γ : List (List Name)} {m : Nat},
    Fit ctx Γ m → ScopedEach Γ l →
    Cap (rebindAll ctx l) fun l' => ScopedEach (Γ.take m) l' ∧ declared l' = declared l
  | [], _, _, _, _, _ => by simp only [rebindAll]; exact Cap.ok ⟨by simp only [ScopedEach], rfl⟩
  | n :: ns, _, _, _, hf, h => by
    simp only [ScopedEach, rebindAll] at *
    exact (cap_node n hf h.1).bind fun x hx => (cap_each ns hf h.2).map fun y hy => by
      simpa [ScopedEach, hx.2, hy.2] using ⟨hx.1, hy.1⟩

theorem cap_clauses : ∀ (l : List (Clause P)) {ctx : List (Option (List (Name × Ref)))} {Γ : List (List Name)} {m : Nat}
    {Δ : List Name}, Fit ctx Γ m → ScopedClauses Γ Δ l →
    Cap (rebindClauses ctx l) fun l' => ScopedClauses (Γ.take m) Δ l'
  | [], _, _, _, _, _, _ => by simp only [rebindClauses]; exact Cap.ok (by simp only [ScopedClauses])
  | .mk _ l b names :: cs, _, _, _, Δ, hf, h => by
    simp only [ScopedClauses, rebindClauses] at *
    exact (cap_each l hf h.1).bind fun x hx => (cap_seq b (hf.cons Δ) h.2.1).bind fun y hy =>
      (cap_clauses cs hf h.2.2.2).map fun z hz => by
        simp only [ScopedClauses, hy.2]
        exact ⟨hx.1, by simpa using hy.1, h.2.2.1, hz⟩
end

end Asteria.Exec.Scope
