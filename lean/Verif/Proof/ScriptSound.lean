import Verif.Spec.Script

/-!
# Helper lemmas: what the parser accepts is in the grammar
-/

namespace Asteria.Script

open Syntax Compile
open _root_.Asteria.Parser (Punct Xop infixGeneral)
open Exec (Name ClauseKind)

/-! ### Tables -/

theorem prefixOp_iff {t x} : prefixOp t = some x ↔ Prefix t x := by
  constructor
  · intro h
    unfold prefixOp at h
    split at h <;> cases h <;> constructor
  · intro h; cases h <;> rfl

theorem postfixOp_iff {t x} : postfixOp t = some x ↔ Postfix t x := by
  constructor
  · intro h
    unfold postfixOp at h
    split at h <;> cases h <;> constructor
  · intro h; cases h <;> rfl

theorem questTok_iff {t a} : questTok t = some a ↔ Quest t a := by
  constructor
  · intro h
    unfold questTok at h
    split at h <;> cases h <;> constructor
  · intro h; cases h <;> rfl

theorem pairedOp_iff {t x} : pairedOp t = some x ↔ ∃ w, t = .k w ∧ Paired w x := by
  constructor
  · intro h
    unfold pairedOp at h
    split at h <;> cases h <;> exact ⟨_, rfl, by constructor⟩
  · rintro ⟨w, rfl, h⟩; cases h <;> rfl

/-- An element made from one token is a binary operator or an assignment of the grammar. -/
theorem infixOne_spec {t e} (h : infixOne t = some e) :
    (∃ f, Binary e.prec t f ∧ e.prec ≤ 10 ∧ 1 ≤ e.prec ∧ ∀ l r, (e.setJunction r).extract l = f l r) ∨
    (∃ f, Assign t f ∧ e.prec = 11 ∧ ∀ l r, (e.setJunction r).extract l = f l r) := by
  unfold infixOne at h
  split at h <;> try (injection h with h; subst h)
  · exact .inl ⟨_, .andl, by decide, by decide, fun l r => rfl⟩
  · exact .inr ⟨_, .andl, by decide, fun l r => rfl⟩
  · exact .inl ⟨_, .and, by decide, by decide, fun l r => rfl⟩
  · exact .inl ⟨_, .orl, by decide, by decide, fun l r => rfl⟩
  · exact .inr ⟨_, .orl, by decide, fun l r => rfl⟩
  · exact .inl ⟨_, .or, by decide, by decide, fun l r => rfl⟩
  · exact .inl ⟨_, .coales, by decide, by decide, fun l r => rfl⟩
  · exact .inr ⟨_, .coales, by decide, fun l r => rfl⟩
  · rename_i x _ _ _ _ _ _
    cases x <;> simp only [infixGeneral, Option.map_some, Option.map_none, Option.some.injEq, reduceCtorEq] at h <;>
      subst h <;>
      first
      | exact .inl ⟨_, by constructor, by decide, by decide, fun l r => rfl⟩
      | exact .inr ⟨_, by constructor, by decide, fun l r => rfl⟩
  · cases h

theorem binary_infixOne {p t f} (h : Binary p t f) :
    ∃ e, infixOne t = some e ∧ questTok t = none ∧ e.prec = p ∧ nextPrec e = p ∧ p ≤ 10 ∧ 1 ≤ p ∧
      ∀ l r, (e.setJunction r).extract l = f l r := by
  cases h <;> exact ⟨_, rfl, rfl, by decide, by decide, by decide, by decide, fun l r => rfl⟩

theorem assign_infixOne {t f} (h : Assign t f) :
    ∃ e, infixOne t = some e ∧ questTok t = none ∧ e.prec = 11 ∧ nextPrec e = 10 ∧
      ∀ l r, (e.setJunction r).extract l = f l r := by
  cases h <;> exact ⟨_, rfl, rfl, by decide, by decide, fun l r => rfl⟩

/-! ### The check of results -/

theorem lastVoid_append (us : List U) (u : U) : lastVoid (us ++ [u]) = mayBeVoid u := by
  induction us with
  | nil => rw [List.nil_append, lastVoid]
  | cons v vs ih =>
    cases vs with
    | nil => rw [List.cons_append, List.nil_append, lastVoid, lastVoid]; simp
    | cons w ws =>
      rw [List.cons_append, List.cons_append, lastVoid]
      · exact ih
      · simp

theorem voidBranches_of {k b} : ∀ {bs : List (Branch Xop)}, .mk k b ∈ bs → lastVoid b = true → voidBranches bs = true
  | .mk k' b' :: bs, h, hv => by
    rw [voidBranches]
    rcases List.mem_cons.mp h with h | h
    · cases h; rw [hv]; rfl
    · rw [voidBranches_of h hv, Bool.or_true]

theorem lastVoid_of {us} (h : MayVoid us) : lastVoid us = true := by
  induction h with
  | localRef | globalRef | call => rw [lastVoid_append, mayBeVoid]
  | branch us a hm h ih => rw [lastVoid_append, mayBeVoid]; exact voidBranches_of hm ih

theorem MayVoid.cons (v : U) {us : List U} (h : MayVoid us) : MayVoid (v :: us) := by
  cases h with
  | localRef us i => exact .localRef (v :: us) i
  | globalRef us i => exact .globalRef (v :: us) i
  | call us l => exact .call (v :: us) l
  | branch us a hm h => exact .branch (v :: us) a hm h

mutual
theorem mayVoid_unit : ∀ (u : U) (us : List U), mayBeVoid u = true → MayVoid (us ++ [u])
  | .localRef i, us, _ => .localRef us i
  | .globalRef i, us, _ => .globalRef us i
  | .call l, us, _ => .call us l
  | .branch bs a, us, h => by
    obtain ⟨k, b, h1, h2⟩ := mayVoid_branches bs (by simpa only [mayBeVoid] using h)
    exact .branch us a h1 h2
  | .literal _, _, h => by simp [mayBeVoid] at h
  | .closure .., _, h => by simp [mayBeVoid] at h
  | .op _ _, _, h => by simp [mayBeVoid] at h
  | .array _, _, h => by simp [mayBeVoid] at h
  | .object _, _, h => by simp [mayBeVoid] at h
  | .checkArg _, _, h => by simp [mayBeVoid] at h
  | .catchE _, _, h => by simp [mayBeVoid] at h
termination_by structural x => x

theorem mayVoid_of : ∀ us : List U, lastVoid us = true → MayVoid us
  | [], h => by simp [lastVoid] at h
  | [u], h => mayVoid_unit u [] (by simpa only [lastVoid] using h)
  | v :: w :: us, h => .cons v (mayVoid_of (w :: us) (by simpa [lastVoid] using h))
termination_by structural x => x

theorem mayVoid_branches : ∀ bs : List (Branch Xop), voidBranches bs = true → ∃ k b, .mk k b ∈ bs ∧ MayVoid b
  | [], h => by simp [voidBranches] at h
  | .mk k b :: bs, h =>
    if hb : lastVoid b = true then ⟨k, b, .head _, mayVoid_of b hb⟩
    else by
      obtain ⟨k', b', h1, h2⟩ := mayVoid_branches bs (by simpa [voidBranches, hb] using h)
      exact ⟨k', b', .tail _ h1, h2⟩
termination_by structural x => x
end

theorem lastVoid_iff (us : List U) : lastVoid us = true ↔ MayVoid us := ⟨mayVoid_of us, lastVoid_of⟩

theorem addCheck_iff {b us vs} : addCheck b us = vs ↔ Checked b us vs := by
  unfold addCheck
  constructor
  · intro h
    split at h
    · rename_i hv; subst h; exact .check ((lastVoid_iff us).mp hv)
    · rename_i hv; subst h; exact .plain fun h => hv ((lastVoid_iff us).mpr h)
  · intro h
    cases h with
    | plain h => rw [if_neg fun hv => h ((lastVoid_iff us).mp hv)]
    | check h => rw [if_pos ((lastVoid_iff us).mpr h)]

theorem checked (b us) : Checked b us (addCheck b us) := addCheck_iff.mp rfl

/-! ### Elements -/

@[simp] theorem prec_setJunction (e : El) (us) : (e.setJunction us).prec = e.prec := by cases e <;> rfl
@[simp] theorem setJunction_setJunction (e : El) (us vs) : (e.setJunction us).setJunction vs = e.setJunction vs := by
  cases e <;> rfl
@[simp] theorem junction_setJunction (e : El) (us) : (e.setJunction us).junction = us := by cases e <;> rfl
@[simp] theorem setJunction_junction (e : El) : e.setJunction e.junction = e := by cases e <;> rfl
@[simp] theorem nextPrec_setJunction (e : El) (us) : nextPrec (e.setJunction us) = nextPrec e := by
  simp [nextPrec]

section
variable {c : Cfg}

/-! ### Levels -/

theorem level_le {p q ts} {us : List U} {r} (h : Phrase c (.level p) ts us r) (hpq : p ≤ q) (hq : q ≤ 11) :
    Phrase c (.level q) ts us r := by
  induction hpq with
  | refl => exact h
  | step h' ih => exact .loosen (by omega) (ih (by omega))

/-- Levels allowed for the left and right operands of an operator of precedence `p`. -/
def lhsLevel (p : Nat) : Nat := if p = 11 then 10 else p
def rhsLevel (p : Nat) : Nat := if p < 11 then p - 1 else 11

/-- `e` is an operator written between `m` and `q`. -/
structure IsOp (c : Cfg) (e : El) (m q : List Tok) : Prop where
  lo : 1 ≤ e.prec
  hi : e.prec ≤ 11
  make : ∀ a (l : List U) (x : List U) r, Phrase c (.level (lhsLevel e.prec)) a l m →
    Phrase c (.level (rhsLevel e.prec)) q x r → Phrase c (.level e.prec) a ((e.setJunction x).extract l) r

theorem IsOp.set {e m q} (h : IsOp c e m q) (us) : IsOp c (e.setJunction us) m q :=
  ⟨by simpa using h.lo, by simpa using h.hi, by cases e <;> exact h.make⟩

theorem isOp_infixOne {t e} (h : infixOne t = some e) (q) : IsOp c e (t :: q) q := by
  rcases infixOne_spec h with ⟨f, hb, h1, h2, h3⟩ | ⟨f, hb, h1, h3⟩
  · refine ⟨h2, by omega, ?_⟩
    intro a l x r ha hx
    rw [h3]
    obtain ⟨p, hp⟩ : ∃ p, e.prec = p + 1 := ⟨e.prec - 1, by omega⟩
    rw [lhsLevel, if_neg (by omega)] at ha
    rw [rhsLevel, if_pos (by omega)] at hx
    rw [hp] at hb ha hx ⊢
    exact .binary hb ha hx
  · refine ⟨by omega, by omega, ?_⟩
    intro a l x r ha hx
    rw [h3]
    rw [lhsLevel, if_pos h1] at ha
    rw [rhsLevel, if_neg (by omega)] at hx
    rw [h1]
    exact .assign hb ha hx

theorem isOp_ternary {t a q} {m : List U} {u} (h : Quest t a) (hm : Phrase c .expr q m (.p .colon :: u)) (f) :
    IsOp c (.ternary a m f) (t :: q) u := by
  refine ⟨by simp [El.prec], by simp [El.prec], ?_⟩
  intro x l y r hx hy
  exact .ternary h hx hm hy

/-! ### The stack -/

/-- The precedence of the topmost element. -/
def topPrec : List El → Nat
  | e :: _ => e.prec
  | [] => 99

/-- `StackOk ts s r l`: the stack stands for the tokens from `ts` up to `r`, and the junction of its topmost element is
of level `l`. -/
inductive StackOk (c : Cfg) (ts : List Tok) : List El → List Tok → Nat → Prop
  | head {us : List U} {r l} : Phrase c (.level l) ts us r → l ≤ 11 → StackOk c ts [.head us] r l
  | push {s m e q r l} : StackOk c ts s m (lhsLevel e.prec) → IsOp c e m q → e.prec ≤ rhsLevel (topPrec s) →
      Phrase c (.level l) q e.junction r → l ≤ rhsLevel e.prec → StackOk c ts (e :: s) r l

theorem lhsLevel_le {p} (h : p ≤ 11) : lhsLevel p ≤ 11 := by unfold lhsLevel; split <;> omega
theorem rhsLevel_le (p) : rhsLevel p ≤ 11 := by unfold rhsLevel; split <;> omega

theorem StackOk.pop {ts e d s r l} (h : StackOk c ts (e :: d :: s) r l) : StackOk c ts (popOne (e :: d :: s)) r e.prec := by
  cases h with
  | push hs ho hp hb hl =>
    have hb' := level_le hb hl (rhsLevel_le _)
    rw [popOne]
    cases hs with
    | head ha hl' =>
      have := ho.make _ _ _ _ ha hb'
      rw [setJunction_junction] at this
      exact .head this ho.hi
    | push hs' ho' hp' hb'' hl' =>
      have := ho.make _ _ _ _ hb'' hb'
      rw [setJunction_junction] at this
      refine .push ?_ (ho'.set _) ?_ ?_ ?_
      · rw [prec_setJunction]; exact hs'
      · rw [prec_setJunction]; exact hp'
      · rw [junction_setJunction]; exact this
      · rw [prec_setJunction]; exact hp

theorem topPrec_popOne {e d s} : topPrec (popOne (e :: d :: s)) = d.prec := by simp [popOne, topPrec]

theorem length_popOne {e d s} : (popOne (e :: d :: s)).length + 1 = (e :: d :: s).length := by simp [popOne]

theorem level_arith {p T : Nat} (h : p ≤ 11) (h' : T > lhsLevel p ∨ T = 99) :
    lhsLevel p ≤ rhsLevel T ∧ p ≤ rhsLevel T := by
  unfold lhsLevel at *; unfold rhsLevel
  by_cases h1 : p = 11
  · rw [if_pos h1] at *
    rw [if_neg (by omega)]; omega
  · rw [if_neg h1] at *
    split <;> omega

theorem StackOk.mono {ts s r l l'} (h : StackOk c ts s r l) (hl : l ≤ l') (hr : l' ≤ rhsLevel (topPrec s)) :
    StackOk c ts s r l' := by
  cases h with
  | head h h' => exact .head (level_le h hl (Nat.le_trans hr (rhsLevel_le _))) (Nat.le_trans hr (rhsLevel_le _))
  | push h1 h2 h3 h4 h5 => exact .push h1 h2 h3 (level_le h4 hl (Nat.le_trans hr (rhsLevel_le _))) hr

/-- Collapsing keeps the tokens; afterwards the junction is no looser than `next`, and the topmost element is looser. -/
theorem collapse_ok (next : Nat) : ∀ n ts s r l, StackOk c ts s r l → l ≤ next → s.length ≤ n →
    ∃ l', StackOk c ts (collapse next n s) r l' ∧ l' ≤ next ∧ (topPrec (collapse next n s) > next ∨
      topPrec (collapse next n s) = 99) := by
  intro n
  induction n with
  | zero => intro ts s a l h _ hn; cases h <;> simp at hn
  | succ n ih =>
    intro ts s a l h hl hn
    match s, h with
    | [], h => cases h
    | [e], h =>
      refine ⟨l, h, hl, .inr ?_⟩
      cases h with
      | head => rfl
      | push hs => cases hs
    | e :: d :: s, h =>
      rw [collapse]
      by_cases he : e.prec ≤ next
      · rw [if_pos he]
        exact ih _ _ _ _ h.pop he (by have := @length_popOne e d s; omega)
      · rw [if_neg he]
        exact ⟨l, h, hl, .inl (by simpa [topPrec] using he)⟩

theorem collapseAll_ok : ∀ n ts s r l, StackOk c ts s r l → s.length ≤ n → Phrase c (.level 11) ts (collapseAll n s) r := by
  intro n
  induction n with
  | zero => intro ts s a l h hn; cases h <;> simp at hn
  | succ n ih =>
    intro ts s a l h hn
    match s, h with
    | [], h => cases h
    | [e], h =>
      cases h with
      | head h1 h2 => rw [collapseAll, El.extract, List.nil_append]; exact level_le h1 h2 (Nat.le_refl _)
      | push hs => cases hs
    | e :: d :: s, h =>
      rw [collapseAll]
      exact ih _ _ _ _ h.pop (by have := @length_popOne e d s; omega)

end

/-! ### Inversion of the combinators -/

theorem need_yes {α β} {x : P α} {f : α → List Tok → P β} {b r} (h : x.need f = .yes b r) :
    ∃ a ts, x = .yes a ts ∧ f a ts = .yes b r := by
  cases x <;> simp only [P.need, reduceCtorEq] at h
  exact ⟨_, _, rfl, h⟩

theorem orElse_yes {α β} {x : P α} {f : α → List Tok → P β} {g : P β} {b r} (h : x.orElse f g = .yes b r) :
    (∃ a ts, x = .yes a ts ∧ f a ts = .yes b r) ∨ (x = .no ∧ g = .yes b r) := by
  cases x <;> simp only [P.orElse, reduceCtorEq] at h
  · exact .inl ⟨_, _, rfl, h⟩
  · exact .inr ⟨rfl, h⟩

theorem expect_yes {β} {x : Punct} {ts : List Tok} {f : List Tok → P β} {b r} (h : expect x ts f = .yes b r) :
    ∃ ts', ts = .p x :: ts' ∧ f ts' = .yes b r := by
  unfold expect at h
  split at h
  · split at h
    · rename_i h1; exact ⟨_, by rw [h1], h⟩
    · cases h
  · cases h

theorem expectKw_yes {β} {x : Kw} {ts : List Tok} {f : List Tok → P β} {b r} (h : expectKw x ts f = .yes b r) :
    ∃ ts', ts = .k x :: ts' ∧ f ts' = .yes b r := by
  unfold expectKw at h
  split at h
  · split at h
    · rename_i h1; exact ⟨_, by rw [h1], h⟩
    · cases h
  · cases h

/-! ### Names, literals and such -/

theorem reserved_iff (s : Bytes) : reserved s = true ↔ ∃ q, s = 0x5F :: 0x5F :: q := by
  unfold reserved
  match s with
  | [] => simp
  | [a] => simp
  | a :: b :: q => simp

theorem userIdent_yes {c ts i r} (h : userIdent c ts = .yes i r) : ∃ t, ts = t :: r ∧ Declared c t i := by
  unfold userIdent at h
  split at h
  · cases h
  · rename_i s ts
    split at h
    · cases h
    · rename_i hr
      cases h
      exact ⟨_, rfl, .mk s fun h => hr ((reserved_iff s).mpr h)⟩
  · cases h

theorem anyIdent_yes {c ts i r} (h : anyIdent c ts = .yes i r) : ∃ s, ts = .ident s :: r ∧ i = c.num s := by
  unfold anyIdent at h
  split at h <;> cases h
  exact ⟨_, rfl, rfl⟩

theorem key_yes {ts s r} (h : key ts = .yes s r) : ∃ t, ts = t :: r ∧ Key t s := by
  unfold key at h
  split at h <;> cases h
  · exact ⟨_, rfl, .kw _⟩
  · exact ⟨_, rfl, .ident _⟩
  · exact ⟨_, rfl, .str _⟩

theorem strings_spec : ∀ (ts : List Tok) (s : Bytes),
    Strings (.str s :: ts) (strings (.str s :: ts)).1 (strings (.str s :: ts)).2
  | .str s' :: ts, s => by
    have := strings_spec ts s'
    rw [strings]
    exact .more s this
  | [], s => by
    simp only [strings, List.append_nil]
    exact .last s _ (fun t q e => by cases e)
  | .p _ :: _, s => by
    simp only [strings, List.append_nil]
    exact .last s _ (fun t q e => by cases e; rintro ⟨s, h⟩; cases h)
  | .k _ :: _, s => by
    simp only [strings, List.append_nil]
    exact .last s _ (fun t q e => by cases e; rintro ⟨s, h⟩; cases h)
  | .ident _ :: _, s => by
    simp only [strings, List.append_nil]
    exact .last s _ (fun t q e => by cases e; rintro ⟨s, h⟩; cases h)
  | .int _ :: _, s => by
    simp only [strings, List.append_nil]
    exact .last s _ (fun t q e => by cases e; rintro ⟨s, h⟩; cases h)
  | .real _ :: _, s => by
    simp only [strings, List.append_nil]
    exact .last s _ (fun t q e => by cases e; rintro ⟨s, h⟩; cases h)

theorem literal_yes {ts v r} (h : literal ts = .yes v r) : Literal ts v r := by
  unfold literal at h
  split at h <;> cases h
  · exact .null _
  · exact .false _
  · exact .true _
  · exact .int _ _
  · exact .real _ _
  · exact .str (strings_spec _ _)

theorem negation_spec (ts : List Tok) : Negation ts (negation ts).1 (negation ts).2 := by
  unfold negation
  split
  · exact .notl _
  · exact .not _
  · exact .none _

theorem refSpec_spec (ts : List Tok) : RefSpec ts (refSpec ts).1 (refSpec ts).2 := by
  unfold refSpec
  split
  · exact .ref _
  · exact .arrow _
  · exact .none _

theorem nodup_snoc {acc ns : List Name} {n : Name} (h : (acc ++ [n]).Nodup → (acc ++ [n] ++ ns).Nodup) (ha : acc.Nodup)
    (hn : n ∉ acc) : (acc ++ n :: ns).Nodup := by
  have := h (List.nodup_append.mpr ⟨ha, by simp, by rintro a h1 b h2 rfl; simp at h2; exact hn (h2 ▸ h1)⟩)
  simpa using this

theorem names_yes (c) : ∀ (k : Nat) (ts : List Tok) acc ms r, ts.length ≤ k → names c acc ts = .yes ms r →
    ∃ ns, ms = acc ++ ns ∧ Names c ts ns r ∧ (acc.Nodup → (acc ++ ns).Nodup) := by
  intro k
  induction k with
  | zero =>
    intro ts acc ms r hk h
    match ts with
    | [] => rw [names] at h <;> first | (cases h; exact ⟨[], by simp, .none _, by simp⟩) | simp
    | _ :: _ => simp at hk
  | succ k ih =>
    intro ts acc ms r hk h
    unfold names at h
    split at h
    · cases h
    · rename_i s ts'
      split at h
      · cases h
      · rename_i hn
        have hd : Declared c (.ident s) (c.num s) := .mk s fun h => hn (.inl ((reserved_iff s).mpr h))
        split at h
        · obtain ⟨ns, h1, h2, h3⟩ := ih _ _ _ _ (by simp at hk; omega) h
          exact ⟨c.num s :: ns, by simpa using h1, .more hd h2, fun ha => nodup_snoc h3 ha (fun h => hn (.inr h))⟩
        · cases h
          exact ⟨[c.num s], rfl, .last _ hd, fun ha => nodup_snoc (ns := []) (by simp) ha (fun h => hn (.inr h))⟩
    · cases h
      exact ⟨[], by simp, .none _, by simp⟩

theorem params_yes (c) : ∀ (k : Nat) (ts : List Tok) acc ms v r, ts.length ≤ k → params c acc ts = .yes (ms, v) r →
    ∃ ns, ms = acc ++ ns ∧ Params c ts ns v r ∧ (acc.Nodup → (acc ++ ns).Nodup) := by
  intro k
  induction k with
  | zero =>
    intro ts acc ms v r hk h
    match ts with
    | [] => rw [params] at h <;> first | (cases h; exact ⟨[], by simp, .none _, by simp⟩) | simp
    | _ :: _ => simp at hk
  | succ k ih =>
    intro ts acc ms v r hk h
    unfold params at h
    split at h
    · cases h
      exact ⟨[], by simp, .dots _, by simp⟩
    · cases h
    · rename_i s ts'
      split at h
      · cases h
      · rename_i hn
        have hd : Declared c (.ident s) (c.num s) := .mk s fun h => hn (.inl ((reserved_iff s).mpr h))
        split at h
        · obtain ⟨ns, h1, h2, h3⟩ := ih _ _ _ _ _ (by simp at hk; omega) h
          exact ⟨c.num s :: ns, by simpa using h1, .more hd h2, fun ha => nodup_snoc h3 ha (fun h => hn (.inr h))⟩
        · cases h
          exact ⟨[c.num s], rfl, .last _ hd, fun ha => nodup_snoc (ns := []) (by simp) ha (fun h => hn (.inr h))⟩
    · cases h
      exact ⟨[], by simp, .none _, by simp⟩

theorem params_nil {c ts ps r} (h : params c [] ts = .yes ps r) : Params c ts ps.1 ps.2 r ∧ ps.1.Nodup := by
  obtain ⟨ns, h1, h2, h3⟩ := params_yes c _ ts [] ps.1 ps.2 r (Nat.le_refl _) h
  rw [h1]
  exact ⟨h2, h3 .nil⟩

theorem declarator_yes {c ts b r} (h : declarator c ts = .yes b r) : Declarator c ts (fun us => b.decl us) r := by
  unfold declarator at h
  rcases orElse_yes h with ⟨n, q, h1, h2⟩ | ⟨_, h2⟩
  · cases h2
    obtain ⟨t, rfl, h3⟩ := userIdent_yes h1
    exact .scalar _ h3
  · split at h2
    · obtain ⟨ns, q, h3, h4⟩ := need_yes h2
      split at h4
      · cases h4
      · rename_i he
        obtain ⟨q', h5, h6⟩ := expect_yes h4
        cases h6; subst h5
        obtain ⟨ms, e1, e2, e3⟩ := names_yes c _ _ _ _ _ (Nat.le_refl _) h3
        simp only [List.nil_append] at e1 e3
        subst e1
        exact .array e2 (by simpa using he) (e3 .nil)
    · obtain ⟨ns, q, h3, h4⟩ := need_yes h2
      split at h4
      · cases h4
      · rename_i he
        obtain ⟨q', h5, h6⟩ := expect_yes h4
        cases h6; subst h5
        obtain ⟨ms, e1, e2, e3⟩ := names_yes c _ _ _ _ _ (Nat.le_refl _) h3
        simp only [List.nil_append] at e1 e3
        subst e1
        exact .object e2 (by simpa using he) (e3 .nil)
    · cases h2

/-- The flags say which statements are around. -/
structure Agree (sc : Scope) (l : List Around) : Prop where
  sw : sc.sw = true ↔ .switch ∈ l
  wh : sc.wh = true ↔ .while ∈ l
  fr : sc.fr = true ↔ .for ∈ l

theorem agree_plain : Agree plain [] := ⟨by simp [plain], by simp [plain], by simp [plain]⟩

theorem Agree.toSwitch {sc l} (h : Agree sc l) : Agree { sc with sw := true } (.switch :: l) :=
  ⟨by simp, by simpa using h.wh, by simpa using h.fr⟩

theorem Agree.toWhile {sc l} (h : Agree sc l) : Agree { sc with wh := true } (.while :: l) :=
  ⟨by simpa using h.sw, by simp, by simpa using h.fr⟩

theorem Agree.toFor {sc l} (h : Agree sc l) : Agree { sc with fr := true } (.for :: l) :=
  ⟨by simpa using h.sw, by simpa using h.wh, by simp⟩

theorem Agree.any {sc l} (h : Agree sc l) : (sc.sw || sc.wh || sc.fr) = true ↔ l ≠ [] := by
  simp only [Bool.or_eq_true, h.sw, h.wh, h.fr]
  constructor
  · rintro ((h | h) | h) <;> exact List.ne_nil_of_mem h
  · intro hl
    match l, hl with
    | .switch :: _, _ => simp
    | .while :: _, _ => simp
    | .for :: _, _ => simp

theorem Agree.loop {sc l} (h : Agree sc l) : (sc.wh || sc.fr) = true ↔ .while ∈ l ∨ .for ∈ l := by
  simp only [Bool.or_eq_true, h.wh, h.fr]

theorem breakStmt_yes {c sc l ts s r} (ha : Agree sc l) (h : breakStmt sc ts = .yes s r) :
    Phrase c (.nondecl l) (.k .break_ :: ts) s r := by
  unfold breakStmt at h
  split at h <;> (dsimp only at h; split at h <;> try cases h) <;>
    (rename_i hc; obtain ⟨q, h5, h6⟩ := expect_yes h; cases h6; subst h5)
  · exact .break (.switch _) (ha.sw.mp hc)
  · exact .break (.while _) (ha.wh.mp hc)
  · exact .break (.for _) (ha.fr.mp hc)
  · exact .break (.none _) (ha.any.mp hc)

theorem contStmt_yes {c sc l ts s r} (ha : Agree sc l) (h : contStmt sc ts = .yes s r) :
    Phrase c (.nondecl l) (.k .continue_ :: ts) s r := by
  unfold contStmt at h
  split at h <;> (dsimp only at h; split at h <;> try cases h) <;>
    (rename_i hc; obtain ⟨q, h5, h6⟩ := expect_yes h; cases h6; subst h5)
  · exact .continue (.while _) (ha.wh.mp hc)
  · exact .continue (.for _) (ha.fr.mp hc)
  · exact .continue (.none _) (ha.loop.mp hc)

theorem assertMsg_yes {β} {ts : List Tok} {f : List Tok → P β} {b r} (h : assertMsg ts f = .yes b r) :
    ∃ q, Message ts q ∧ f q = .yes b r := by
  unfold assertMsg at h
  split at h
  · split at h
    · exact ⟨_, .some _ _, h⟩
    · cases h
  · exact ⟨_, .none _, h⟩

theorem blockify_spec (s : S) : Block s (blockify s) := by
  unfold blockify
  split
  · exact .block _
  · rename_i h; exact .other fun b e => h b e

/-! ### Where expressions end -/

/-- Tokens after which the suffix loop goes on. -/
def StopsPost (ts : List Tok) : Prop :=
  ∀ t r, ts = t :: r → postfixOp t = none ∧ t ≠ .p .parOp ∧ t ≠ .p .brackOp ∧ t ≠ .p .dot

/-- Tokens after which the infix loop goes on. -/
def StopsInfix (ts : List Tok) : Prop := ∀ t r, ts = t :: r → questTok t = none ∧ infixOne t = none

theorem stops_iff (ts : List Tok) : NotNext Continues ts ↔ StopsPost ts ∧ StopsInfix ts := by
  constructor
  · intro h
    constructor
    · intro t r e
      have hc := h t r e
      refine ⟨?_, ?_, ?_, ?_⟩
      · cases hp : postfixOp t with
        | none => rfl
        | some x => exact absurd (.suffix (postfixOp_iff.mp hp)) hc
      · rintro rfl; exact hc .call
      · rintro rfl; exact hc .index
      · rintro rfl; exact hc .member
    · intro t r e
      have hc := h t r e
      constructor
      · cases hp : questTok t with
        | none => rfl
        | some x => exact absurd (.quest (questTok_iff.mp hp)) hc
      · cases hp : infixOne t with
        | none => rfl
        | some x =>
          rcases infixOne_spec hp with ⟨f, hb, _⟩ | ⟨f, hb, _⟩
          · exact absurd (.binary hb) hc
          · exact absurd (.assign hb) hc
  · rintro ⟨h1, h2⟩ t r e hc
    obtain ⟨a1, a2, a3, a4⟩ := h1 t r e
    obtain ⟨b1, b2⟩ := h2 t r e
    cases hc with
    | suffix h => rw [postfixOp_iff.mpr h] at a1; cases a1
    | call => exact a2 rfl
    | index => exact a3 rfl
    | member => exact a4 rfl
    | binary h => obtain ⟨e, he, _⟩ := binary_infixOne h; rw [he] at b2; cases b2
    | assign h => obtain ⟨e, he, _⟩ := assign_infixOne h; rw [he] at b2; cases b2
    | quest h => rw [questTok_iff.mpr h] at b1; cases b1

theorem prefixes_spec {c} : ∀ (ts : List Tok) (acc : List U) (us : List U) r,
    ∃ xs, (prefixes acc ts).1 = xs ++ acc ∧
      (Phrase c .unary (prefixes acc ts).2 us r → Phrase c .unary ts (us ++ xs) r)
  | [], acc, us, r => ⟨[], by simp [prefixes], fun h => by simpa [prefixes] using h⟩
  | t :: ts, acc, us, r => by
    cases hp : prefixOp t with
    | none => exact ⟨[], by simp [prefixes, hp], fun h => by simpa [prefixes, hp] using h⟩
    | some x =>
      obtain ⟨xs, h1, h2⟩ := prefixes_spec ts (.op x false :: acc) us r
      refine ⟨xs ++ [.op x false], by simp [prefixes, hp, h1], fun h => ?_⟩
      have := Phrase.prefixed (prefixOp_iff.mp hp) (h2 (by simpa [prefixes, hp] using h))
      simpa using this

theorem infixOp_no {c n ts} (h : infixOp c n ts = .no) : StopsInfix ts := by
  cases n with
  | zero => simp [infixOp] at h
  | succ n =>
    intro t r e
    subst e
    rw [infixOp] at h
    cases hq : questTok t with
    | some a =>
      rw [hq] at h
      simp only [P.need] at h
      split at h
      · unfold expect at h
        split at h
        · split at h <;> cases h
        · cases h
      all_goals cases h
    | none =>
      rw [hq] at h
      refine ⟨rfl, ?_⟩
      cases hi : infixOne t with
      | none => rfl
      | some e => rw [hi] at h; cases h

/-! ### Soundness -/

/-- The keys and the units of members. -/
def keysOf (ms : List (Bytes × List U)) : List Bytes := ms.map Prod.fst
def unitsOf (ms : List (Bytes × List U)) : List U := (ms.map Prod.snd).flatten

/-- What every parsing function with bound `n` gives. -/
structure Sound (c : Cfg) (n : Nat) : Prop where
  expr : ∀ {ts us r}, expr c n ts = .yes us r → Phrase c .expr ts us r
  loop : ∀ {s ts us r ts0}, infixLoop c n s ts = .yes us r → StackOk c ts0 s ts 0 → StopsPost ts → Phrase c .expr ts0 us r
  op : ∀ {ts e r}, infixOp c n ts = .yes e r → IsOp c e ts r
  elem : ∀ {ts us r}, elem c n ts = .yes us r → Phrase c .unary ts us r ∧ StopsPost r
  primary : ∀ {ts us r}, primary c n ts = .yes us r → Phrase c .primary ts us r
  closure : ∀ {ts us r}, closure c n ts = .yes us r → Phrase c .primary (.k .func :: ts) us r
  elements : ∀ {k ts o r}, elements c n k ts = .yes o r → ∃ es : List (List U), o = (k + es.length, es.flatten) ∧
    Phrase c .elems ts es r ∧ (k ≤ 0xFFFFF → k + es.length ≤ 0xFFFFF)
  members : ∀ {ks ts o r}, members c n ks ts = .yes o r → ∃ ms : List (Bytes × List U),
    o = (ks ++ keysOf ms, unitsOf ms) ∧ Phrase c .members ts ms r ∧ (ks.Nodup → (ks ++ keysOf ms).Nodup)
  suffixes : ∀ {us0 ts us r ts0}, suffixes c n us0 ts = .yes us r → Phrase c .suffixed ts0 us0 ts →
    Phrase c .suffixed ts0 us r ∧ StopsPost r
  args : ∀ {ts l r}, args c n ts = .yes l r → Phrase c .args ts l r
  cond : ∀ {ts us r}, cond c n ts = .yes us r → Phrase c .cond ts us r
  decls : ∀ {i ts ds r}, decls c i n ts = .yes ds r → Phrase c (.decls i) ts ds r
  refDecls : ∀ {ts ds r}, refDecls c n ts = .yes ds r → Phrase c .refDecls ts ds r
  definition : ∀ {ts s r}, definition c n ts = .yes s r → Phrase c .defn ts s r
  function : ∀ {l ts s r}, function c n ts = .yes s r → Phrase c (.stmt l) (.k .func :: ts) s r
  clauses : ∀ {sc l d ts cs r}, Agree sc l → clauses c sc n d ts = .yes cs r → Phrase c (.clauses l) ts cs r ∧
    (cs.filter isDefault).length ≤ (if d then 0 else 1)
  interval : ∀ {ts o r}, interval c n ts = .yes o r → ∃ (lo up : Bool) (q : List Tok) (x y : List U) (m : List Tok),
    ts = (if lo then .p .brackOp else .p .parOp) :: q ∧ Phrase c .expr q x (.p .comma :: m) ∧
      Phrase c .expr m y ((if up then .p .brackCl else .p .parCl) :: r) ∧
      o = (.each lo up, addCheck false x, addCheck false y)
  complete : ∀ {sc l ts o r}, Agree sc l → complete c sc n ts = .yes o r →
    (o.1 = true ∧ ∃ q, ts = .k .ifcomplete :: q ∧ Phrase c (.body l) q o.2 r) ∨
    (o = (false, []) ∧ r = ts ∧ NotNext (· = .k .ifcomplete) ts)
  forStmt : ∀ {sc l ts s r}, Agree sc l → forStmt c sc n ts = .yes s r → Phrase c (.nondecl l) (.k .for_ :: ts) s r
  forInit : ∀ {ts s r}, forInit c n ts = .yes s r → Phrase c .forInit ts s r
  exprStmt : ∀ {ts s r}, exprStmt c n ts = .yes s r → Phrase c .exprStmt ts s r
  nondecl : ∀ {sc l ts s r}, Agree sc l → nondecl c sc n ts = .yes s r → Phrase c (.nondecl l) ts s r
  stmt : ∀ {sc l ts s r}, Agree sc l → stmt c sc n ts = .yes s r → Phrase c (.stmt l) ts s r
  stmts : ∀ {sc l ts ss r}, Agree sc l → stmts c n sc ts = .yes ss r → Phrase c (.stmts l) ts ss r

theorem sound_zero (c : Cfg) : Sound c 0 := by
  constructor <;> intros <;> rename_i h <;>
    simp_all [expr, infixLoop, infixOp, elem, primary, closure, elements, members, suffixes, args, Syntax.cond, decls, refDecls,
      definition, function, clauses, interval, complete, forStmt, forInit, exprStmt, nondecl, stmt, stmts]

theorem Sound.body {c n sc l ts s r} (ih : Sound c n) (ha : Agree sc l) (h : Syntax.nondecl c sc n ts = .yes s r) :
    Phrase c (.body l) ts (blockify s) r := .body (ih.nondecl ha h) (blockify_spec s)

/-- `complete` where the keyword is not required. -/
theorem Sound.completes {c n sc l ts o r} (ih : Sound c n) (ha : Agree sc l) (h : Syntax.complete c sc n ts = .yes o r) :
    Phrase c (.complete l) ts o.2 r := by
  rcases ih.complete ha h with ⟨_, q, rfl, hb⟩ | ⟨rfl, rfl, hb⟩
  · exact .complete hb
  · exact .noComplete _ _ hb

theorem keys_snoc {ks ns : List Bytes} {s : Bytes} (h : (ks ++ [s]).Nodup → (ks ++ [s] ++ ns).Nodup) (ha : ks.Nodup)
    (hn : s ∉ ks) : (ks ++ s :: ns).Nodup := by
  have := h (List.nodup_append.mpr ⟨ha, by simp, by rintro a h1 b h2 rfl; simp at h2; exact hn (h2 ▸ h1)⟩)
  simpa using this

section
variable {c : Cfg} {n : Nat} (ih : Sound c n)
include ih

theorem sound_expr {ts us r} (h : expr c (n + 1) ts = .yes us r) : Phrase c .expr ts us r := by
  rw [expr] at h
  rcases orElse_yes h with ⟨us', ts', h1, h2⟩ | ⟨_, h2⟩
  · obtain ⟨hu, hs⟩ := ih.elem h1
    exact ih.loop h2 (.head (.operand hu) (by omega)) hs
  · cases h2

theorem sound_loop {s ts us r ts0} (h : infixLoop c (n + 1) s ts = .yes us r) (hs : StackOk c ts0 s ts 0)
    (hp : StopsPost ts) : Phrase c .expr ts0 us r := by
  rw [infixLoop] at h
  rcases orElse_yes h with ⟨e, ts', h1, h2⟩ | ⟨h1, h2⟩
  · obtain ⟨us', ts'', h3, h4⟩ := need_yes h2
    have hop := ih.op h1
    obtain ⟨hu, hsp⟩ := ih.elem h3
    obtain ⟨l', k1, k2, k3⟩ := collapse_ok (nextPrec e) s.length ts0 s ts 0 hs (by omega) (Nat.le_refl _)
    refine ih.loop h4 ?_ hsp
    refine .push (e := e.setJunction us') ?_ (hop.set _) ?_ ?_ (by omega)
    · rw [prec_setJunction]
      exact k1.mono k2 (level_arith hop.hi k3).1
    · rw [prec_setJunction]
      exact (level_arith hop.hi k3).2
    · rw [junction_setJunction]; exact .operand hu
  · cases h2
    exact .expr (collapseAll_ok _ _ _ _ _ hs (Nat.le_refl _)) ((stops_iff _).mpr ⟨hp, infixOp_no h1⟩)

theorem sound_op {ts e r} (h : infixOp c (n + 1) ts = .yes e r) : IsOp c e ts r := by
  match ts with
  | [] => simp [infixOp] at h
  | t :: ts =>
    rw [infixOp] at h
    cases hq : questTok t with
    | some a =>
      rw [hq] at h
      obtain ⟨us, ts', h1, h2⟩ := need_yes h
      obtain ⟨ts'', rfl, h4⟩ := expect_yes h2
      cases h4
      exact isOp_ternary (questTok_iff.mp hq) (ih.expr h1) _
    | none =>
      rw [hq] at h
      cases hi : infixOne t with
      | none => rw [hi] at h; cases h
      | some e' =>
        rw [hi] at h
        cases h
        exact isOp_infixOne hi _

theorem sound_elem {ts us r} (h : elem c (n + 1) ts = .yes us r) : Phrase c .unary ts us r ∧ StopsPost r := by
  rw [elem] at h
  rcases orElse_yes h with ⟨us', ts', h1, h2⟩ | ⟨_, h2⟩
  · obtain ⟨us'', ts'', h3, h4⟩ := need_yes h2
    obtain ⟨hs, hst⟩ := ih.suffixes h3 (.bare (ih.primary h1))
    obtain ⟨xs, hx, hpre⟩ := prefixes_spec (c := c) ts [] us'' ts''
    cases h4
    rw [hx, List.append_nil]
    exact ⟨hpre (.noPrefix hs), hst⟩
  · split at h2 <;> cases h2

theorem sound_closure {ts us r} (h : closure c (n + 1) ts = .yes us r) : Phrase c .primary (.k .func :: ts) us r := by
  rw [closure] at h
  obtain ⟨r1, hE, hF⟩ := expect_yes h; clear h; rename' hF => h; subst hE
  obtain ⟨ps, r2, g, hF⟩ := need_yes h; clear h; rename' hF => h
  obtain ⟨r3, hE, hF⟩ := expect_yes h; clear h; rename' hF => h; subst hE
  obtain ⟨hp, hn⟩ := params_nil g
  split at h
  · obtain ⟨b, r4, g4, hF⟩ := need_yes h; clear h; rename' hF => h
    obtain ⟨r5, hE, hF⟩ := expect_yes h; clear h; rename' hF => h; subst hE
    cases h
    exact .closure hp hn (ih.stmts agree_plain g4)
  · obtain ⟨b, r4, g4, hF⟩ := need_yes h; clear h; rename' hF => h
    cases h
    exact .closureEqual hp hn (ih.expr g4)
  · obtain ⟨b, r4, g4, hF⟩ := need_yes h; clear h; rename' hF => h
    cases h
    exact .closureArrow hp hn (ih.expr g4)
  · cases h

theorem sound_primary {ts us r} (h : primary c (n + 1) ts = .yes us r) : Phrase c .primary ts us r := by
  match ts with
  | [] => simp [primary] at h
  | t :: ts =>
    unfold primary at h
    cases hp : pairedOp t with
    | some x =>
      rw [hp] at h
      obtain ⟨w, rfl, hw⟩ := pairedOp_iff.mp hp
      obtain ⟨r1, hE, hF⟩ := expect_yes h; clear h; rename' hF => h; subst hE
      obtain ⟨u1, r2, g1, hF⟩ := need_yes h; clear h; rename' hF => h
      obtain ⟨r3, hE, hF⟩ := expect_yes h; clear h; rename' hF => h; subst hE
      obtain ⟨u2, r4, g2, hF⟩ := need_yes h; clear h; rename' hF => h
      obtain ⟨r5, hE, hF⟩ := expect_yes h; clear h; rename' hF => h; subst hE
      cases h
      exact .paired hw (ih.expr g1) (ih.expr g2)
    | none =>
      rw [hp] at h
      dsimp only at h
      split at h
      · rename_i s _
        cases h
        unfold localName
        split
        · rename_i hs; subst hs; exact .file _
        · split
          · rename_i hs; subst hs; exact .line _
          · exact .ident _ (by assumption) (by assumption)
      · obtain ⟨i, ts', h1, h2⟩ := need_yes h
        cases h2
        obtain ⟨s, rfl, rfl⟩ := anyIdent_yes h1
        exact .extern _ _
      · cases h; exact .this _
      · exact ih.closure h
      · obtain ⟨o, r1, g1, hF⟩ := need_yes h; clear h; rename' hF => h
        obtain ⟨r3, hE, hF⟩ := expect_yes h; clear h; rename' hF => h; subst hE
        cases h
        obtain ⟨es, rfl, h2, h3⟩ := ih.elements g1
        simp only [Nat.zero_add] at h3 ⊢
        exact .array h2 (h3 (by omega))
      · obtain ⟨o, r1, g1, hF⟩ := need_yes h; clear h; rename' hF => h
        obtain ⟨r3, hE, hF⟩ := expect_yes h; clear h; rename' hF => h; subst hE
        cases h
        obtain ⟨es, rfl, h2, h3⟩ := ih.members g1
        simp only [List.nil_append] at h3 ⊢
        exact .object h2 (h3 .nil)
      · obtain ⟨us', ts', h1, h2⟩ := need_yes h
        obtain ⟨ts'', rfl, h4⟩ := expect_yes h2
        cases h4
        exact .paren (ih.expr h1)
      · obtain ⟨r1, hE, hF⟩ := expect_yes h; clear h; rename' hF => h; subst hE
        obtain ⟨u1, r2, g1, hF⟩ := need_yes h; clear h; rename' hF => h
        obtain ⟨r3, hE, hF⟩ := expect_yes h; clear h; rename' hF => h; subst hE
        obtain ⟨u2, r4, g2, hF⟩ := need_yes h; clear h; rename' hF => h
        obtain ⟨r5, hE, hF⟩ := expect_yes h; clear h; rename' hF => h; subst hE
        obtain ⟨u3, r6, g3, hF⟩ := need_yes h; clear h; rename' hF => h
        obtain ⟨r7, hE, hF⟩ := expect_yes h; clear h; rename' hF => h; subst hE
        cases h
        exact .fma (ih.expr g1) (ih.expr g2) (ih.expr g3)
      · obtain ⟨r1, hE, hF⟩ := expect_yes h; clear h; rename' hF => h; subst hE
        obtain ⟨u1, r2, g1, hF⟩ := need_yes h; clear h; rename' hF => h
        obtain ⟨r3, hE, hF⟩ := expect_yes h; clear h; rename' hF => h; subst hE
        cases h
        exact .catching (ih.expr g1)
      · cases h
      · cases h
      · rcases orElse_yes h with ⟨v, q, h1, h2⟩ | ⟨_, h2⟩
        · cases h2; exact .literal (literal_yes h1)
        · cases h2

theorem sound_elements {k ts o r} (h : elements c (n + 1) k ts = .yes o r) : ∃ es : List (List U),
    o = (k + es.length, es.flatten) ∧ Phrase c .elems ts es r ∧ (k ≤ 0xFFFFF → k + es.length ≤ 0xFFFFF) := by
  rw [elements] at h
  rcases orElse_yes h with ⟨us, ts', h1, h2⟩ | ⟨_, h2⟩
  · split at h2
    · cases h2
    · rename_i hk
      have he := ih.expr h1
      split at h2
      · obtain ⟨o', q, g, h3⟩ := need_yes h2
        obtain ⟨es, rfl, e2, e3⟩ := ih.elements g
        cases h3
        refine ⟨addCheck false us :: es, ?_, .moreElems he (checked _ _) .comma e2, fun _ => ?_⟩
        · simp; omega
        · have := e3 (by omega); simp only [List.length_cons]; omega
      · obtain ⟨o', q, g, h3⟩ := need_yes h2
        obtain ⟨es, rfl, e2, e3⟩ := ih.elements g
        cases h3
        refine ⟨addCheck false us :: es, ?_, .moreElems he (checked _ _) .semicol e2, fun _ => ?_⟩
        · simp; omega
        · have := e3 (by omega); simp only [List.length_cons]; omega
      · cases h2
        refine ⟨[addCheck false us], by simp, .lastElem he (checked _ _), fun _ => ?_⟩
        simp only [List.length_cons, List.length_nil]; omega
  · cases h2
    exact ⟨[], by simp, .noElems _, by simp⟩

theorem sound_members {ks ts o r} (h : members c (n + 1) ks ts = .yes o r) : ∃ ms : List (Bytes × List U),
    o = (ks ++ keysOf ms, unitsOf ms) ∧ Phrase c .members ts ms r ∧ (ks.Nodup → (ks ++ keysOf ms).Nodup) := by
  rw [members] at h
  rcases orElse_yes h with ⟨s, ts', h1, h2⟩ | ⟨_, h2⟩
  · obtain ⟨x, rfl, hx⟩ := key_yes h1
    split at h2
    · cases h2
    · rename_i hk
      dsimp only at h2
      have hsep : ∀ q, (match ts' with
            | .p .assign :: ts => some ts
            | .p .colon :: ts => some ts
            | _ => none) = some q → ∃ t, ts' = t :: q ∧ KeySep t := by
        intro q hq
        split at hq <;> cases hq
        · exact ⟨_, rfl, .assign⟩
        · exact ⟨_, rfl, .colon⟩
      split at h2
      · cases h2
      · rename_i q hq
        obtain ⟨t, rfl, ht⟩ := hsep _ hq
        obtain ⟨us, r1, g1, hF⟩ := need_yes h2; clear h2; rename' hF => h2
        have he := ih.expr g1
        split at h2
        · obtain ⟨o', q, g, h3⟩ := need_yes h2
          obtain ⟨ms, rfl, e2, e3⟩ := ih.members g
          cases h3
          refine ⟨(s, addCheck false us) :: ms, ?_, .moreMembers hx ht he (checked _ _) .comma e2, fun ha => ?_⟩
          · simp [keysOf, unitsOf]
          · simpa [keysOf] using keys_snoc e3 ha hk
        · obtain ⟨o', q, g, h3⟩ := need_yes h2
          obtain ⟨ms, rfl, e2, e3⟩ := ih.members g
          cases h3
          refine ⟨(s, addCheck false us) :: ms, ?_, .moreMembers hx ht he (checked _ _) .semicol e2, fun ha => ?_⟩
          · simp [keysOf, unitsOf]
          · simpa [keysOf] using keys_snoc e3 ha hk
        · cases h2
          refine ⟨[(s, addCheck false us)], ?_, .lastMember hx ht he (checked _ _), fun ha => ?_⟩
          · simp [keysOf, unitsOf]
          · simpa [keysOf] using keys_snoc (ns := []) (by simp) ha hk
  · cases h2
    exact ⟨[], by simp [keysOf, unitsOf], .noMembers _, by simp [keysOf]⟩

theorem sound_suffixes {us0 ts us r ts0} (h : suffixes c (n + 1) us0 ts = .yes us r) (h0 : Phrase c .suffixed ts0 us0 ts) :
    Phrase c .suffixed ts0 us r ∧ StopsPost r := by
  match ts with
  | [] =>
    rw [suffixes] at h
    cases h
    exact ⟨h0, by intro t r e; cases e⟩
  | t :: ts =>
    unfold suffixes at h
    cases hx : postfixOp t with
    | some x =>
      rw [hx] at h
      exact ih.suffixes h (.postop h0 (postfixOp_iff.mp hx))
    | none =>
      rw [hx] at h
      dsimp only at h
      split at h
      · obtain ⟨l, r1, g1, hF⟩ := need_yes h; clear h; rename' hF => h
        obtain ⟨r2, hE, hF⟩ := expect_yes h; clear h; rename' hF => h; subst hE
        exact ih.suffixes h (.call h0 (ih.args g1))
      · obtain ⟨l, r1, g1, hF⟩ := need_yes h; clear h; rename' hF => h
        obtain ⟨r2, hE, hF⟩ := expect_yes h; clear h; rename' hF => h; subst hE
        exact ih.suffixes h (.index h0 (ih.expr g1))
      · obtain ⟨s, r1, g1, hF⟩ := need_yes h; clear h; rename' hF => h
        obtain ⟨t, rfl, hk⟩ := key_yes g1
        exact ih.suffixes h (.member h0 hk)
      · rename_i n1 n2 n3
        cases h
        refine ⟨h0, ?_⟩
        intro t' r e
        cases e
        exact ⟨hx, fun e => n1 e, fun e => n2 e, fun e => n3 e⟩

theorem sound_args {ts l r} (h : args c (n + 1) ts = .yes l r) : Phrase c .args ts l r := by
  rw [args] at h
  have hsp := refSpec_spec ts
  rcases orElse_yes h with ⟨us, q, h1, h2⟩ | ⟨_, h2⟩
  · have he := ih.expr h1
    split at h2
    · obtain ⟨l', r', g1, g2⟩ := need_yes h2
      cases g2
      exact .moreArgs hsp he (checked _ _) (ih.args g1)
    · cases h2
      exact .lastArg hsp he (checked _ _)
  · split at h2
    · cases h2
    · cases h2; exact .noArgs _

theorem sound_cond {ts us r} (h : Syntax.cond c (n + 1) ts = .yes us r) : Phrase c .cond ts us r := by
  rw [Syntax.cond] at h
  obtain ⟨r1, hE, hF⟩ := expect_yes h; clear h; rename' hF => h; subst hE
  obtain ⟨us', r2, g, hF⟩ := need_yes h; clear h; rename' hF => h
  obtain ⟨r3, hE, hF⟩ := expect_yes h; clear h; rename' hF => h; subst hE
  cases h
  exact .cond (ih.expr g) (checked _ _)

theorem sound_decls {i ts ds r} (h : decls c i (n + 1) ts = .yes ds r) : Phrase c (.decls i) ts ds r := by
  rw [decls] at h
  obtain ⟨b, r1, g1, hF⟩ := need_yes h; clear h; rename' hF => h
  have hd := declarator_yes g1
  obtain ⟨us, r2, g2, hF⟩ := need_yes h; clear h; rename' hF => h
  split at g2
  · obtain ⟨us', r3, g3, g4⟩ := need_yes g2
    cases g4
    have he := ih.expr g3
    split at h
    · obtain ⟨ds', q, g, hF⟩ := need_yes h; clear h; rename' hF => h
      cases h
      exact .moreDecls hd he (ih.decls g)
    · cases h
      exact .lastDecl hd he
  · split at g2
    · cases g2
    · rename_i hi
      cases g2
      obtain rfl : i = false := by cases i <;> simp_all
      split at h
      · obtain ⟨ds', q, g, hF⟩ := need_yes h; clear h; rename' hF => h
        cases h
        exact .moreUninit hd (ih.decls g)
      · cases h
        exact .lastUninit hd

theorem sound_refDecls {ts ds r} (h : refDecls c (n + 1) ts = .yes ds r) : Phrase c .refDecls ts ds r := by
  rw [refDecls] at h
  obtain ⟨b, r1, g1, hF⟩ := need_yes h; clear h; rename' hF => h
  obtain ⟨t, rfl, hd⟩ := userIdent_yes g1
  obtain ⟨r2, hE, hF⟩ := expect_yes h; clear h; rename' hF => h; subst hE
  obtain ⟨us, r3, g2, hF⟩ := need_yes h; clear h; rename' hF => h
  have he := ih.expr g2
  split at h
  · obtain ⟨ds', q, g, hF⟩ := need_yes h; clear h; rename' hF => h
    cases h
    exact .moreRefs hd he (ih.refDecls g)
  · cases h
    exact .lastRef hd he

theorem sound_definition {ts s r} (h : definition c (n + 1) ts = .yes s r) : Phrase c .defn ts s r := by
  unfold definition at h
  split at h
  · rename_i e; cases e
  · rename_i e; cases e
    obtain ⟨b, r1, g1, hF⟩ := need_yes h; clear h; rename' hF => h
    obtain ⟨r2, hE, hF⟩ := expect_yes h; clear h; rename' hF => h; subst hE
    cases h
    exact .var (ih.decls g1)
  · rename_i e; cases e
    obtain ⟨b, r1, g1, hF⟩ := need_yes h; clear h; rename' hF => h
    obtain ⟨r2, hE, hF⟩ := expect_yes h; clear h; rename' hF => h; subst hE
    cases h
    exact .const (ih.decls g1)
  · rename_i e; cases e
    obtain ⟨b, r1, g1, hF⟩ := need_yes h; clear h; rename' hF => h
    obtain ⟨r2, hE, hF⟩ := expect_yes h; clear h; rename' hF => h; subst hE
    cases h
    exact .ref (ih.refDecls g1)
  · cases h

theorem sound_function {l ts s r} (h : function c (n + 1) ts = .yes s r) : Phrase c (.stmt l) (.k .func :: ts) s r := by
  rw [function] at h
  obtain ⟨b, r1, g1, hF⟩ := need_yes h; clear h; rename' hF => h
  obtain ⟨t, rfl, hd⟩ := userIdent_yes g1
  obtain ⟨r2, hE, hF⟩ := expect_yes h; clear h; rename' hF => h; subst hE
  obtain ⟨ps, r3, g, hF⟩ := need_yes h; clear h; rename' hF => h
  obtain ⟨r4, hE, hF⟩ := expect_yes h; clear h; rename' hF => h; subst hE
  obtain ⟨hp, hn⟩ := params_nil g
  obtain ⟨r5, hE, hF⟩ := expect_yes h; clear h; rename' hF => h; subst hE
  obtain ⟨b, r4, g4, hF⟩ := need_yes h; clear h; rename' hF => h
  obtain ⟨r5, hE, hF⟩ := expect_yes h; clear h; rename' hF => h; subst hE
  cases h
  exact .function hd hp hn (ih.stmts agree_plain g4)

theorem sound_interval {ts o r} (h : interval c (n + 1) ts = .yes o r) :
    ∃ (lo up : Bool) (q : List Tok) (x y : List U) (m : List Tok),
    ts = (if lo then .p .brackOp else .p .parOp) :: q ∧ Phrase c .expr q x (.p .comma :: m) ∧
      Phrase c .expr m y ((if up then .p .brackCl else .p .parCl) :: r) ∧
      o = (.each lo up, addCheck false x, addCheck false y) := by
  unfold interval at h
  obtain ⟨lo, q, g1, hF⟩ := need_yes h; clear h; rename' hF => h
  obtain ⟨x, r1, g2, hF⟩ := need_yes h; clear h; rename' hF => h
  obtain ⟨m, hE, hF⟩ := expect_yes h; clear h; rename' hF => h; subst hE
  obtain ⟨y, r2, g3, hF⟩ := need_yes h; clear h; rename' hF => h
  have h1 := ih.expr g2
  have h2 := ih.expr g3
  have h0 : ts = (if lo then .p .brackOp else .p .parOp) :: q := by
    split at g1 <;> cases g1 <;> rfl
  split at h
  · cases h; exact ⟨lo, false, q, x, y, m, h0, h1, h2, rfl⟩
  · cases h; exact ⟨lo, true, q, x, y, m, h0, h1, h2, rfl⟩
  · cases h

theorem sound_clauses {sc l d ts cs r} (ha : Agree sc l) (h : clauses c sc (n + 1) d ts = .yes cs r) :
    Phrase c (.clauses l) ts cs r ∧ (cs.filter isDefault).length ≤ (if d then 0 else 1) := by
  unfold clauses at h
  split at h
  · split at h
    · cases h
    · rename_i hd
      obtain ⟨r1, hE, hF⟩ := expect_yes h; clear h; rename' hF => h; subst hE
      obtain ⟨b, r2, g1, hF⟩ := need_yes h; clear h; rename' hF => h
      obtain ⟨cs', r3, g2, hF⟩ := need_yes h; clear h; rename' hF => h
      cases h
      obtain ⟨h1, h2⟩ := ih.clauses ha g2
      refine ⟨.default (ih.stmts ha.toSwitch g1) h1, ?_⟩
      simp only [if_true] at h2
      rw [List.filter_cons_of_pos (by rfl), List.length_cons, if_neg hd]
      omega
  · obtain ⟨us, r0, g0, hF⟩ := need_yes h; clear h; rename' hF => h
    obtain ⟨r1, hE, hF⟩ := expect_yes h; clear h; rename' hF => h; subst hE
    obtain ⟨b, r2, g1, hF⟩ := need_yes h; clear h; rename' hF => h
    obtain ⟨cs', r3, g2, hF⟩ := need_yes h; clear h; rename' hF => h
    cases h
    obtain ⟨h1, h2⟩ := ih.clauses ha g2
    exact ⟨.case (ih.expr g0) (checked _ _) (ih.stmts ha.toSwitch g1) h1, by
      rw [List.filter_cons_of_neg (by simp [isDefault])]; exact h2⟩
  · obtain ⟨o, r0, g0, hF⟩ := need_yes h; clear h; rename' hF => h
    obtain ⟨lo, up, q, x, y, m, rfl, e1, e2, rfl⟩ := ih.interval g0
    obtain ⟨r1, hE, hF⟩ := expect_yes h; clear h; rename' hF => h; subst hE
    obtain ⟨b, r2, g1, hF⟩ := need_yes h; clear h; rename' hF => h
    obtain ⟨cs', r3, g2, hF⟩ := need_yes h; clear h; rename' hF => h
    cases h
    obtain ⟨h1, h2⟩ := ih.clauses ha g2
    exact ⟨.each lo up e1 (checked _ _) e2 (checked _ _) (ih.stmts ha.toSwitch g1) h1, by
      rw [List.filter_cons_of_neg (by simp [isDefault])]; exact h2⟩
  · cases h
    exact ⟨.noClauses _ _, by simp⟩

theorem sound_complete {sc l ts o r} (ha : Agree sc l) (h : complete c sc (n + 1) ts = .yes o r) :
    (o.1 = true ∧ ∃ q, ts = .k .ifcomplete :: q ∧ Phrase c (.body l) q o.2 r) ∨
    (o = (false, []) ∧ r = ts ∧ NotNext (· = .k .ifcomplete) ts) := by
  unfold complete at h
  split at h
  · rename_i e; cases e
  · rename_i e; cases e
    obtain ⟨s, r0, g0, hF⟩ := need_yes h; clear h; rename' hF => h
    cases h
    exact .inl ⟨rfl, _, rfl, ih.body ha g0⟩
  · rename_i hne
    cases h
    exact .inr ⟨rfl, rfl, fun t q e he => by subst he; exact hne _ e⟩

theorem sound_exprStmt {ts s r} (h : exprStmt c (n + 1) ts = .yes s r) : Phrase c .exprStmt ts s r := by
  rw [exprStmt] at h
  rcases orElse_yes h with ⟨us, q, h1, h2⟩ | ⟨_, h2⟩
  · obtain ⟨r1, hE, hF⟩ := expect_yes h2; clear h2; rename' hF => h2; subst hE
    cases h2
    exact .exprStmt (ih.expr h1)
  · cases h2

theorem sound_forInit {ts s r} (h : forInit c (n + 1) ts = .yes s r) : Phrase c .forInit ts s r := by
  unfold forInit at h
  rcases orElse_yes h with ⟨us, q, h1, h2⟩ | ⟨_, h2⟩
  · cases h2; exact .initDef (ih.definition h1)
  · split at h2
    · cases h2; exact .initNull _
    · exact .initExpr (ih.exprStmt h2)

theorem sound_opt {ts us r} (h : ((expr c n ts).orElse (fun us ts => .yes us ts) (.yes [] ts)) = .yes us r) :
    Phrase c .opt ts us r := by
  rcases orElse_yes h with ⟨us, q, h1, h2⟩ | ⟨_, h2⟩
  · cases h2; exact .opt (ih.expr h1)
  · cases h2; exact .noOpt _

theorem sound_forStmt {sc l ts s r} (ha : Agree sc l) (h : forStmt c sc (n + 1) ts = .yes s r) :
    Phrase c (.nondecl l) (.k .for_ :: ts) s r := by
  rw [forStmt] at h
  obtain ⟨r1, hE, hF⟩ := expect_yes h; clear h; rename' hF => h; subst hE
  split at h
  · obtain ⟨i, r2, g1, hF⟩ := need_yes h; clear h; rename' hF => h
    obtain ⟨t, rfl, hd⟩ := userIdent_yes g1
    obtain ⟨p, r3, g2, hF⟩ := need_yes h; clear h; rename' hF => h
    have hp : EachNames c (t :: r2) p.1 p.2 r3 := by
      split at g2
      · obtain ⟨j, r4, g3, g4⟩ := need_yes g2
        obtain ⟨t', rfl, hd'⟩ := userIdent_yes g3
        cases g4; exact .comma _ hd hd'
      · obtain ⟨j, r4, g3, g4⟩ := need_yes g2
        obtain ⟨t', rfl, hd'⟩ := userIdent_yes g3
        cases g4; exact .colon _ hd hd'
      · obtain ⟨j, r4, g3, g4⟩ := need_yes g2
        obtain ⟨t', rfl, hd'⟩ := userIdent_yes g3
        cases g4; exact .equal _ hd hd'
      · cases g2; exact .one _ hd
    obtain ⟨r4, hE, hF⟩ := expect_yes h; clear h; rename' hF => h; subst hE
    obtain ⟨us, r5, g5, hF⟩ := need_yes h; clear h; rename' hF => h
    obtain ⟨r6, hE, hF⟩ := expect_yes h; clear h; rename' hF => h; subst hE
    obtain ⟨b, r7, g7, hF⟩ := need_yes h; clear h; rename' hF => h
    obtain ⟨k, r8, g8, hF⟩ := need_yes h; clear h; rename' hF => h
    cases h
    exact .forEach hp (ih.expr g5) (ih.body ha.toFor g7) (ih.completes ha g8)
  · obtain ⟨i, r2, g1, hF⟩ := need_yes h; clear h; rename' hF => h
    obtain ⟨us, r3, g2, hF⟩ := need_yes h; clear h; rename' hF => h
    obtain ⟨r4, hE, hF⟩ := expect_yes h; clear h; rename' hF => h; subst hE
    obtain ⟨vs, r5, g5, hF⟩ := need_yes h; clear h; rename' hF => h
    obtain ⟨r6, hE, hF⟩ := expect_yes h; clear h; rename' hF => h; subst hE
    obtain ⟨b, r7, g7, hF⟩ := need_yes h; clear h; rename' hF => h
    obtain ⟨k, r8, g8, hF⟩ := need_yes h; clear h; rename' hF => h
    cases h
    have h2 : ∃ ws, Phrase c .opt r2 ws (.p .semicol :: r4) ∧ us = addCheck false ws := by
      rcases orElse_yes g2 with ⟨ws, q, h1, h2⟩ | ⟨_, h2⟩
      · cases h2; exact ⟨_, .opt (ih.expr h1), rfl⟩
      · cases h2; exact ⟨[], .noOpt _, by simp [addCheck, lastVoid]⟩
    obtain ⟨ws, h2, rfl⟩ := h2
    exact .forTriplet (ih.forInit g1) h2 (checked _ _) (sound_opt ih g5) (ih.body ha.toFor g7) (ih.completes ha g8)

theorem sound_nondecl {sc l ts s r} (ha : Agree sc l) (h : nondecl c sc (n + 1) ts = .yes s r) :
    Phrase c (.nondecl l) ts s r := by
  unfold nondecl at h
  split at h
  · obtain ⟨us, r1, g1, hF⟩ := need_yes h; clear h; rename' hF => h
    obtain ⟨t, r2, g2, hF⟩ := need_yes h; clear h; rename' hF => h
    obtain ⟨f, r3, g3, hF⟩ := need_yes h; clear h; rename' hF => h
    cases h
    split at g3
    · obtain ⟨f, r3, g4, h⟩ := need_yes g3
      cases h
      exact .ifElse (negation_spec _) (ih.cond g1) (ih.body ha g2) (ih.body ha g4)
    · rename_i hne
      cases g3
      exact .ifOnly (negation_spec _) (ih.cond g1) (ih.body ha g2) fun t q e he => by subst he; exact hne _ e
  · obtain ⟨us, r1, g1, hF⟩ := need_yes h; clear h; rename' hF => h
    obtain ⟨r2, hE, hF⟩ := expect_yes h; clear h; rename' hF => h; subst hE
    obtain ⟨cs, r3, g2, hF⟩ := need_yes h; clear h; rename' hF => h
    obtain ⟨r4, hE, hF⟩ := expect_yes h; clear h; rename' hF => h; subst hE
    cases h
    obtain ⟨h1, h2⟩ := ih.clauses ha g2
    exact .switch (ih.cond g1) h1 h2
  · obtain ⟨b, r1, g1, hF⟩ := need_yes h; clear h; rename' hF => h
    obtain ⟨r2, hE, hF⟩ := expectKw_yes h; clear h; rename' hF => h; subst hE
    obtain ⟨us, r3, g2, hF⟩ := need_yes h; clear h; rename' hF => h
    obtain ⟨k, r4, g3, hF⟩ := need_yes h; clear h; rename' hF => h
    rcases ih.complete ha g3 with ⟨hk, q, rfl, hb⟩ | ⟨rfl, rfl, _⟩
    · rw [if_pos hk] at h
      cases h
      exact .doComplete (ih.body ha.toWhile g1) (negation_spec _) (ih.cond g2) hb
    · simp only [Bool.false_eq_true, if_false] at h
      obtain ⟨r5, hE, hF⟩ := expect_yes h; clear h; rename' hF => h; subst hE
      cases h
      exact .doWhile (ih.body ha.toWhile g1) (negation_spec _) (ih.cond g2)
  · obtain ⟨us, r3, g2, hF⟩ := need_yes h; clear h; rename' hF => h
    obtain ⟨b, r1, g1, hF⟩ := need_yes h; clear h; rename' hF => h
    obtain ⟨k, r4, g3, hF⟩ := need_yes h; clear h; rename' hF => h
    cases h
    exact .while (negation_spec _) (ih.cond g2) (ih.body ha.toWhile g1) (ih.completes ha g3)
  · exact ih.forStmt ha h
  · exact breakStmt_yes ha h
  · exact contStmt_yes ha h
  · obtain ⟨us, r3, g2, hF⟩ := need_yes h; clear h; rename' hF => h
    obtain ⟨r5, hE, hF⟩ := expect_yes h; clear h; rename' hF => h; subst hE
    cases h
    exact .throw (ih.expr g2) (checked _ _)
  · rename_i ts
    obtain ⟨us, r3, g2, hF⟩ := need_yes h; clear h; rename' hF => h
    obtain ⟨r5, hE, hF⟩ := expect_yes h; clear h; rename' hF => h; subst hE
    cases h
    rcases orElse_yes g2 with ⟨ws, q, h1, h2⟩ | ⟨_, h2⟩
    · cases h2; exact .return (refSpec_spec _) (ih.expr h1)
    · split at h2
      · cases h2
      · rename_i hr
        have hts : (refSpec ts).1 = false ∧ (refSpec ts).2 = ts := by
          revert hr; unfold refSpec; split <;> simp
        rw [hts.2] at h2
        cases h2
        rw [hts.1]
        exact .returnVoid _
  · obtain ⟨us, r3, g2, hF⟩ := need_yes h; clear h; rename' hF => h
    obtain ⟨q, hm, h⟩ := assertMsg_yes h
    obtain ⟨r5, hE, hF⟩ := expect_yes h; clear h; rename' hF => h; subst hE
    cases h
    exact .assert (ih.expr g2) (checked _ _) hm
  · obtain ⟨b, r1, g1, hF⟩ := need_yes h; clear h; rename' hF => h
    obtain ⟨r2, hE, hF⟩ := expectKw_yes h; clear h; rename' hF => h; subst hE
    obtain ⟨r3, hE, hF⟩ := expect_yes h; clear h; rename' hF => h; subst hE
    obtain ⟨i, r4, g2, hF⟩ := need_yes h; clear h; rename' hF => h
    obtain ⟨t, rfl, hd⟩ := userIdent_yes g2
    obtain ⟨r5, hE, hF⟩ := expect_yes h; clear h; rename' hF => h; subst hE
    obtain ⟨k, r6, g3, hF⟩ := need_yes h; clear h; rename' hF => h
    cases h
    exact .try (ih.body ha g1) hd (ih.body ha g3)
  · obtain ⟨b, r1, g1, hF⟩ := need_yes h; clear h; rename' hF => h
    obtain ⟨r5, hE, hF⟩ := expect_yes h; clear h; rename' hF => h; subst hE
    cases h
    exact .block (ih.stmts ha g1)
  · rename_i hne
    exact .expression (ih.exprStmt h) fun t q e he => by subst he; exact hne _ e

theorem sound_stmt {sc l ts s r} (ha : Agree sc l) (h : stmt c sc (n + 1) ts = .yes s r) : Phrase c (.stmt l) ts s r := by
  unfold stmt at h
  rcases orElse_yes h with ⟨us, q, h1, h2⟩ | ⟨_, h2⟩
  · cases h2; exact .define (ih.definition h1)
  · split at h2
    · exact ih.function h2
    · obtain ⟨us, r3, g2, h⟩ := need_yes h2
      obtain ⟨r5, hE, hF⟩ := expect_yes h; clear h; rename' hF => h; subst hE
      cases h
      exact .defer (ih.expr g2)
    · cases h2; exact .null _
    · rename_i hne _ _
      exact .nondecl (ih.nondecl ha h2) fun t q e he => by subst he; exact hne _ e

theorem sound_stmts {sc l ts ss r} (ha : Agree sc l) (h : stmts c (n + 1) sc ts = .yes ss r) :
    Phrase c (.stmts l) ts ss r := by
  rw [stmts] at h
  rcases orElse_yes h with ⟨s, q, h1, h2⟩ | ⟨_, h2⟩
  · obtain ⟨us, r3, g2, h⟩ := need_yes h2
    cases h
    exact .next (ih.stmt ha h1) (ih.stmts ha g2)
  · cases h2; exact .done _ _

end

theorem sound (c : Cfg) : ∀ n, Sound c n
  | 0 => sound_zero c
  | n + 1 =>
    have ih := sound c n
    { expr := sound_expr ih
      loop := sound_loop ih
      op := sound_op ih
      elem := sound_elem ih
      primary := sound_primary ih
      closure := sound_closure ih
      elements := sound_elements ih
      members := sound_members ih
      suffixes := sound_suffixes ih
      args := sound_args ih
      cond := sound_cond ih
      decls := sound_decls ih
      refDecls := sound_refDecls ih
      definition := sound_definition ih
      function := sound_function ih
      clauses := sound_clauses ih
      interval := sound_interval ih
      complete := sound_complete ih
      forStmt := sound_forStmt ih
      forInit := sound_forInit ih
      exprStmt := sound_exprStmt ih
      nondecl := sound_nondecl ih
      stmt := sound_stmt ih
      stmts := sound_stmts ih }

end Asteria.Script
