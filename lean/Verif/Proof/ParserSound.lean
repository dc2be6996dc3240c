import Verif.Spec.Grammar
import Mathlib.Tactic.Tauto
/-
Helper lemmas: what the parser accepts is a phrase of the grammar.
-/
namespace Asteria.Parser
open Asteria.Grammar

/-! ### Tables -/

theorem prefixOp_iff {t x} : prefixOp t = some x ↔ Prefix t x := by
  constructor
  · intro h
    unfold prefixOp at h
    split at h <;> cases h <;> constructor
  · intro h; cases h <;> rfl

theorem postfixOp_iff {t x} : postfixOp t = some x ↔ Postfix t x := by
  constructor
  · intro h
    unfold postfixOp at h
    split at h <;> cases h <;> constructor
  · intro h; cases h <;> rfl

theorem questTok_iff {t a} : questTok t = some a ↔ Quest t a := by
  constructor
  · intro h
    unfold questTok at h
    split at h <;> cases h <;> constructor
  · intro h; cases h <;> rfl

theorem start_one {t u} (h : start t = .one u) : Phrase .primary [t] [u] := by
  unfold start at h
  split at h <;> cases h <;> constructor

theorem start_extern {t} (h : start t = .extern) : t = .k .extern := by
  unfold start at h; split at h <;> cases h <;> rfl

theorem start_paren {t} (h : start t = .paren) : t = .p .parOp := by
  unfold start at h; split at h <;> cases h <;> rfl

theorem start_fma {t} (h : start t = .fma) : t = .k .fma := by
  unfold start at h; split at h <;> cases h <;> rfl

theorem start_catch {t} (h : start t = .catch) : t = .k .catch := by
  unfold start at h; split at h <;> cases h <;> rfl

theorem start_paired {t x} (h : start t = .paired x) : ∃ k, t = .k k ∧ Paired k x := by
  unfold start at h; split at h <;> cases h <;> exact ⟨_, rfl, by constructor⟩

theorem paired_start {k x} (h : Paired k x) : start (.k k) = .paired x := by cases h <;> rfl

/-- An element made from one token is a binary operator or an assignment of the grammar. -/
theorem infixOne_spec {t e} (h : infixOne t = some e) :
    (∃ f, Binary e.prec t f ∧ e.prec ≤ 10 ∧ 1 ≤ e.prec ∧ ∀ l r, (e.setJunction r).extract l = f l r) ∨
    (∃ f, Assign t f ∧ e.prec = 11 ∧ ∀ l r, (e.setJunction r).extract l = f l r) := by
  unfold infixOne at h
  split at h <;> try (injection h with h; subst h)
  · exact .inl ⟨_, .andl, by decide, by decide, fun l r => rfl⟩
  · exact .inr ⟨_, .andl, by decide, fun l r => rfl⟩
  · exact .inl ⟨_, .and, by decide, by decide, fun l r => rfl⟩
  · exact .inl ⟨_, .orl, by decide, by decide, fun l r => rfl⟩
  · exact .inr ⟨_, .orl, by decide, fun l r => rfl⟩
  · exact .inl ⟨_, .or, by decide, by decide, fun l r => rfl⟩
  · exact .inl ⟨_, .coales, by decide, by decide, fun l r => rfl⟩
  · exact .inr ⟨_, .coales, by decide, fun l r => rfl⟩
  · rename_i x _ _ _ _ _ _
    cases x <;> simp only [infixGeneral, Option.map_some, Option.map_none, Option.some.injEq, reduceCtorEq] at h <;>
      subst h <;>
      first
      | exact .inl ⟨_, by constructor, by decide, by decide, fun l r => rfl⟩
      | exact .inr ⟨_, by constructor, by decide, fun l r => rfl⟩
  · cases h

theorem binary_infixOne {p t f} (h : Binary p t f) :
    ∃ e, infixOne t = some e ∧ questTok t = none ∧ e.prec = p ∧ nextPrec e = p ∧ p ≤ 10 ∧ 1 ≤ p ∧
      ∀ l r, (e.setJunction r).extract l = f l r := by
  cases h <;> exact ⟨_, rfl, rfl, by decide, by decide, by decide, by decide, fun l r => rfl⟩

theorem assign_infixOne {t f} (h : Assign t f) :
    ∃ e, infixOne t = some e ∧ questTok t = none ∧ e.prec = 11 ∧ nextPrec e = 10 ∧
      ∀ l r, (e.setJunction r).extract l = f l r := by
  cases h <;> exact ⟨_, rfl, rfl, by decide, by decide, fun l r => rfl⟩

/-! ### The check of arguments -/

theorem lastVoid_append (us : List EUnit) (u : EUnit) : lastVoid (us ++ [u]) = u.mayBeVoid := by
  induction us with
  | nil => rw [List.nil_append, lastVoid]
  | cons v vs ih =>
    cases vs with
    | nil => rw [List.cons_append, List.nil_append, lastVoid, lastVoid]
    | cons w ws =>
      rw [List.cons_append, List.cons_append, lastVoid]; exact ih

theorem lastVoid_of {us} (h : MayVoid us) : lastVoid us = true := by
  induction h with
  | localRef | thisRef | globalRef | call | phrase => rw [lastVoid_append]; rfl
  | branch1 us k a h ih => rw [lastVoid_append, EUnit.mayBeVoid, ih]
  | branchT us f a h ih => rw [lastVoid_append, EUnit.mayBeVoid, ih]; rfl
  | branchF us f a h ih => rw [lastVoid_append, EUnit.mayBeVoid, ih, Bool.or_true]

mutual
theorem mayVoid_unit : ∀ (us : List EUnit) (u : EUnit), u.mayBeVoid = true → MayVoid (us ++ [u])
  | us, .localRef i, _ => .localRef us i
  | us, .thisRef, _ => .thisRef us
  | us, .globalRef i, _ => .globalRef us i
  | us, .call l, _ => .call us l
  | us, .branch1 k b a, h => .branch1 us k a (mayVoid_of b (by simpa [EUnit.mayBeVoid] using h))
  | us, .branch2 t f a, h => by
      simp only [EUnit.mayBeVoid, Bool.or_eq_true] at h
      rcases h with h | h
      · exact .branchT us f a (mayVoid_of t h)
      · exact .branchF us t a (mayVoid_of f h)
  | us, .phrase v i, h => by simp only [EUnit.mayBeVoid] at h; subst h; exact .phrase us i
  | _, .literal _, h => by simp [EUnit.mayBeVoid] at h
  | _, .name _, h => by simp [EUnit.mayBeVoid] at h
  | _, .op _ _, h => by simp [EUnit.mayBeVoid] at h
  | _, .check _, h => by simp [EUnit.mayBeVoid] at h
  | _, .catch_ _, h => by simp [EUnit.mayBeVoid] at h

theorem mayVoid_of : ∀ us : List EUnit, lastVoid us = true → MayVoid us
  | [], h => by simp [lastVoid] at h
  | [u], h => mayVoid_unit [] u (by simpa [lastVoid] using h)
  | v :: w :: us, h => by
      have := mayVoid_of (w :: us) (by simpa [lastVoid] using h)
      exact mayVoid_cons v this
where
  mayVoid_cons (v : EUnit) {us : List EUnit} (h : MayVoid us) : MayVoid (v :: us) := by
    cases h with
    | localRef us i => exact .localRef (v :: us) i
    | thisRef us => exact .thisRef (v :: us)
    | globalRef us i => exact .globalRef (v :: us) i
    | call us l => exact .call (v :: us) l
    | phrase us i => exact .phrase (v :: us) i
    | branch1 us k a h => exact .branch1 (v :: us) k a h
    | branchT us f a h => exact .branchT (v :: us) f a h
    | branchF us t a h => exact .branchF (v :: us) t a h
end

theorem lastVoid_iff (us : List EUnit) : lastVoid us = true ↔ MayVoid us := ⟨mayVoid_of us, lastVoid_of⟩

theorem addCheck_iff {b us vs} : addCheck b us = vs ↔ Checked b us vs := by
  unfold addCheck
  constructor
  · intro h
    split at h
    · rename_i hv; subst h; exact .check ((lastVoid_iff us).mp hv)
    · rename_i hv; subst h; exact .plain fun h => hv ((lastVoid_iff us).mpr h)
  · intro h
    cases h with
    | plain h => rw [if_neg fun hv => h ((lastVoid_iff us).mp hv)]
    | check h => rw [if_pos ((lastVoid_iff us).mpr h)]

/-! ### Elements -/

@[simp] theorem prec_setJunction (e : El) (us) : (e.setJunction us).prec = e.prec := by cases e <;> rfl
@[simp] theorem setJunction_setJunction (e : El) (us vs) : (e.setJunction us).setJunction vs = e.setJunction vs := by
  cases e <;> rfl
@[simp] theorem junction_setJunction (e : El) (us) : (e.setJunction us).junction = us := by cases e <;> rfl
@[simp] theorem setJunction_junction (e : El) : e.setJunction e.junction = e := by cases e <;> rfl
@[simp] theorem nextPrec_setJunction (e : El) (us) : nextPrec (e.setJunction us) = nextPrec e := by
  simp [nextPrec]

/-! ### Levels -/

theorem level_le {p q ts us} (h : Phrase (.level p) ts us) (hpq : p ≤ q) (hq : q ≤ 11) : Phrase (.level q) ts us := by
  induction hpq with
  | refl => exact h
  | step h' ih => exact .loosen (by omega) (ih (by omega))

/-- Levels allowed for the left and right operands of an operator of precedence `p`. -/
def lhsLevel (p : Nat) : Nat := if p = 11 then 10 else p
def rhsLevel (p : Nat) : Nat := if p < 11 then p - 1 else 11

/-- `e` is an operator written `o`. -/
structure IsOp (e : El) (o : List Tok) : Prop where
  lo : 1 ≤ e.prec
  hi : e.prec ≤ 11
  make : ∀ a l b r, Phrase (.level (lhsLevel e.prec)) a l → Phrase (.level (rhsLevel e.prec)) b r →
    Phrase (.level e.prec) (a ++ o ++ b) ((e.setJunction r).extract l)

theorem IsOp.set {e o} (h : IsOp e o) (us) : IsOp (e.setJunction us) o :=
  ⟨by simpa using h.lo, by simpa using h.hi, by simpa using h.make⟩

theorem isOp_infixOne {t e} (h : infixOne t = some e) : IsOp e [t] := by
  rcases infixOne_spec h with ⟨f, hb, h1, h2, h3⟩ | ⟨f, hb, h1, h3⟩
  · refine ⟨h2, by omega, ?_⟩
    intro a l b r ha hb'
    rw [h3]
    obtain ⟨p, hp⟩ : ∃ p, e.prec = p + 1 := ⟨e.prec - 1, by omega⟩
    rw [lhsLevel, if_neg (by omega)] at ha
    rw [rhsLevel, if_pos (by omega)] at hb'
    rw [hp] at hb ha hb' ⊢
    have := Phrase.binary hb ha hb'
    simpa using this
  · refine ⟨by omega, by omega, ?_⟩
    intro a l b r ha hb'
    rw [h3]
    rw [lhsLevel, if_pos h1] at ha
    rw [rhsLevel, if_neg (by omega)] at hb'
    rw [h1]
    simpa using Phrase.assign hb ha hb'

theorem isOp_ternary {t a tm m} (h : Quest t a) (hm : Phrase (.level 11) tm m) (f) :
    IsOp (.ternary a m f) (t :: tm ++ [.p .colon]) := by
  refine ⟨by simp [El.prec], by simp [El.prec], ?_⟩
  intro x l y r hx hy
  have := Phrase.cond h hx hm hy
  simpa [El.setJunction, El.extract, El.prec] using this

/-! ### The stack -/

/-- The precedence of the topmost element. -/
def topPrec : List El → Nat
  | e :: _ => e.prec
  | [] => 99

/-- `StackOk s ts l`: the stack stands for the tokens `ts`, and the junction of its topmost element is of level `l`. -/
inductive StackOk : List El → List Tok → Nat → Prop
  | head {a us l} : Phrase (.level l) a us → l ≤ 11 → StackOk [.head us] a l
  | push {s a e o b l} : StackOk s a (lhsLevel e.prec) → IsOp e o → e.prec ≤ rhsLevel (topPrec s) →
      Phrase (.level l) b e.junction → l ≤ rhsLevel e.prec → StackOk (e :: s) (a ++ o ++ b) l

theorem lhsLevel_le {p} (h : p ≤ 11) : lhsLevel p ≤ 11 := by unfold lhsLevel; split <;> omega
theorem rhsLevel_le (p) : rhsLevel p ≤ 11 := by unfold rhsLevel; split <;> omega

theorem StackOk.pop {e d s a l} (h : StackOk (e :: d :: s) a l) : StackOk (popOne (e :: d :: s)) a e.prec := by
  cases h with
  | @push _ a _ o b _ hs ho hp hb hl =>
    have hb' := level_le hb hl (rhsLevel_le _)
    rw [popOne]
    cases hs with
    | @head _ us _ ha hl' =>
      have := ho.make _ _ _ _ ha hb'
      rw [setJunction_junction] at this
      exact .head this ho.hi
    | @push _ a' _ o' b' _ hs' ho' hp' hb'' hl' =>
      have := ho.make _ _ _ _ hb'' hb'
      rw [setJunction_junction] at this
      have e1 : a' ++ o' ++ b' ++ o ++ b = a' ++ o' ++ (b' ++ o ++ b) := by simp
      rw [e1]
      refine .push ?_ (ho'.set _) ?_ ?_ ?_
      · rw [prec_setJunction]; exact hs'
      · rw [prec_setJunction]; exact hp'
      · rw [junction_setJunction]; exact this
      · rw [prec_setJunction]; exact hp

theorem topPrec_popOne {e d s} : topPrec (popOne (e :: d :: s)) = d.prec := by simp [popOne, topPrec]

theorem length_popOne {e d s} : (popOne (e :: d :: s)).length + 1 = (e :: d :: s).length := by simp [popOne]

theorem level_arith {p T : Nat} (h : p ≤ 11) (h' : T > lhsLevel p ∨ T = 99) :
    lhsLevel p ≤ rhsLevel T ∧ p ≤ rhsLevel T := by
  unfold lhsLevel at *; unfold rhsLevel
  by_cases h1 : p = 11
  · rw [if_pos h1] at *
    rw [if_neg (by omega)]; omega
  · rw [if_neg h1] at *
    split <;> omega

theorem StackOk.mono {s a l l'} (h : StackOk s a l) (hl : l ≤ l') (hr : l' ≤ rhsLevel (topPrec s)) : StackOk s a l' := by
  cases h with
  | head h h' => exact .head (level_le h hl (Nat.le_trans hr (rhsLevel_le _))) (Nat.le_trans hr (rhsLevel_le _))
  | push h1 h2 h3 h4 h5 => exact .push h1 h2 h3 (level_le h4 hl (Nat.le_trans hr (rhsLevel_le _))) hr

/-- Collapsing keeps the tokens; afterwards the junction is no looser than `next`, and the topmost element is looser. -/
theorem collapse_ok (next : Nat) : ∀ n s a l, StackOk s a l → l ≤ next → s.length ≤ n →
    ∃ l', StackOk (collapse next n s) a l' ∧ l' ≤ next ∧ (topPrec (collapse next n s) > next ∨
      topPrec (collapse next n s) = 99) := by
  intro n
  induction n with
  | zero => intro s a l h _ hn; cases h <;> simp at hn
  | succ n ih =>
    intro s a l h hl hn
    match s, h with
    | [], h => cases h
    | [e], h =>
      refine ⟨l, h, hl, .inr ?_⟩
      cases h with
      | head => rfl
      | push hs => cases hs
    | e :: d :: s, h =>
      rw [collapse]
      by_cases he : e.prec ≤ next
      · rw [if_pos he]
        exact ih _ _ _ h.pop he (by have := @length_popOne e d s; omega)
      · rw [if_neg he]
        exact ⟨l, h, hl, .inl (by simpa [topPrec] using he)⟩

theorem collapseAll_ok : ∀ n s a l, StackOk s a l → s.length ≤ n → Phrase (.level 11) a (collapseAll n s) := by
  intro n
  induction n with
  | zero => intro s a l h hn; cases h <;> simp at hn
  | succ n ih =>
    intro s a l h hn
    match s, h with
    | [], h => cases h
    | [e], h =>
      cases h with
      | head h1 h2 => rw [collapseAll, El.extract, List.nil_append]; exact level_le h1 h2 (Nat.le_refl _)
      | push hs => cases hs
    | e :: d :: s, h =>
      rw [collapseAll]
      exact ih _ _ _ h.pop (by have := @length_popOne e d s; omega)

/-! ### Inversion of the combinators -/

theorem need_yes {α β} {x : P α} {f : α → List Tok → P β} {b r} (h : x.need f = .yes b r) :
    ∃ a ts, x = .yes a ts ∧ f a ts = .yes b r := by
  cases x <;> simp only [P.need, reduceCtorEq] at h
  exact ⟨_, _, rfl, h⟩

theorem orElse_yes {α β} {x : P α} {f : α → List Tok → P β} {g : P β} {b r} (h : x.orElse f g = .yes b r) :
    (∃ a ts, x = .yes a ts ∧ f a ts = .yes b r) ∨ (x = .no ∧ g = .yes b r) := by
  cases x <;> simp only [P.orElse, reduceCtorEq] at h
  · exact .inl ⟨_, _, rfl, h⟩
  · exact .inr ⟨rfl, h⟩

theorem acceptIdent_yes {ts i r} (h : acceptIdent ts = .yes i r) : ts = .ident i :: r := by
  unfold acceptIdent at h
  split at h <;> cases h
  rfl

theorem suffix_op {t x} : suffix t = .op x ↔ postfixOp t = some x := by
  unfold suffix
  constructor
  · intro h
    split at h
    · cases h; assumption
    · repeat' split at h
      all_goals cases h
  · intro h; rw [h]

theorem suffix_call {t} : suffix t = .call ↔ t = .p .parOp := by
  constructor
  · intro h
    unfold suffix at h
    split at h
    · cases h
    · split at h
      · assumption
      · repeat' split at h
        all_goals cases h
  · rintro rfl; rfl

theorem suffix_index {t} : suffix t = .index ↔ t = .p .brackOp := by
  constructor
  · intro h
    unfold suffix at h
    split at h
    · cases h
    · split at h
      · cases h
      · split at h
        · assumption
        · repeat' split at h
          all_goals cases h
  · rintro rfl; rfl

theorem suffix_member {t} : suffix t = .member ↔ t = .p .dot := by
  constructor
  · intro h
    unfold suffix at h
    split at h
    · cases h
    · split at h
      · cases h
      · split at h
        · cases h
        · split at h
          · assumption
          · cases h
  · rintro rfl; rfl

theorem suffix_none {t} : suffix t = .none ↔
    postfixOp t = none ∧ t ≠ .p .parOp ∧ t ≠ .p .brackOp ∧ t ≠ .p .dot := by
  constructor
  · intro h
    cases hp : postfixOp t with
    | some x => rw [suffix_op.mpr hp] at h; cases h
    | none =>
      refine ⟨rfl, ?_, ?_, ?_⟩
      · rintro rfl; cases h
      · rintro rfl; cases h
      · rintro rfl; cases h
  · rintro ⟨h1, h2, h3, h4⟩
    unfold suffix
    rw [h1]; simp only; rw [if_neg h2, if_neg h3, if_neg h4]

theorem expect_yes {β} {x : Punct} {ts : List Tok} {f : List Tok → P β} {b r} (h : expect x ts f = .yes b r) :
    ∃ ts', ts = .p x :: ts' ∧ f ts' = .yes b r := by
  unfold expect at h
  split at h
  · split at h
    · rename_i h1; exact ⟨_, by rw [h1], h⟩
    · cases h
  · cases h

/-- Tokens after which the suffix loop goes on. -/
def StopsPost (ts : List Tok) : Prop :=
  ∀ t r, ts = t :: r → postfixOp t = none ∧ t ≠ .p .parOp ∧ t ≠ .p .brackOp ∧ t ≠ .p .dot

/-- Tokens after which the infix loop goes on. -/
def StopsInfix (ts : List Tok) : Prop := ∀ t r, ts = t :: r → questTok t = none ∧ infixOne t = none

theorem stops_iff (ts : List Tok) : Stops ts ↔ StopsPost ts ∧ StopsInfix ts := by
  constructor
  · intro h
    constructor
    · intro t r e
      have hc := h t r e
      refine ⟨?_, ?_, ?_, ?_⟩
      · cases hp : postfixOp t with
        | none => rfl
        | some x => exact absurd (.suffix (postfixOp_iff.mp hp)) hc
      · rintro rfl; exact hc .call
      · rintro rfl; exact hc .index
      · rintro rfl; exact hc .member
    · intro t r e
      have hc := h t r e
      constructor
      · cases hp : questTok t with
        | none => rfl
        | some x => exact absurd (.quest (questTok_iff.mp hp)) hc
      · cases hp : infixOne t with
        | none => rfl
        | some x =>
          rcases infixOne_spec hp with ⟨f, hb, _⟩ | ⟨f, hb, _⟩
          · exact absurd (.binary hb) hc
          · exact absurd (.assign hb) hc
  · rintro ⟨h1, h2⟩ t r e hc
    obtain ⟨a1, a2, a3, a4⟩ := h1 t r e
    obtain ⟨b1, b2⟩ := h2 t r e
    cases hc with
    | suffix h => rw [postfixOp_iff.mpr h] at a1; cases a1
    | call => exact a2 rfl
    | index => exact a3 rfl
    | member => exact a4 rfl
    | binary h => obtain ⟨e, he, _⟩ := binary_infixOne h; rw [he] at b2; cases b2
    | assign h => obtain ⟨e, he, _⟩ := assign_infixOne h; rw [he] at b2; cases b2
    | quest h => rw [questTok_iff.mpr h] at b1; cases b1

theorem prefixes_spec : ∀ ts : List Tok, ∃ a, ts = a ++ (prefixes ts).2 ∧
    ∀ b us, Phrase .unary b us → Phrase .unary (a ++ b) (us ++ (prefixes ts).1.reverse)
  | [] => ⟨[], rfl, fun b us h => by simpa [prefixes] using h⟩
  | t :: ts => by
    cases hp : prefixOp t with
    | none => exact ⟨[], by simp [prefixes, hp], fun b us h => by simpa [prefixes, hp] using h⟩
    | some x =>
      obtain ⟨a, h1, h2⟩ := prefixes_spec ts
      refine ⟨t :: a, by simp [prefixes, hp]; exact h1, fun b us h => ?_⟩
      have := Phrase.prefixed (prefixOp_iff.mp hp) (h2 b us h)
      simpa [prefixes, hp] using this

theorem refSpec_spec (ts : List Tok) : ∃ a, ts = a ++ (refSpec ts).2 ∧ RefSpec a (refSpec ts).1 := by
  unfold refSpec
  split
  · exact ⟨_, rfl, .ref⟩
  · exact ⟨_, rfl, .arrow⟩
  · exact ⟨[], rfl, .none⟩

/-! ### Soundness -/

/-- What every parsing function with bound `n` gives. -/
structure Sound (n : Nat) : Prop where
  expr : ∀ ts us rest, expr n ts = .yes us rest → ∃ a, ts = a ++ rest ∧ Phrase (.level 11) a us ∧ Stops rest
  loop : ∀ s ts us rest a0, infixLoop n s ts = .yes us rest → StackOk s a0 0 → StopsPost ts →
    ∃ a, ts = a ++ rest ∧ Phrase (.level 11) (a0 ++ a) us ∧ Stops rest
  op : ∀ ts e rest, infixOp n ts = .yes e rest → ∃ o, ts = o ++ rest ∧ IsOp e o
  elem : ∀ ts us rest, elem n ts = .yes us rest → ∃ a, ts = a ++ rest ∧ Phrase .unary a us ∧ StopsPost rest
  primary : ∀ ts us rest, primary n ts = .yes us rest → ∃ a, ts = a ++ rest ∧ Phrase .primary a us
  suffix : ∀ us0 ts us rest a0, postfix_ n us0 ts = .yes us rest → Phrase .suffixed a0 us0 →
    ∃ a, ts = a ++ rest ∧ Phrase .suffixed (a0 ++ a) us ∧ StopsPost rest
  args : ∀ ts l rest, args n ts = .yes l rest → ∃ a, ts = a ++ rest ∧ Phrase .args a [.call l]

theorem infixOp_no {n ts} (h : infixOp n ts = .no) : StopsInfix ts := by
  cases n with
  | zero => simp [infixOp] at h
  | succ n =>
    intro t r e
    subst e
    rw [infixOp] at h
    cases hq : questTok t with
    | some a =>
      rw [hq] at h
      simp only [P.need] at h
      split at h
      · unfold expect at h
        split at h
        · split at h <;> cases h
        · cases h
      all_goals cases h
    | none =>
      rw [hq] at h
      refine ⟨rfl, ?_⟩
      cases hi : infixOne t with
      | none => rfl
      | some e => rw [hi] at h; cases h

theorem sound : ∀ n, Sound n := by
  intro n
  induction n with
  | zero =>
    constructor <;> intros <;> rename_i h <;> simp_all [expr, infixLoop, infixOp, elem, primary, postfix_, args]
  | succ n ih =>
    constructor
    · intro ts us rest h
      rw [expr] at h
      rcases orElse_yes h with ⟨us', ts', h1, h2⟩ | ⟨_, h2⟩
      · obtain ⟨a, ha, hu, hs⟩ := ih.elem _ _ _ h1
        obtain ⟨b, hb, hp, hr⟩ := ih.loop _ _ _ _ a h2 (.head (.operand hu) (by omega)) hs
        exact ⟨a ++ b, by rw [ha, hb, List.append_assoc], hp, hr⟩
      · cases h2
    · intro s ts us rest a0 h hs hp
      rw [infixLoop] at h
      rcases orElse_yes h with ⟨e, ts', h1, h2⟩ | ⟨h1, h2⟩
      · obtain ⟨us', ts'', h3, h4⟩ := need_yes h2
        obtain ⟨o, ho, hop⟩ := ih.op _ _ _ h1
        obtain ⟨b, hb, hu, hsp⟩ := ih.elem _ _ _ h3
        obtain ⟨l', k1, k2, k3⟩ := collapse_ok (nextPrec e) s.length s a0 0 hs (by omega) (Nat.le_refl _)
        have hst : StackOk (e.setJunction us' :: collapse (nextPrec e) s.length s) (a0 ++ o ++ b) 0 := by
          refine .push (e := e.setJunction us') ?_ (hop.set _) ?_ ?_ (by omega)
          · rw [prec_setJunction]
            exact k1.mono k2 (level_arith hop.hi k3).1
          · rw [prec_setJunction]
            exact (level_arith hop.hi k3).2
          · rw [junction_setJunction]; exact .operand hu
        obtain ⟨c, hc, hph, hr⟩ := ih.loop _ _ _ _ _ h4 hst hsp
        exact ⟨o ++ b ++ c, by rw [ho, hb, hc]; simp, by simpa using hph, hr⟩
      · cases h2
        exact ⟨[], rfl, by simpa using collapseAll_ok _ _ _ _ hs (Nat.le_refl _), (stops_iff _).mpr ⟨hp, infixOp_no h1⟩⟩
    · intro ts e rest h
      match ts with
      | [] => simp [infixOp] at h
      | t :: ts =>
        rw [infixOp] at h
        cases hq : questTok t with
        | some a =>
          rw [hq] at h
          obtain ⟨us, ts', h1, h2⟩ := need_yes h
          obtain ⟨ts'', h3, h4⟩ := expect_yes h2
          obtain ⟨a', ha, hu, _⟩ := ih.expr _ _ _ h1
          cases h4
          exact ⟨t :: a' ++ [.p .colon], by rw [ha, h3]; simp, isOp_ternary (questTok_iff.mp hq) hu _⟩
        | none =>
          rw [hq] at h
          cases hi : infixOne t with
          | none => rw [hi] at h; cases h
          | some e' =>
            rw [hi] at h
            cases h
            exact ⟨[t], rfl, isOp_infixOne hi⟩
    · intro ts us rest h
      rw [elem] at h
      obtain ⟨a, ha, hpre⟩ := prefixes_spec ts
      rcases orElse_yes h with ⟨us', ts', h1, h2⟩ | ⟨_, h2⟩
      · obtain ⟨us'', ts'', h3, h4⟩ := need_yes h2
        obtain ⟨b, hb, hp⟩ := ih.primary _ _ _ h1
        obtain ⟨c, hc, hs, hst⟩ := ih.suffix _ _ _ _ _ h3 (.bare hp)
        cases h4
        exact ⟨a ++ (b ++ c), ha.trans (by rw [hb, hc]; simp), hpre _ _ (.noPrefix hs), hst⟩
      · split at h2 <;> cases h2
    · intro ts us rest h
      match ts with
      | [] => simp [primary] at h
      | t :: ts =>
        rw [primary] at h
        split at h
        · rename_i hk; cases h; exact ⟨[_], rfl, start_one hk⟩
        · rename_i hk
          cases start_extern hk
          obtain ⟨i, ts', h1, h2⟩ := need_yes h
          cases h2
          rw [acceptIdent_yes h1]
          exact ⟨[_, _], rfl, .extern _⟩
        · rename_i hk
          cases start_paren hk
          obtain ⟨us', ts', h1, h2⟩ := need_yes h
          obtain ⟨ts'', h3, h4⟩ := expect_yes h2
          obtain ⟨a, ha, hu, _⟩ := ih.expr _ _ _ h1
          cases h4
          exact ⟨.p .parOp :: a ++ [.p .parCl], by rw [ha, h3]; simp, .paren hu⟩
        · rename_i hk
          cases start_fma hk
          obtain ⟨r1, e1, h⟩ := expect_yes h
          obtain ⟨u1, r2, g1, h⟩ := need_yes h
          obtain ⟨a1, ea1, hu1, _⟩ := ih.expr _ _ _ g1
          obtain ⟨r3, e3, h⟩ := expect_yes h
          obtain ⟨u2, r4, g2, h⟩ := need_yes h
          obtain ⟨a2, ea2, hu2, _⟩ := ih.expr _ _ _ g2
          obtain ⟨r5, e5, h⟩ := expect_yes h
          obtain ⟨u3, r6, g3, h⟩ := need_yes h
          obtain ⟨a3, ea3, hu3, _⟩ := ih.expr _ _ _ g3
          obtain ⟨r7, e7, h⟩ := expect_yes h
          cases h
          exact ⟨_, by rw [e1, ea1, e3, ea2, e5, ea3, e7]; simp, .fma hu1 hu2 hu3⟩
        · rename_i hk
          cases start_catch hk
          obtain ⟨r1, e1, h⟩ := expect_yes h
          obtain ⟨u1, r2, g1, h⟩ := need_yes h
          obtain ⟨a1, ea1, hu1, _⟩ := ih.expr _ _ _ g1
          obtain ⟨r3, e3, h⟩ := expect_yes h
          cases h
          exact ⟨_, by rw [e1, ea1, e3]; simp, .catching hu1⟩
        · rename_i x hx
          obtain ⟨k, rfl, hk⟩ := start_paired hx
          obtain ⟨r1, e1, h⟩ := expect_yes h
          obtain ⟨u1, r2, g1, h⟩ := need_yes h
          obtain ⟨a1, ea1, hu1, _⟩ := ih.expr _ _ _ g1
          obtain ⟨r3, e3, h⟩ := expect_yes h
          obtain ⟨u2, r4, g2, h⟩ := need_yes h
          obtain ⟨a2, ea2, hu2, _⟩ := ih.expr _ _ _ g2
          obtain ⟨r5, e5, h⟩ := expect_yes h
          cases h
          exact ⟨_, by rw [e1, ea1, e3, ea2, e5]; simp, .paired hk hu1 hu2⟩
        · cases h
    · intro us0 ts us rest a0 h h0
      match ts with
      | [] =>
        rw [postfix_] at h
        cases h
        exact ⟨[], rfl, by simpa using h0, by intro t r e; cases e⟩
      | t :: ts =>
        rw [postfix_] at h
        split at h
        · rename_i x hx
          obtain ⟨a, ha, hs, hst⟩ := ih.suffix _ _ _ _ _ h (.postop h0 (postfixOp_iff.mp (suffix_op.mp hx)))
          exact ⟨t :: a, by rw [ha]; rfl, by simpa using hs, hst⟩
        · rename_i hx
          cases suffix_call.mp hx
          obtain ⟨l, r1, g1, h⟩ := need_yes h
          obtain ⟨r2, e2, h⟩ := expect_yes h
          obtain ⟨b, eb, hl⟩ := ih.args _ _ _ g1
          obtain ⟨a, ha, hs, hst⟩ := ih.suffix _ _ _ _ _ h (.call h0 hl)
          exact ⟨.p .parOp :: b ++ .p .parCl :: a, by rw [eb, e2, ha]; simp, by simpa using hs, hst⟩
        · rename_i hx
          cases suffix_index.mp hx
          obtain ⟨l, r1, g1, h⟩ := need_yes h
          obtain ⟨r2, e2, h⟩ := expect_yes h
          obtain ⟨b, eb, hl, _⟩ := ih.expr _ _ _ g1
          obtain ⟨a, ha, hs, hst⟩ := ih.suffix _ _ _ _ _ h (.index h0 hl)
          exact ⟨.p .brackOp :: b ++ .p .brackCl :: a, by rw [eb, e2, ha]; simp, by simpa using hs, hst⟩
        · rename_i hx
          cases suffix_member.mp hx
          obtain ⟨i, r1, g1, h⟩ := need_yes h
          obtain ⟨a, ha, hs, hst⟩ := ih.suffix _ _ _ _ _ h (.member i h0)
          exact ⟨[_, _] ++ a, by rw [acceptIdent_yes g1, ha]; rfl, by simpa using hs, hst⟩
        · rename_i hx
          cases h
          refine ⟨[], rfl, by simpa using h0, ?_⟩
          intro t' r e
          cases e
          exact suffix_none.mp hx
    · intro ts l rest h
      rw [args] at h
      obtain ⟨sp, hsp, hsp'⟩ := refSpec_spec ts
      rcases orElse_yes h with ⟨us, r, h1, h2⟩ | ⟨_, h2⟩
      · obtain ⟨a, ha, hu, hst⟩ := ih.expr _ _ _ h1
        split at h2
        · obtain ⟨l', r', g1, g2⟩ := need_yes h2
          obtain ⟨b, hb, hl⟩ := ih.args _ _ _ g1
          cases g2
          exact ⟨sp ++ a ++ .p .comma :: b, hsp.trans (by rw [ha, hb]; simp), .moreArgs hsp' hu (addCheck_iff.mp rfl) hl⟩
        · cases h2
          exact ⟨sp ++ a, hsp.trans (by rw [ha]; simp), .lastArg hsp' hu (addCheck_iff.mp rfl)⟩
      · split at h2
        · cases h2
        · cases h2; exact ⟨[], rfl, .noArgs⟩

end Asteria.Parser
