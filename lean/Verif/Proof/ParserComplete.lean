import Verif.Proof.ParserSound
/-
Helper lemmas: every phrase of the grammar is accepted by the parser.
-/
namespace Asteria.Parser
open Asteria.Grammar

/-- Eventually, for all large enough bounds. -/
def Ev {α : Type} (f : Nat → α) (r : α) : Prop := ∃ N, ∀ n, N ≤ n → f n = r

theorem prefixes_prefix {t x ts} (h : Prefix t x) :
    prefixes (t :: ts) = ((.op x false) :: (prefixes ts).1, (prefixes ts).2) := by
  rw [prefixes, prefixOp_iff.mpr h]

theorem prefixes_other {t ts} (h : prefixOp t = none) : prefixes (t :: ts) = ([], t :: ts) := by
  rw [prefixes, h]

/-- One more prefix. -/
theorem elem_prefix {n t x ts us rest} (h : Prefix t x) (he : elem n ts = .yes us rest) :
    elem n (t :: ts) = .yes (us ++ [.op x false]) rest := by
  cases n with
  | zero => simp [elem] at he
  | succ n =>
    rw [elem] at he ⊢
    rw [prefixes_prefix h]
    rcases orElse_yes he with ⟨a, r, h1, h2⟩ | ⟨_, h2⟩
    · obtain ⟨b, r', h3, h4⟩ := need_yes h2
      simp only [h1, P.orElse, h3, P.need]
      cases h4
      simp
    · split at h2 <;> cases h2

/-! ### Collapsing -/

/-- The stack `s` becomes `s'` by popping elements of precedence at most `p`. -/
inductive Pops (p : Nat) : List El → List El → Prop
  | refl (s) : Pops p s s
  | step {e d s s'} : e.prec ≤ p → Pops p (popOne (e :: d :: s)) s' → Pops p (e :: d :: s) s'

theorem Pops.mono {p q s s'} (h : Pops p s s') (hpq : p ≤ q) : Pops q s s' := by
  induction h with
  | refl => exact .refl _
  | step he _ ih => exact .step (by omega) ih

theorem Pops.trans {p s s' s''} (h : Pops p s s') (h' : Pops p s' s'') : Pops p s s'' := by
  induction h with
  | refl => exact h'
  | step he _ ih => exact .step he (ih h')

theorem collapse_pops {p next s s'} (h : Pops p s s') (hp : p ≤ next) :
    collapse next s.length s = collapse next s'.length s' := by
  induction h with
  | refl => rfl
  | @step e d s s' he _ ih =>
    rw [← ih, ← @length_popOne e d s, collapse, if_pos (by omega)]

theorem collapseAll_pops {p s s'} (h : Pops p s s') : collapseAll s.length s = collapseAll s'.length s' := by
  induction h with
  | refl => rfl
  | @step e d s s' he _ ih => rw [← ih, ← @length_popOne e d s, collapseAll]

theorem collapse_top {next e s} (h : next < e.prec) : collapse next (e :: s).length (e :: s) = e :: s := by
  cases s with
  | nil => simp [collapse]
  | cons d s => rw [List.length_cons, collapse, if_neg (by omega)]

/-- A phrase of level `p` may stand to the right of an element of precedence `q`. -/
def Fits (p q : Nat) : Prop := p < q ∨ (p = 11 ∧ q = 11)

/-- Read an operand into the topmost element, then go on with the loop. -/
def enter (n : Nat) (e : El) (s : List El) (ts : List Tok) : P (List EUnit) :=
  (elem n ts).need fun us ts => infixLoop n (e.setJunction us :: s) ts

theorem expr_enter {n ts us rest} (h : enter n (.head []) [] ts = .yes us rest) : expr (n + 1) ts = .yes us rest := by
  obtain ⟨a, r, h1, h2⟩ := need_yes h
  rw [expr, h1]
  exact h2

/-- What is shown for each kind of phrase. -/
def Good : Cat → List Tok → List EUnit → Prop
  | .primary, ts, us => (∃ t r, ts = t :: r ∧ prefixOp t = none) ∧
      ∀ rest, Ev (fun n => primary n (ts ++ rest)) (.yes us rest)
  | .suffixed, ts, us => (∃ t r, ts = t :: r ∧ prefixOp t = none) ∧
      ∀ rest, ∃ k us0 r0, Ev (fun n => primary n (ts ++ rest)) (.yes us0 r0) ∧
        ∃ N, ∀ n, N ≤ n → postfix_ (n + k) us0 r0 = postfix_ n us rest
  | .unary, ts, us => ∀ rest, StopsPost rest → Ev (fun n => elem n (ts ++ rest)) (.yes us rest)
  | .level p, ts, us => ∀ e s rest, Fits p e.prec → StopsPost rest → ∃ k N s', Pops p s' (e.setJunction us :: s) ∧
      ∀ n, N ≤ n → enter (n + k) e s (ts ++ rest) = infixLoop n s' rest
  | .args, ts, us => ∀ l rest, us = [.call l] → Ev (fun n => args n (ts ++ .p .parCl :: rest)) (.yes l (.p .parCl :: rest))

theorem good_expr {ts us} (h : Good (.level 11) ts us) (rest) (hr : StopsPost rest) (hi : StopsInfix rest) :
    Ev (fun n => expr n (ts ++ rest)) (.yes us rest) := by
  obtain ⟨k, N, s', hp, hn⟩ := h (.head []) [] rest (.inl (by decide)) hr
  refine ⟨max N 2 + k + 1, ?_⟩
  intro n hn'
  obtain ⟨m, rfl⟩ : ∃ m, n = (m + 2) + k + 1 := ⟨n - k - 3, by omega⟩
  apply expr_enter
  rw [hn _ (by omega), infixLoop]
  have hno : infixOp (m + 1) rest = .no := by
    cases rest with
    | nil => rw [infixOp]
    | cons t r => rw [infixOp, (hi t r rfl).1]; simp only; rw [(hi t r rfl).2]
  rw [hno, P.orElse, collapseAll_pops hp]
  simp [El.setJunction, collapseAll, El.extract]

theorem stopsPost_of {t r} (h : suffix t = .none) : StopsPost (t :: r) := by
  intro t' r' e
  cases e
  exact suffix_none.mp h

theorem stopsInfix_of {t r} (h : questTok t = none) (h' : infixOne t = none) : StopsInfix (t :: r) := by
  intro t' r' e
  cases e
  exact ⟨h, h'⟩

theorem stopsPost_binary {p t f r} (h : Binary p t f) : StopsPost (t :: r) :=
  stopsPost_of (by cases h <;> rfl)

theorem stopsPost_assign {t f r} (h : Assign t f) : StopsPost (t :: r) :=
  stopsPost_of (by cases h <;> rfl)

theorem stopsPost_quest {t f r} (h : Quest t f) : StopsPost (t :: r) :=
  stopsPost_of (by cases h <;> rfl)

/-- The loop takes an operator: its left operand is collapsed, its right operand is entered. -/
theorem loop_op {n s} {e : El} {S} {us : List EUnit} {t ts el ts' p} (hop : infixOp n (t :: ts) = .yes el ts') (hp : Pops p s (e.setJunction us :: S))
    (h1 : p ≤ nextPrec el) (h2 : nextPrec el < e.prec) :
    infixLoop (n + 1) s (t :: ts) = enter n el (e.setJunction us :: S) ts' := by
  rw [infixLoop, hop, P.orElse, enter, collapse_pops hp h1, collapse_top (by rwa [prec_setJunction])]

theorem first_token {c ts us} (h : Phrase c ts us) : (match c with | .args => False | _ => True) →
    ∃ t r, ts = t :: r ∧ t ≠ .k .ref ∧ t ≠ .p .arrow := by
  induction h with
  | ident | lit | phrase | this | extern | paren | fma | catching => intro _; exact ⟨_, _, rfl, by simp, by simp⟩
  | paired h => intro _; cases h <;> exact ⟨_, _, rfl, by simp, by simp⟩
  | bare _ ih => intro _; exact ih trivial
  | postop _ _ ih | member _ _ ih | call _ _ ih _ | index _ _ ih _ | binary _ _ _ ih _ | assign _ _ _ ih _ | cond _ _ _ _ ih _ _ =>
    intro _
    obtain ⟨t, r, h, h'⟩ := ih trivial
    subst h
    exact ⟨t, _, rfl, h'⟩
  | noPrefix _ ih => intro _; exact ih trivial
  | prefixed h _ _ => intro _; cases h <;> exact ⟨_, _, rfl, by simp, by simp⟩
  | operand _ ih => intro _; exact ih trivial
  | loosen _ _ ih => intro _; exact ih trivial
  | noArgs | lastArg | moreArgs => intro h; cases h

theorem refSpec_of {ta b ts us rest} (h : RefSpec ta b) (hp : Phrase (.level 11) ts us) :
    refSpec (ta ++ (ts ++ rest)) = (b, ts ++ rest) := by
  cases h with
  | none =>
    obtain ⟨t, r, rfl, h1, h2⟩ := first_token hp trivial
    unfold refSpec
    split
    · rename_i he; cases he; exact absurd rfl h1
    · rename_i he; cases he; exact absurd rfl h2
    · rfl
  | ref => rfl
  | arrow => rfl

theorem expect_ok {β} {x : Punct} {r : List Tok} {f : List Tok → P β} : expect x (.p x :: r) f = f r := by
  simp [expect]

theorem Ev.shift {α} {f : Nat → α} {r} (h : Ev f r) (k : Nat) : Ev (fun n => f (n + k)) r := by
  obtain ⟨N, h⟩ := h
  exact ⟨N, fun n hn => h _ (by omega)⟩

/-- `close x`: the token `x` ends an expression. -/
theorem good_close {ts us} (h : Good (.level 11) ts us) {x : Punct} (hx : x = .parCl ∨ x = .brackCl ∨ x = .comma ∨ x = .colon)
    (r) : Ev (fun n => expr n (ts ++ .p x :: r)) (.yes us (.p x :: r)) := by
  apply good_expr h
  · apply stopsPost_of; rcases hx with rfl | rfl | rfl | rfl <;> rfl
  · apply stopsInfix_of <;> rcases hx with rfl | rfl | rfl | rfl <;> rfl

theorem expr_close (n : Nat) (r) : expr (n + 3) (.p .parCl :: r) = .no := by
  rw [expr, elem, prefixes_other rfl]
  simp only
  rw [primary]
  simp [start, P.orElse]

theorem good {c ts us} (h : Phrase c ts us) : Good c ts us := by
  induction h with
  | ident i => exact ⟨⟨_, _, rfl, rfl⟩, fun rest => ⟨1, fun n hn => by
      obtain ⟨m, rfl⟩ : ∃ m, n = m + 1 := ⟨n - 1, by omega⟩
      simp [primary, start]⟩⟩
  | lit i => exact ⟨⟨_, _, rfl, rfl⟩, fun rest => ⟨1, fun n hn => by
      obtain ⟨m, rfl⟩ : ∃ m, n = m + 1 := ⟨n - 1, by omega⟩
      simp [primary, start]⟩⟩
  | phrase v i => exact ⟨⟨_, _, rfl, rfl⟩, fun rest => ⟨1, fun n hn => by
      obtain ⟨m, rfl⟩ : ∃ m, n = m + 1 := ⟨n - 1, by omega⟩
      simp [primary, start]⟩⟩
  | this => exact ⟨⟨_, _, rfl, rfl⟩, fun rest => ⟨1, fun n hn => by
      obtain ⟨m, rfl⟩ : ∃ m, n = m + 1 := ⟨n - 1, by omega⟩
      simp [primary, start]⟩⟩
  | extern i => exact ⟨⟨_, _, rfl, rfl⟩, fun rest => ⟨1, fun n hn => by
      obtain ⟨m, rfl⟩ : ∃ m, n = m + 1 := ⟨n - 1, by omega⟩
      simp [primary, start, acceptIdent, P.need]⟩⟩
  | @paren ts us _ ih =>
    refine ⟨⟨_, _, rfl, rfl⟩, fun rest => ?_⟩
    obtain ⟨N, hN⟩ := good_close ih (x := .parCl) (by simp) rest
    refine ⟨N + 1, fun n hn => ?_⟩
    obtain ⟨m, rfl⟩ : ∃ m, n = m + 1 := ⟨n - 1, by omega⟩
    have := hN m (by omega)
    simp only [List.cons_append, List.append_assoc, List.nil_append, primary, start] at this ⊢
    rw [this, P.need, expect_ok]
  | @fma ta a tb b tc c _ _ _ ha hb hc =>
    refine ⟨⟨_, _, rfl, rfl⟩, fun rest => ?_⟩
    obtain ⟨N1, h1⟩ := good_close ha (x := .comma) (by simp) (tb ++ .p .comma :: (tc ++ .p .parCl :: rest))
    obtain ⟨N2, h2⟩ := good_close hb (x := .comma) (by simp) (tc ++ .p .parCl :: rest)
    obtain ⟨N3, h3⟩ := good_close hc (x := .parCl) (by simp) rest
    refine ⟨N1 + N2 + N3 + 1, fun n hn => ?_⟩
    obtain ⟨m, rfl⟩ : ∃ m, n = m + 1 := ⟨n - 1, by omega⟩
    have h1 := h1 m (by omega)
    have h2 := h2 m (by omega)
    have h3 := h3 m (by omega)
    simp only [List.cons_append, List.append_assoc, List.nil_append, primary, start] at h1 h2 h3 ⊢
    rw [expect_ok, h1, P.need, expect_ok, h2, P.need, expect_ok, h3, P.need, expect_ok]
  | @paired k x ta a tb b hk _ _ ha hb =>
    refine ⟨⟨_, _, rfl, by cases hk <;> rfl⟩, fun rest => ?_⟩
    obtain ⟨N1, h1⟩ := good_close ha (x := .comma) (by simp) (tb ++ .p .parCl :: rest)
    obtain ⟨N2, h2⟩ := good_close hb (x := .parCl) (by simp) rest
    refine ⟨N1 + N2 + 1, fun n hn => ?_⟩
    obtain ⟨m, rfl⟩ : ∃ m, n = m + 1 := ⟨n - 1, by omega⟩
    have h1 := h1 m (by omega)
    have h2 := h2 m (by omega)
    simp only [List.cons_append, List.append_assoc, List.nil_append, primary, paired_start hk] at h1 h2 ⊢
    rw [expect_ok, h1, P.need, expect_ok, h2, P.need, expect_ok]
  | @catching ts us _ ih =>
    refine ⟨⟨_, _, rfl, rfl⟩, fun rest => ?_⟩
    obtain ⟨N, hN⟩ := good_close ih (x := .parCl) (by simp) rest
    refine ⟨N + 1, fun n hn => ?_⟩
    obtain ⟨m, rfl⟩ : ∃ m, n = m + 1 := ⟨n - 1, by omega⟩
    have := hN m (by omega)
    simp only [List.cons_append, List.append_assoc, List.nil_append, primary, start] at this ⊢
    rw [expect_ok, this, P.need, expect_ok]
  | @bare ts us _ ih => exact ⟨ih.1, fun rest => ⟨0, us, rest, ih.2 rest, 0, fun n _ => rfl⟩⟩
  | @postop ts us t x _ hx ih =>
    obtain ⟨⟨t0, r0, e0, h0⟩, ih⟩ := ih
    refine ⟨⟨t0, r0 ++ [t], by rw [e0]; rfl, h0⟩, fun rest => ?_⟩
    obtain ⟨k, us0, r, h1, N, h2⟩ := ih (t :: rest)
    refine ⟨k + 1, us0, r, by simpa using h1, N, fun n hn => ?_⟩
    have := h2 (n + 1) (by omega)
    rw [show n + (k + 1) = n + 1 + k by omega, this, postfix_, suffix_op.mpr (postfixOp_iff.mpr hx)]
  | @call ts us ta l _ _ ih iha =>
    obtain ⟨⟨t0, r0, e0, h0⟩, ih⟩ := ih
    refine ⟨⟨t0, r0 ++ .p .parOp :: ta ++ [.p .parCl], by rw [e0]; simp, h0⟩, fun rest => ?_⟩
    obtain ⟨k, us0, r, h1, N, h2⟩ := ih (.p .parOp :: ta ++ .p .parCl :: rest)
    obtain ⟨M, h3⟩ := iha l rest rfl
    refine ⟨k + 1, us0, r, by simpa using h1, N + M, fun n hn => ?_⟩
    have h2 := h2 (n + 1) (by omega)
    have h3 := h3 n (by omega)
    rw [show n + (k + 1) = n + 1 + k by omega, h2, List.cons_append, postfix_, suffix_call.mpr rfl]
    simp only at h3 ⊢
    rw [h3, P.need, expect_ok]
  | @index ts us ti is _ _ ih ihi =>
    obtain ⟨⟨t0, r0, e0, h0⟩, ih⟩ := ih
    refine ⟨⟨t0, r0 ++ .p .brackOp :: ti ++ [.p .brackCl], by rw [e0]; simp, h0⟩, fun rest => ?_⟩
    obtain ⟨k, us0, r, h1, N, h2⟩ := ih (.p .brackOp :: ti ++ .p .brackCl :: rest)
    obtain ⟨M, h3⟩ := good_close ihi (x := .brackCl) (by simp) rest
    refine ⟨k + 1, us0, r, by simpa using h1, N + M, fun n hn => ?_⟩
    have h2 := h2 (n + 1) (by omega)
    have h3 := h3 n (by omega)
    rw [show n + (k + 1) = n + 1 + k by omega, h2, List.cons_append, postfix_, suffix_index.mpr rfl]
    simp only at h3 ⊢
    rw [h3, P.need, expect_ok]
  | @member ts us i _ ih =>
    obtain ⟨⟨t0, r0, e0, h0⟩, ih⟩ := ih
    refine ⟨⟨t0, r0 ++ [.p .dot, .ident i], by rw [e0]; rfl, h0⟩, fun rest => ?_⟩
    obtain ⟨k, us0, r, h1, N, h2⟩ := ih (.p .dot :: .ident i :: rest)
    refine ⟨k + 1, us0, r, by simpa using h1, N, fun n hn => ?_⟩
    have := h2 (n + 1) (by omega)
    rw [show n + (k + 1) = n + 1 + k by omega, this, postfix_, suffix_member.mpr rfl]
    rfl
  | @noPrefix ts us _ ih =>
    obtain ⟨⟨t0, r0, e0, h0⟩, ih⟩ := ih
    intro rest hr
    obtain ⟨k, us0, r, ⟨N1, h1⟩, N2, h2⟩ := ih rest
    refine ⟨N1 + N2 + k + 2, fun n hn => ?_⟩
    obtain ⟨m, rfl⟩ : ∃ m, n = (m + 1 + k) + 1 := ⟨n - k - 2, by omega⟩
    have h1 := h1 (m + 1 + k) (by omega)
    have h2 := h2 (m + 1) (by omega)
    simp only at h1
    have hstop : postfix_ (m + 1) us rest = .yes us rest := by
      cases rest with
      | nil => rw [postfix_]
      | cons t r => rw [postfix_, suffix_none.mpr (hr t r rfl)]
    simp only [elem]
    have : prefixes (ts ++ rest) = ([], ts ++ rest) := by rw [e0]; exact prefixes_other h0
    rw [this]
    simp only
    rw [h1, P.orElse, h2, hstop, P.need]
    simp
  | @prefixed t x ts us hx _ ih =>
    intro rest hr
    obtain ⟨N, h⟩ := ih rest hr
    exact ⟨N, fun n hn => elem_prefix hx (h n hn)⟩
  | @operand ts us _ ih =>
    intro e s rest _ hr
    obtain ⟨N, h⟩ := ih rest hr
    refine ⟨0, N, e.setJunction us :: s, .refl _, fun n hn => ?_⟩
    have := h n hn
    simp only at this
    rw [Nat.add_zero, enter, this, P.need]
  | @loosen p ts us hp _ ih =>
    intro e s rest hf hr
    obtain ⟨k, N, s', h1, h2⟩ := ih e s rest (by unfold Fits at *; omega) hr
    exact ⟨k, N, s', h1.mono (by omega), h2⟩
  | @binary p t f tl l tr r hb _ _ ihl ihr =>
    intro e s rest hf hr
    obtain ⟨el, i1, i2, i3, i4, i5, i6, i7⟩ := binary_infixOne hb
    obtain ⟨k1, N1, s1, p1, h1⟩ := ihl e s (t :: (tr ++ rest)) hf (stopsPost_binary hb)
    obtain ⟨k2, N2, s2, p2, h2⟩ := ihr el (e.setJunction l :: s) rest (.inl (by omega)) hr
    refine ⟨k2 + 1 + k1, N1 + N2 + 1, s2, ?_, fun n hn => ?_⟩
    · refine (p2.mono (by omega)).trans (.step (by rw [prec_setJunction]; omega) ?_)
      rw [popOne, setJunction_setJunction, junction_setJunction, i7]
      exact .refl _
    · have hop : infixOp (n + k2) (t :: (tr ++ rest)) = .yes el (tr ++ rest) := by
        obtain ⟨m, hm⟩ : ∃ m, n + k2 = m + 1 := ⟨n + k2 - 1, by omega⟩
        rw [hm, infixOp, i2]; simp only; rw [i1]
      rw [List.append_assoc, List.cons_append, show n + (k2 + 1 + k1) = (n + k2 + 1) + k1 by omega, h1 _ (by omega),
        loop_op hop p1 (by omega) (by unfold Fits at hf; omega), h2 _ (by omega)]
  | @assign t f tl l tr r hb _ _ ihl ihr =>
    intro e s rest hf hr
    obtain ⟨el, i1, i2, i3, i4, i7⟩ := assign_infixOne hb
    obtain ⟨k1, N1, s1, p1, h1⟩ := ihl e s (t :: (tr ++ rest)) (by unfold Fits at *; omega) (stopsPost_assign hb)
    obtain ⟨k2, N2, s2, p2, h2⟩ := ihr el (e.setJunction l :: s) rest (.inr ⟨rfl, i3⟩) hr
    refine ⟨k2 + 1 + k1, N1 + N2 + 1, s2, ?_, fun n hn => ?_⟩
    · refine p2.trans (.step (by rw [prec_setJunction]; omega) ?_)
      rw [popOne, setJunction_setJunction, junction_setJunction, i7]
      exact .refl _
    · have hop : infixOp (n + k2) (t :: (tr ++ rest)) = .yes el (tr ++ rest) := by
        obtain ⟨m, hm⟩ : ∃ m, n + k2 = m + 1 := ⟨n + k2 - 1, by omega⟩
        rw [hm, infixOp, i2]; simp only; rw [i1]
      rw [List.append_assoc, List.cons_append, show n + (k2 + 1 + k1) = (n + k2 + 1) + k1 by omega, h1 _ (by omega),
        loop_op hop p1 (by omega) (by unfold Fits at hf; omega), h2 _ (by omega)]
  | @cond t a tl l tm m tr r hb _ _ _ ihl ihm ihr =>
    intro e s rest hf hr
    obtain ⟨k1, N1, s1, p1, h1⟩ := ihl e s (t :: (tm ++ .p .colon :: (tr ++ rest))) (by unfold Fits at *; omega)
      (stopsPost_quest hb)
    obtain ⟨k2, N2, s2, p2, h2⟩ := ihr (.ternary a m []) (e.setJunction l :: s) rest (.inr ⟨rfl, rfl⟩) hr
    obtain ⟨N3, h3⟩ := good_close ihm (x := .colon) (by simp) (tr ++ rest)
    refine ⟨k2 + 1 + k1, N1 + N2 + N3 + 1, s2, ?_, fun n hn => ?_⟩
    · refine p2.trans (.step (by rw [prec_setJunction]; exact Nat.le_refl _) ?_)
      rw [popOne, setJunction_setJunction, junction_setJunction]
      exact .refl _
    · have hop : infixOp (n + k2) (t :: (tm ++ .p .colon :: (tr ++ rest))) = .yes (.ternary a m []) (tr ++ rest) := by
        obtain ⟨m', hm⟩ : ∃ m', n + k2 = m' + 1 := ⟨n + k2 - 1, by omega⟩
        have h3 := h3 m' (by omega)
        simp only at h3
        rw [hm, infixOp, questTok_iff.mpr hb]; simp only; rw [h3, P.need, expect_ok]
      have hnp : nextPrec (.ternary a m []) = 10 := rfl
      have e1 : tl ++ t :: tm ++ .p .colon :: tr ++ rest = tl ++ t :: (tm ++ .p .colon :: (tr ++ rest)) := by simp
      rw [e1, show n + (k2 + 1 + k1) = (n + k2 + 1) + k1 by omega, h1 _ (by omega),
        loop_op hop p1 (Nat.le_of_eq hnp.symm) (by rw [hnp]; unfold Fits at hf; omega), h2 _ (by omega)]
  | noArgs =>
    intro l rest hl
    cases hl
    refine ⟨4, fun n hn => ?_⟩
    obtain ⟨m, rfl⟩ : ∃ m, n = m + 3 + 1 := ⟨n - 4, by omega⟩
    simp only [List.nil_append, args, refSpec]
    rw [expr_close]
    simp [P.orElse]
  | @lastArg ta b ts us vs hs hph hc ih =>
    intro l rest hl
    cases hl
    obtain ⟨N, h⟩ := good_close ih (x := .parCl) (by simp) rest
    refine ⟨N + 1, fun n hn => ?_⟩
    obtain ⟨m, rfl⟩ : ∃ m, n = m + 1 := ⟨n - 1, by omega⟩
    have h := h m (by omega)
    simp only at h
    simp only [args]
    rw [List.append_assoc, refSpec_of hs hph]
    simp only
    rw [h, P.orElse]
    simp [addCheck_iff.mpr hc]
  | @moreArgs ta b ts us vs tm l hs hph hc _ ih ihm =>
    intro l' rest hl
    cases hl
    obtain ⟨N, h⟩ := good_close ih (x := .comma) (by simp) (tm ++ .p .parCl :: rest)
    obtain ⟨M, h'⟩ := ihm l rest rfl
    refine ⟨N + M + 1, fun n hn => ?_⟩
    obtain ⟨m, rfl⟩ : ∃ m, n = m + 1 := ⟨n - 1, by omega⟩
    have h := h m (by omega)
    have h' := h' m (by omega)
    simp only at h h'
    simp only [args]
    rw [List.append_assoc, List.append_assoc, List.cons_append, refSpec_of hs hph]
    simp only
    rw [h, P.orElse]
    simp only
    rw [h', P.need, addCheck_iff.mpr hc]

end Asteria.Parser
