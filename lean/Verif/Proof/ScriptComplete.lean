import Verif.Proof.ScriptSound

/-!
# Helper lemmas: everything in the grammar is accepted by the parser
-/

namespace Asteria.Script

open Syntax Compile
open _root_.Asteria.Parser (Punct Xop infixGeneral)
open Exec (Name ClauseKind)

/-! ### Large enough bounds -/

/-- For all large enough bounds. -/
def Ev {α : Type} (f : Nat → α) (r : α) : Prop := ∃ N, ∀ n, N ≤ n → f n = r

section
variable {α β : Type}

theorem Ev.const (r : α) : Ev (fun _ => r) r := ⟨0, fun _ _ => rfl⟩

theorem Ev.succ {f : Nat → α} {r} (h : Ev (fun n => f (n + 1)) r) : Ev f r := by
  obtain ⟨N, h⟩ := h
  refine ⟨N + 1, fun n hn => ?_⟩
  obtain ⟨m, rfl⟩ : ∃ m, n = m + 1 := ⟨n - 1, by omega⟩
  exact h m (by omega)

theorem Ev.congr {f g : Nat → α} {r} (h : Ev g r) (e : ∀ n, f n = g n) : Ev f r := by
  obtain ⟨N, h⟩ := h
  exact ⟨N, fun n hn => (e n).trans (h n hn)⟩

theorem Ev.need {x : Nat → P α} {f : Nat → α → List Tok → P β} {a q r} (h : Ev x (.yes a q))
    (h' : Ev (fun n => f n a q) r) : Ev (fun n => (x n).need (f n)) r := by
  obtain ⟨N, h⟩ := h
  obtain ⟨M, h'⟩ := h'
  refine ⟨N + M, fun n hn => ?_⟩
  have h1 := h n (by omega)
  have h2 := h' n (by omega)
  simp only at h1 h2 ⊢
  rw [h1]
  exact h2

theorem Ev.orYes {x : Nat → P α} {f : Nat → α → List Tok → P β} {g : Nat → P β} {a q r} (h : Ev x (.yes a q))
    (h' : Ev (fun n => f n a q) r) : Ev (fun n => (x n).orElse (f n) (g n)) r := by
  obtain ⟨N, h⟩ := h
  obtain ⟨M, h'⟩ := h'
  refine ⟨N + M, fun n hn => ?_⟩
  have h1 := h n (by omega)
  have h2 := h' n (by omega)
  simp only at h1 h2 ⊢
  rw [h1]
  exact h2

theorem Ev.orNo {x : Nat → P α} {f : Nat → α → List Tok → P β} {g : Nat → P β} {r} (h : Ev x .no)
    (h' : Ev g r) : Ev (fun n => (x n).orElse (f n) (g n)) r := by
  obtain ⟨N, h⟩ := h
  obtain ⟨M, h'⟩ := h'
  refine ⟨N + M, fun n hn => ?_⟩
  have h1 := h n (by omega)
  have h2 := h' n (by omega)
  simp only at h1 h2 ⊢
  rw [h1]
  exact h2

theorem Ev.expect {x : Punct} {f : Nat → List Tok → P β} {q r} (h : Ev (fun n => f n q) r) :
    Ev (fun n => expect x (.p x :: q) (f n)) r := by
  refine h.congr fun n => ?_
  simp [Syntax.expect]

theorem Ev.expectKw {x : Kw} {f : Nat → List Tok → P β} {q r} (h : Ev (fun n => f n q) r) :
    Ev (fun n => expectKw x (.k x :: q) (f n)) r := by
  refine h.congr fun n => ?_
  simp [Syntax.expectKw]

end

/-! ### First tokens -/

/-- Tokens with which expressions begin. -/
def starts (t : Tok) : Bool := (prefixOp t).isSome || (pairedOp t).isSome || match t with
  | .ident _ | .int _ | .real _ | .str _ => true
  | .p .brackOp | .p .braceOp | .p .parOp => true
  | .k .extern_ | .k .this | .k .func | .k .fma | .k .catch_ | .k .null | .k .false | .k .true => true
  | .k .vcall | .k .import_ => true
  | _ => false

/-- Tokens with which nondeclarative statements begin. -/
def startsStmt (t : Tok) : Bool := starts t || match t with
  | .k .if_ | .k .switch | .k .do_ | .k .while_ | .k .for_ | .k .break_ | .k .continue_ | .k .throw_ | .k .return_
  | .k .assert | .k .try_ => true
  | _ => false

/-- What is shown about first tokens. -/
def First : Cat → List Tok → Prop
  | .primary, ts | .suffixed, ts => ∃ t q, ts = t :: q ∧ starts t = true ∧ prefixOp t = none
  | .unary, ts | .level _, ts | .expr, ts | .exprStmt, ts => ∃ t q, ts = t :: q ∧ starts t = true
  | .nondecl _, ts => ∃ t q, ts = t :: q ∧ startsStmt t = true
  | .forInit, ts => ∃ t q, ts = t :: q ∧ t ≠ .k .each
  | .defn, ts => ∃ t q, ts = t :: q ∧ t ≠ .k .each
  | _, _ => True

theorem first_literal {ts v r} (h : Literal ts v r) : ∃ t q, ts = t :: q ∧ starts t = true ∧ prefixOp t = none := by
  cases h with
  | str h => cases h <;> exact ⟨_, _, rfl, rfl, rfl⟩
  | _ => exact ⟨_, _, rfl, rfl, rfl⟩

theorem first {c k ts} {o : k.Out} {r} (h : Phrase c k ts o r) : First k ts := by
  induction h with
  | literal h => exact first_literal h
  | file | line | ident | extern | this | closure | closureEqual | closureArrow | array | object | paren | fma | catching =>
    exact ⟨_, _, rfl, rfl, rfl⟩
  | paired h => cases h <;> exact ⟨_, _, rfl, rfl, rfl⟩
  | bare _ ih | postop _ _ ih | call _ _ ih _ | index _ _ ih _ | member _ _ ih => exact ih
  | noPrefix _ ih => obtain ⟨t, q, h1, h2, _⟩ := ih; exact ⟨t, q, h1, h2⟩
  | prefixed h => cases h <;> exact ⟨_, _, rfl, rfl⟩
  | operand _ ih | loosen _ _ ih | binary _ _ _ ih _ | assign _ _ _ ih _ | ternary _ _ _ _ ih _ _ | expr _ _ ih
  | exprStmt _ ih => exact ih
  | expression _ _ ih => obtain ⟨t, q, h1, h2⟩ := ih; exact ⟨t, q, h1, by simp [startsStmt, h2]⟩
  | ifOnly | ifElse | switch | doWhile | doComplete | «while» | forEach | forTriplet | «break» | «continue» | throw | returnVoid
  | «return» | assert | «try» | block => exact ⟨_, _, rfl, rfl⟩
  | var | const | ref | initNull => exact ⟨_, _, rfl, by simp⟩
  | initDef _ ih => exact ih
  | initExpr _ ih => obtain ⟨t, q, h1, h2⟩ := ih; exact ⟨t, q, h1, by rintro rfl; cases h2⟩
  | _ => trivial

theorem prefixOp_of_starts {t} (h : starts t = false) : prefixOp t = none := by
  cases h' : prefixOp t with
  | none => rfl
  | some x => simp [starts, h'] at h

theorem primary_no {c n t r} (h : starts t = false) : primary c (n + 1) (t :: r) = .no := by
  match t with
  | .ident _ | .int _ | .real _ | .str _ => simp [starts] at h
  | .p x => cases x <;> first | (exact absurd h (by decide)) | rfl
  | .k x => cases x <;> first | (exact absurd h (by decide)) | rfl

theorem expr_no (c r) {t} (h : starts t = false) : Ev (fun n => expr c n (t :: r)) .no := by
  refine .succ ?_
  simp only [expr]
  refine .orNo (.succ ?_) (.const _)
  have hp : prefixes [] (t :: r) = ([], t :: r) := by rw [prefixes, prefixOp_of_starts h]
  simp only [elem, hp]
  refine .orNo (.succ ?_) (.const _)
  simp only [primary_no h]
  exact .const _

theorem expr_nil (c) : Ev (fun n => expr c n []) .no := by
  refine .succ ?_
  simp only [expr]
  refine .orNo (.succ ?_) (.const _)
  simp only [elem, prefixes]
  refine .orNo (.succ ?_) (.const _)
  simp only [primary]
  exact .const _

/-! ### Collapsing -/

/-- The stack `s` becomes `s'` by popping elements of precedence at most `p`. -/
inductive Pops (p : Nat) : List El → List El → Prop
  | refl (s) : Pops p s s
  | step {e d s s'} : e.prec ≤ p → Pops p (popOne (e :: d :: s)) s' → Pops p (e :: d :: s) s'

theorem Pops.mono {p q s s'} (h : Pops p s s') (hpq : p ≤ q) : Pops q s s' := by
  induction h with
  | refl => exact .refl _
  | step he _ ih => exact .step (by omega) ih

theorem Pops.trans {p s s' s''} (h : Pops p s s') (h' : Pops p s' s'') : Pops p s s'' := by
  induction h with
  | refl => exact h'
  | step he _ ih => exact .step he (ih h')

theorem collapse_pops {p next s s'} (h : Pops p s s') (hp : p ≤ next) :
    collapse next s.length s = collapse next s'.length s' := by
  induction h with
  | refl => rfl
  | @step e d s s' he _ ih =>
    rw [← ih, ← @length_popOne e d s, collapse, if_pos (by omega)]

theorem collapseAll_pops {p s s'} (h : Pops p s s') : collapseAll s.length s = collapseAll s'.length s' := by
  induction h with
  | refl => rfl
  | @step e d s s' he _ ih => rw [← ih, ← @length_popOne e d s, collapseAll]

theorem collapse_top {next e s} (h : next < e.prec) : collapse next (e :: s).length (e :: s) = e :: s := by
  cases s with
  | nil => simp [collapse]
  | cons d s => rw [List.length_cons, collapse, if_neg (by omega)]

/-- A phrase of level `p` may stand to the right of an element of precedence `q`. -/
def Fits (p q : Nat) : Prop := p < q ∨ (p = 11 ∧ q = 11)

/-- Read an operand into the topmost element, then go on with the loop. -/
def enter (c : Cfg) (n : Nat) (e : El) (s : List El) (ts : List Tok) : P (List U) :=
  (elem c n ts).need fun us ts => infixLoop c n (e.setJunction us :: s) ts

theorem expr_enter {c ts us r} (h : Ev (fun n => enter c n (.head []) [] ts) (.yes us r)) :
    Ev (fun n => expr c n ts) (.yes us r) := by
  obtain ⟨N, h⟩ := h
  refine .succ ⟨N, fun n hn => ?_⟩
  obtain ⟨a, q, h1, h2⟩ := need_yes (h n hn)
  simp only [expr]
  rw [h1]
  exact h2

/-! ### Where lists end -/

/-- Tokens which end a list of statements. -/
def endsStmts : List Tok → Bool
  | [] => true
  | .p .braceCl :: _ | .k .default :: _ | .k .case :: _ | .k .each :: _ => true
  | _ => false

theorem stmts_end {c sc r} (h : endsStmts r = true) : Ev (fun n => stmts c n sc r) (.yes [] r) := by
  refine .succ ?_
  simp only [stmts]
  refine .orNo (.succ ?_) (.const _)
  unfold endsStmts at h
  split at h
  · simp only [stmt]
    refine .orNo (.succ (by simp only [definition]; exact .const _)) (.succ ?_)
    simp only [nondecl]
    refine .succ ?_
    simp only [exprStmt]
    exact .orNo (expr_nil c) (.const _)
  all_goals first
    | (simp only [stmt]
       refine .orNo (.succ (by simp only [definition]; exact .const _)) (.succ ?_)
       simp only [nondecl]
       refine .succ ?_
       simp only [exprStmt]
       exact .orNo (expr_no c _ rfl) (.const _))
    | cases h

/-! ### What is not recursive -/

theorem reserved_of {s : Bytes} (h : ¬ ∃ q, s = 0x5F :: 0x5F :: q) : reserved s = false := by
  cases h' : reserved s with
  | false => rfl
  | true => exact absurd ((reserved_iff s).mp h') h

theorem userIdent_of {c t i} (h : Declared c t i) (r) : userIdent c (t :: r) = .yes i r := by
  cases h with
  | mk s h => rw [userIdent, reserved_of h]; rfl

theorem key_of {t s} (h : Key t s) (r) : key (t :: r) = .yes s r := by cases h <;> rfl

theorem strings_of {ts v r} (h : Strings ts v r) : strings ts = (v, r) := by
  induction h with
  | last s r h =>
    rw [strings]
    have : strings r = ([], r) := by
      unfold strings
      split
      · exact absurd ⟨_, rfl⟩ (h _ _ rfl)
      · rfl
    rw [this, List.append_nil]
  | more s _ ih => rw [strings, ih]

theorem literal_of {ts v r} (h : Literal ts v r) : literal ts = .yes v r := by
  cases h with
  | str h =>
    have := strings_of h
    cases h <;> simp only [literal, this]
  | _ => rfl

theorem negation_of {ts b q} (h : Negation ts b q) {x} (hq : q = .p .parOp :: x) : negation ts = (b, q) := by
  subst hq
  cases h <;> rfl

theorem refSpec_of {ts b t q} (h : RefSpec ts b (t :: q)) (ht : starts t = true) : refSpec ts = (b, t :: q) := by
  cases h with
  | none =>
    unfold refSpec
    split
    · rename_i he; cases he; cases ht
    · rename_i he; cases he; cases ht
    · rfl
  | ref => rfl
  | arrow => rfl

theorem names_of {c ts ns r} (h : Names c ts ns r) : ∀ acc, (acc ++ ns).Nodup →
    (∃ q, r = .p .brackCl :: q ∨ r = .p .braceCl :: q) → names c acc ts = .yes (acc ++ ns) r := by
  induction h with
  | none r =>
    rintro acc _ ⟨q, rfl | rfl⟩ <;> rw [List.append_nil, names] <;> simp
  | last r h =>
    intro acc ha hr
    cases h with
    | mk s h =>
      have hn : c.num s ∉ acc := fun hm => (List.nodup_append.mp ha).2.2 _ hm _ (by simp) rfl
      unfold names
      simp only [reserved_of h, hn, Bool.false_eq_true, or_self, if_false]
      obtain ⟨q, rfl | rfl⟩ := hr <;> rfl
  | @more t n ts ns r h _ ih =>
    intro acc ha hr
    cases h with
    | mk s h =>
      have hn : c.num s ∉ acc := fun hm => (List.nodup_append.mp ha).2.2 _ hm _ (by simp) rfl
      rw [names]
      simp only [reserved_of h, hn, Bool.false_eq_true, or_self, if_false]
      rw [ih (acc ++ [c.num s]) (by simpa using ha) hr]
      simp

theorem params_of {c ts ns v r} (h : Params c ts ns v r) : ∀ acc, (acc ++ ns).Nodup →
    (∃ q, r = .p .parCl :: q) → params c acc ts = .yes (acc ++ ns, v) r := by
  induction h with
  | none r =>
    rintro acc _ ⟨q, rfl⟩
    rw [List.append_nil, params] <;> simp
  | dots r => intro acc _ _; rw [List.append_nil, params]
  | last r h =>
    intro acc ha hr
    cases h with
    | mk s h =>
      have hn : c.num s ∉ acc := fun hm => (List.nodup_append.mp ha).2.2 _ hm _ (by simp) rfl
      unfold params
      simp only [reserved_of h, hn, Bool.false_eq_true, or_self, if_false]
      obtain ⟨q, rfl⟩ := hr
      rfl
  | @more t n ts ns v r h _ ih =>
    intro acc ha hr
    cases h with
    | mk s h =>
      have hn : c.num s ∉ acc := fun hm => (List.nodup_append.mp ha).2.2 _ hm _ (by simp) rfl
      rw [params]
      simp only [reserved_of h, hn, Bool.false_eq_true, or_self, if_false]
      rw [ih (acc ++ [c.num s]) (by simpa using ha) hr]
      simp

theorem params_ok {c ts ps v q} (h : Params c ts ps v (.p .parCl :: q)) (hn : ps.Nodup) :
    params c [] ts = .yes (ps, v) (.p .parCl :: q) := params_of h [] hn ⟨_, rfl⟩

theorem declarator_of {c ts d r} (h : Declarator c ts d r) : ∃ b : Binder, declarator c ts = .yes b r ∧
    ∀ us, b.decl us = d us := by
  cases h with
  | scalar r h =>
    refine ⟨.scalar _, ?_, fun _ => rfl⟩
    unfold declarator
    rw [userIdent_of h]
    rfl
  | @array ts ns r h hne hnd =>
    refine ⟨.array ns, ?_, fun _ => rfl⟩
    unfold declarator
    simp only [userIdent, P.orElse]
    rw [names_of h [] hnd ⟨_, .inl rfl⟩]
    cases ns with
    | nil => exact absurd rfl hne
    | cons => rfl
  | @object ts ns r h hne hnd =>
    refine ⟨.object ns, ?_, fun _ => rfl⟩
    unfold declarator
    simp only [userIdent, P.orElse]
    rw [names_of h [] hnd ⟨_, .inr rfl⟩]
    cases ns with
    | nil => exact absurd rfl hne
    | cons => rfl

theorem breakStmt_of {sc l ts t r} (ha : Agree sc l) (h : BreakTarget ts t (.p .semicol :: r)) (hc : CanBreak l t) :
    breakStmt sc ts = .yes (.breakS t) r := by
  cases h with
  | none => have : (sc.sw || sc.wh || sc.fr) = true := ha.any.mpr hc
            simp only [breakStmt, this]; rfl
  | switch => have : sc.sw = true := ha.sw.mpr hc
              simp only [breakStmt, this]; rfl
  | «while» => have : sc.wh = true := ha.wh.mpr hc
               simp only [breakStmt, this]; rfl
  | «for» => have : sc.fr = true := ha.fr.mpr hc
             simp only [breakStmt, this]; rfl

theorem contStmt_of {sc l ts t r} (ha : Agree sc l) (h : ContTarget ts t (.p .semicol :: r)) (hc : CanContinue l t) :
    contStmt sc ts = .yes (.contS t) r := by
  cases h with
  | none => have : (sc.wh || sc.fr) = true := ha.loop.mpr hc
            simp only [contStmt, this]; rfl
  | «while» => have : sc.wh = true := ha.wh.mpr hc
               simp only [contStmt, this]; rfl
  | «for» => have : sc.fr = true := ha.fr.mpr hc
             simp only [contStmt, this]; rfl

theorem block_of {s b} (h : Block s b) : b = blockify s := by
  cases h with
  | block => rfl
  | other h => unfold blockify; split
               · exact absurd rfl (h _)
               · rfl

theorem nondecl_expr {c sc n t q} (h : starts t = true) (hb : t ≠ .p .braceOp) :
    nondecl c sc (n + 1) (t :: q) = exprStmt c n (t :: q) := by
  match t with
  | .ident _ | .int _ | .real _ | .str _ => rfl
  | .p x => cases x <;> first | rfl | exact absurd rfl hb
  | .k x => cases x <;> first | rfl | exact absurd h (by decide)

theorem definition_no {c n t q} (h : startsStmt t = true ∨ t = .p .semicol ∨ t = .k .defer) :
    definition c (n + 1) (t :: q) = .no := by
  match t with
  | .ident _ | .int _ | .real _ | .str _ => rfl
  | .p x => cases x <;> rfl
  | .k x => cases x <;> first | rfl | (exfalso; simp [startsStmt, starts, prefixOp, pairedOp] at h)

theorem stmt_nondecl {c sc n t q} (h : startsStmt t = true) (hf : t ≠ .k .func) :
    stmt c sc (n + 2) (t :: q) = nondecl c sc (n + 1) (t :: q) := by
  unfold stmt
  rw [definition_no (.inl h)]
  match t with
  | .ident _ | .int _ | .real _ | .str _ => rfl
  | .p x => cases x <;> first | rfl | exact absurd h (by decide)
  | .k x => cases x <;> first | rfl | exact absurd h (by decide) | exact absurd rfl hf

/-! ### Completeness -/

/-- What the parser does with a phrase. -/
def Good (c : Cfg) : (k : Cat) → List Tok → k.Out → List Tok → Prop
  | .primary, ts, us, r => Ev (fun n => primary c n ts) (.yes us r)
  | .suffixed, ts, us, r => ∃ vs q, Ev (fun n => primary c n ts) (.yes vs q) ∧
      ∀ z, Ev (fun n => suffixes c n us r) z → Ev (fun n => suffixes c n vs q) z
  | .unary, ts, us, r => StopsPost r → Ev (fun n => elem c n ts) (.yes us r)
  | .level p, ts, us, r => ∀ e s, Fits p e.prec → StopsPost r → ∃ s', Pops p s' (e.setJunction us :: s) ∧
      ∀ z, Ev (fun n => infixLoop c n s' r) z → Ev (fun n => enter c n e s ts) z
  | .expr, ts, us, r => Ev (fun n => expr c n ts) (.yes us r)
  | .args, ts, l, r => (∃ q, r = .p .parCl :: q) → Ev (fun n => args c n ts) (.yes l r)
  | .elems, ts, es, r => (∃ q, r = .p .brackCl :: q) → ∀ k, k + es.length ≤ 0xFFFFF →
      Ev (fun n => elements c n k ts) (.yes (k + es.length, es.flatten) r)
  | .members, ts, ms, r => (∃ q, r = .p .braceCl :: q) → ∀ ks, (ks ++ keysOf ms).Nodup →
      Ev (fun n => members c n ks ts) (.yes (ks ++ keysOf ms, unitsOf ms) r)
  | .cond, ts, us, r => (∃ x, ts = .p .parOp :: x) ∧ Ev (fun n => Syntax.cond c n ts) (.yes us r)
  | .decls imm, ts, ds, r => (∃ q, r = .p .semicol :: q) → Ev (fun n => decls c imm n ts) (.yes ds r)
  | .refDecls, ts, ds, r => (∃ q, r = .p .semicol :: q) → Ev (fun n => refDecls c n ts) (.yes ds r)
  | .defn, ts, s, r => Ev (fun n => definition c n ts) (.yes s r)
  | .clauses l, ts, cs, r => (∃ q, r = .p .braceCl :: q) → endsStmts ts = true ∧ ∀ sc d, Agree sc l →
      (cs.filter isDefault).length ≤ (if d then 0 else 1) → Ev (fun n => clauses c sc n d ts) (.yes cs r)
  | .exprStmt, ts, s, r => Ev (fun n => exprStmt c n ts) (.yes s r)
  | .forInit, ts, s, r => Ev (fun n => forInit c n ts) (.yes s r)
  | .opt, ts, us, r => (∃ q, r = .p .semicol :: q ∨ r = .p .parCl :: q) → Ev (fun n => expr c n ts) (.yes us r) ∨
      (us = [] ∧ ts = r ∧ Ev (fun n => expr c n ts) .no)
  | .nondecl l, ts, s, r => ∀ sc, Agree sc l → Ev (fun n => nondecl c sc n ts) (.yes s r)
  | .body l, ts, b, r => ∀ sc, Agree sc l → ∃ s, b = blockify s ∧ Ev (fun n => nondecl c sc n ts) (.yes s r)
  | .complete l, ts, b, r => ∀ sc, Agree sc l → ∃ x, Ev (fun n => complete c sc n ts) (.yes (x, b) r)
  | .stmt l, ts, s, r => ∀ sc, Agree sc l → Ev (fun n => stmt c sc n ts) (.yes s r)
  | .stmts l, ts, ss, r => endsStmts r = true → ∀ sc, Agree sc l → Ev (fun n => stmts c n sc ts) (.yes ss r)

theorem stopsPost_binary {p t f r} (h : Binary p t f) : StopsPost (t :: r) := by
  intro t' r' e; cases e; cases h <;> simp [postfixOp]

theorem stopsPost_assign {t f r} (h : Assign t f) : StopsPost (t :: r) := by
  intro t' r' e; cases e; cases h <;> simp [postfixOp]

theorem stopsPost_quest {t f r} (h : Quest t f) : StopsPost (t :: r) := by
  intro t' r' e; cases e; cases h <;> simp [postfixOp]

theorem suffixes_stop {c r} (h : StopsPost r) (us) : Ev (fun n => suffixes c n us r) (.yes us r) := by
  refine .succ ?_
  cases r with
  | nil => simp only [suffixes]; exact .const _
  | cons t q =>
    obtain ⟨h1, h2, h3, h4⟩ := h t q rfl
    refine Ev.congr (.const _) fun n => ?_
    match t with
    | .ident _ | .int _ | .real _ | .str _ | .k _ => rfl
    | .p x => cases x <;> first | rfl | exact absurd rfl h2 | exact absurd rfl h3 | exact absurd rfl h4 | cases h1

/-- The loop takes an operator: its left operand is collapsed, its right operand is entered. -/
theorem loop_op {c s} {e : El} {S} {us : List U} {ts el ts' p z} (hop : Ev (fun n => infixOp c n ts) (.yes el ts'))
    (hp : Pops p s (e.setJunction us :: S)) (h1 : p ≤ nextPrec el) (h2 : nextPrec el < e.prec)
    (h : Ev (fun n => enter c n el (e.setJunction us :: S) ts') z) : Ev (fun n => infixLoop c n s ts) z := by
  refine .succ ?_
  simp only [infixLoop]
  refine .orYes hop ?_
  rw [collapse_pops hp h1, collapse_top (by rwa [prec_setJunction])]
  exact h

/-- An operator with both operands. -/
theorem good_op {c p l m ts a t q b r} {el : El} {x : List U} (iha : Good c (.level l) ts a t) (ihb : Good c (.level m) q b r)
    (hop : Ev (fun n => infixOp c n t) (.yes el q)) (hst : StopsPost t)
    (hx : (el.setJunction b).extract a = x) (hp : el.prec = p) (hnext : nextPrec el = l) (hm : m ≤ p) (hf : Fits m p) (hfl : ∀ q, Fits p q → l < q) : Good c (.level p) ts x r := by
  intro e s hfit hr
  have hlt := hfl _ hfit
  obtain ⟨s1, hp1, k1⟩ := iha e s (.inl hlt) hst
  obtain ⟨s2, hp2, k2⟩ := ihb el (e.setJunction a :: s) (hp ▸ hf) hr
  refine ⟨s2, (hp2.mono hm).trans (.step (by simp [hp]) ?_), ?_⟩
  · rw [popOne, junction_setJunction, setJunction_setJunction, hx]
    exact .refl _
  · intro z hz
    exact k1 _ (loop_op hop hp1 (by omega) (by omega) (k2 _ hz))

theorem good_expr {c ts} {us : List U} {r} (h : Good c (.level 11) ts us r) (hr : NotNext Continues r) :
    Ev (fun n => expr c n ts) (.yes us r) := by
  obtain ⟨h1, h2⟩ := (stops_iff r).mp hr
  obtain ⟨s', hp, k⟩ := h (.head []) [] (.inl (by decide)) h1
  refine expr_enter (k _ (.succ ?_))
  simp only [infixLoop]
  refine .orNo (.succ ?_) ?_
  · cases r with
    | nil => simp only [infixOp]; exact .const _
    | cons t q => simp only [infixOp, (h2 t q rfl).1, (h2 t q rfl).2]; exact .const _
  · rw [collapseAll_pops hp]
    simp only [El.setJunction, collapseAll, El.extract, List.length_cons, List.length_nil, List.nil_append]
    exact .const _

theorem prefixes_acc : ∀ (ts : List Tok) (acc : List U), prefixes acc ts = ((prefixes [] ts).1 ++ acc, (prefixes [] ts).2)
  | [], acc => rfl
  | t :: ts, acc => by
    cases h : prefixOp t with
    | none => simp [prefixes, h]
    | some x =>
      simp only [prefixes, h]
      rw [prefixes_acc ts (_ :: acc), prefixes_acc ts [_]]
      simp

theorem good_prefix {c t x ts us r} (hp : Prefix t x) (h : Ev (fun n => elem c n ts) (.yes us r)) :
    Ev (fun n => elem c n (t :: ts)) (.yes (us ++ [.op x false]) r) := by
  obtain ⟨N, h⟩ := h
  refine ⟨N + 1, fun n hn => ?_⟩
  have h := h n (by omega)
  obtain ⟨m, rfl⟩ : ∃ m, n = m + 1 := ⟨n - 1, by omega⟩
  have hx := prefixOp_iff.mpr hp
  have e1 : prefixes [] (t :: ts) = ((prefixes [] ts).1 ++ [.op x false], (prefixes [] ts).2) := by
    simp only [prefixes, hx]
    rw [prefixes_acc]
  simp only [elem] at h ⊢
  rw [e1]
  rcases orElse_yes h with ⟨us', ts', h1, h2⟩ | ⟨_, h2⟩
  · obtain ⟨us'', ts'', h3, h4⟩ := need_yes h2
    simp only at h1 h3 ⊢
    rw [h1]
    simp only [P.orElse]
    rw [h3]
    cases h4
    simp [P.need]
  · split at h2 <;> cases h2

theorem good {c k ts} {o : k.Out} {r} (h : Phrase c k ts o r) : Good c k ts o r := by
  induction h with
  | literal h =>
    obtain ⟨t, q, rfl, h1, h2⟩ := first_literal h
    have h3 := literal_of h
    refine .succ (Ev.congr (.const _) fun n => ?_)
    cases h with
    | str h => cases h <;> simp only [primary, pairedOp, h3, P.orElse]
    | _ => rfl
  | file | line => exact .succ (Ev.congr (.const _) fun n => rfl)
  | ident r h1 h2 =>
    refine .succ (Ev.congr (.const _) fun n => ?_)
    simp only [primary, pairedOp, localName, if_neg h1, if_neg h2]
  | extern | this => exact .succ (Ev.congr (.const _) fun n => rfl)
  | closure hp hn _ ih =>
    refine .succ ?_
    simp only [primary, pairedOp]
    refine .succ ?_
    simp only [closure]
    exact .expect (.need ((Ev.const _).congr fun _ => params_ok hp hn) (.expect (.need (ih rfl _ agree_plain)
      (.expect (.const _)))))
  | closureEqual hp hn _ ih | closureArrow hp hn _ ih =>
    refine .succ ?_
    simp only [primary, pairedOp]
    refine .succ ?_
    simp only [closure]
    exact .expect (.need ((Ev.const _).congr fun _ => params_ok hp hn) (.expect (.need ih (.const _))))
  | array _ hl ih =>
    refine .succ ?_
    simp only [primary, pairedOp]
    have := ih ⟨_, rfl⟩ 0 (by omega)
    rw [Nat.zero_add] at this
    exact .need this (.expect (.const _))
  | object _ hn ih =>
    refine .succ ?_
    simp only [primary, pairedOp]
    exact .need (ih ⟨_, rfl⟩ [] hn) (.expect (.const _))
  | paren _ ih =>
    refine .succ ?_
    simp only [primary, pairedOp]
    exact .need ih (.expect (.const _))
  | fma _ _ _ iha ihb ihd =>
    refine .succ ?_
    simp only [primary, pairedOp]
    exact .expect (.need iha (.expect (.need ihb (.expect (.need ihd (.expect (.const _)))))))
  | paired hw _ _ iha ihb =>
    refine .succ ?_
    simp only [primary, pairedOp_iff.mpr ⟨_, rfl, hw⟩]
    exact .expect (.need iha (.expect (.need ihb (.expect (.const _)))))
  | catching _ ih =>
    refine .succ ?_
    simp only [primary, pairedOp]
    exact .expect (.need ih (.expect (.const _)))
  | noElems r =>
    rintro ⟨q, rfl⟩ k hk
    refine .succ ?_
    simp only [elements]
    exact .orNo (expr_no c _ rfl) (.const _)
  | lastElem _ hc ih =>
    rintro ⟨q, rfl⟩ k hk
    obtain rfl := addCheck_iff.mpr hc
    refine .succ ?_
    simp only [elements]
    refine .orYes ih ?_
    have hk' : ¬ k ≥ 0xFFFFF := by simp only [List.length_cons, List.length_nil] at hk; omega
    simp only [if_neg hk', List.length_cons, List.length_nil, Nat.zero_add, List.flatten_cons, List.flatten_nil, List.append_nil]
    exact .const _
  | moreElems _ hc hs _ ih ihe =>
    rintro hq k hk
    obtain rfl := addCheck_iff.mpr hc
    refine .succ ?_
    simp only [elements]
    refine .orYes ih ?_
    simp only [List.length_cons] at hk
    have hk' : ¬ k ≥ 0xFFFFF := by omega
    simp only [if_neg hk']
    have := ihe hq (k + 1) (by omega)
    rw [Nat.add_assoc, Nat.add_comm 1] at this
    cases hs <;> exact .need this (.const _)
  | noMembers r =>
    rintro ⟨q, rfl⟩ ks hk
    refine .succ ?_
    simp only [members, key, P.orElse, keysOf, unitsOf, List.map_nil, List.append_nil, List.flatten_nil]
    exact .const _
  | lastMember hx hks _ hc ih =>
    rintro ⟨q, rfl⟩ ks hk
    obtain rfl := addCheck_iff.mpr hc
    refine .succ ?_
    have hn : ∀ s us, (ks ++ keysOf [(s, us)]).Nodup → s ∉ ks := fun s us h hm =>
      (List.nodup_append.mp h).2.2 _ hm _ (by simp [keysOf]) rfl
    simp only [members, key_of hx, P.orElse, if_neg (hn _ _ hk)]
    cases hks <;>
    · simp only [keysOf, unitsOf, List.map_cons, List.map_nil, List.flatten_cons, List.flatten_nil, List.append_nil]
      exact .need ih (.const _)
  | @moreMembers x s t ts us vs u q ms r hx hks _ hc hs _ ih ihm =>
    rintro hq ks hk
    obtain rfl := addCheck_iff.mpr hc
    refine .succ ?_
    have hn : s ∉ ks := fun hm => (List.nodup_append.mp hk).2.2 _ hm _ (by simp [keysOf]) rfl
    simp only [members, key_of hx, P.orElse, if_neg hn]
    have := ihm hq (ks ++ [s]) (by simpa [keysOf] using hk)
    have e : ks ++ [s] ++ keysOf ms = ks ++ keysOf ((s, addCheck false us) :: ms) := by simp [keysOf]
    rw [e] at this
    cases hks <;> refine .need ih ?_ <;> cases hs <;> exact .need this (.const _)
  | noArgs r =>
    rintro ⟨q, rfl⟩
    refine .succ ?_
    simp only [args, refSpec]
    exact .orNo (expr_no c _ rfl) (.const _)
  | lastArg hs he hc ih =>
    rintro ⟨q, rfl⟩
    obtain rfl := addCheck_iff.mpr hc
    obtain ⟨t, x, rfl, hst⟩ := first he
    refine .succ ?_
    simp only [args, refSpec_of hs hst]
    exact .orYes ih (.const _)
  | moreArgs hs he hc _ ih iha =>
    intro hq
    obtain rfl := addCheck_iff.mpr hc
    obtain ⟨t, x, rfl, hst⟩ := first he
    refine .succ ?_
    simp only [args, refSpec_of hs hst]
    exact .orYes ih (.need (iha hq) (.const _))
  | bare _ ih => exact ⟨_, _, ih, fun z h => h⟩
  | postop _ hp ih =>
    obtain ⟨vs, q, h1, h2⟩ := ih
    refine ⟨vs, q, h1, fun z h => h2 z (.succ ?_)⟩
    simp only [suffixes, postfixOp_iff.mpr hp]
    exact h
  | call _ _ ih iha =>
    obtain ⟨vs, q, h1, h2⟩ := ih
    refine ⟨vs, q, h1, fun z h => h2 z (.succ ?_)⟩
    simp only [suffixes, postfixOp]
    exact .need (iha ⟨_, rfl⟩) (.expect h)
  | index _ _ ih ihe =>
    obtain ⟨vs, q, h1, h2⟩ := ih
    refine ⟨vs, q, h1, fun z h => h2 z (.succ ?_)⟩
    simp only [suffixes, postfixOp]
    exact .need ihe (.expect h)
  | member _ hk ih =>
    obtain ⟨vs, q, h1, h2⟩ := ih
    refine ⟨vs, q, h1, fun z h => h2 z (.succ ?_)⟩
    simp only [suffixes, postfixOp, key_of hk, P.need]
    exact h
  | noPrefix hp ih =>
    intro hr
    obtain ⟨vs, q, h1, h2⟩ := ih
    obtain ⟨t, x, rfl, _, ht⟩ := first hp
    refine .succ ?_
    simp only [elem, prefixes, ht]
    refine .orYes h1 (.need (h2 _ (suffixes_stop hr _)) ?_)
    rw [List.append_nil]
    exact .const _
  | prefixed hp _ ih =>
    intro hr
    exact good_prefix hp (ih hr)
  | operand _ ih =>
    intro e s _ hr
    exact ⟨_, .refl _, fun z h => .need (ih hr) h⟩
  | loosen hp _ ih =>
    intro e s hf hr
    obtain ⟨s', h1, h2⟩ := ih e s (by rcases hf with h | h <;> (left; omega)) hr
    exact ⟨s', h1.mono (by omega), h2⟩
  | binary hb _ _ iha ihb =>
    obtain ⟨el, h1, h2, h3, h4, h5, h6, h7⟩ := binary_infixOne hb
    refine good_op iha ihb (.succ ?_) (stopsPost_binary hb) (h7 _ _) h3 h4 (by omega) (.inl (by omega)) ?_
    · simp only [infixOp, h2, h1]; exact .const _
    · rintro q (h | h) <;> omega
  | assign hb _ _ iha ihb =>
    obtain ⟨el, h1, h2, h3, h4, h7⟩ := assign_infixOne hb
    refine good_op iha ihb (.succ ?_) (stopsPost_assign hb) (h7 _ _) h3 h4 (by omega) (.inr ⟨rfl, rfl⟩) ?_
    · simp only [infixOp, h2, h1]; exact .const _
    · rintro q (h | h) <;> omega
  | @ternary t x ts a q m u b r hq _ _ _ iha ihm ihb =>
    refine good_op (el := .ternary x m []) iha ihb (.succ ?_) (stopsPost_quest hq) rfl rfl rfl (by omega) (.inr ⟨rfl, rfl⟩) ?_
    · simp only [infixOp, questTok_iff.mpr hq]; exact .need ihm (.expect (.const _))
    · rintro q (h | h) <;> omega
  | expr _ hr ih => exact good_expr ih hr
  | cond _ hc ih =>
    obtain rfl := addCheck_iff.mpr hc
    refine ⟨⟨_, rfl⟩, .succ ?_⟩
    simp only [Syntax.cond]
    exact .expect (.need ih (.expect (.const _)))
  | noOpt r =>
    rintro ⟨q, rfl | rfl⟩
    · exact .inr ⟨rfl, rfl, expr_no c _ rfl⟩
    · exact .inr ⟨rfl, rfl, expr_no c _ rfl⟩
  | opt _ ih => intro _; exact .inl ih
  | lastDecl hd _ ih =>
    rintro ⟨q, rfl⟩
    obtain ⟨b, h1, h2⟩ := declarator_of hd
    refine .succ ?_
    simp only [decls, ← h2]
    exact .need ((Ev.const _).congr fun _ => h1) (.need (.need ih (.const _)) (.const _))
  | moreDecls hd _ _ ih ihd =>
    intro hq
    obtain ⟨b, h1, h2⟩ := declarator_of hd
    refine .succ ?_
    simp only [decls, ← h2]
    exact .need ((Ev.const _).congr fun _ => h1) (.need (.need ih (.const _)) (.need (ihd hq) (.const _)))
  | lastUninit hd =>
    rintro ⟨q, rfl⟩
    obtain ⟨b, h1, h2⟩ := declarator_of hd
    refine .succ ?_
    simp only [decls, ← h2]
    exact .need ((Ev.const _).congr fun _ => h1) (.need (.const _) (.const _))
  | moreUninit hd _ ihd =>
    intro hq
    obtain ⟨b, h1, h2⟩ := declarator_of hd
    refine .succ ?_
    simp only [decls, ← h2]
    exact .need ((Ev.const _).congr fun _ => h1) (.need (.const _) (.need (ihd hq) (.const _)))
  | lastRef hd _ ih =>
    rintro ⟨q, rfl⟩
    refine .succ ?_
    simp only [refDecls]
    exact .need ((Ev.const _).congr fun _ => userIdent_of hd _) (.expect (.need ih (.const _)))
  | moreRefs hd _ _ ih ihd =>
    intro hq
    refine .succ ?_
    simp only [refDecls]
    exact .need ((Ev.const _).congr fun _ => userIdent_of hd _) (.expect (.need ih (.need (ihd hq) (.const _))))
  | var _ ih | const _ ih | ref _ ih =>
    refine .succ ?_
    simp only [definition]
    exact .need (ih ⟨_, rfl⟩) (.expect (.const _))
  | noClauses l r =>
    rintro ⟨q, rfl⟩
    refine ⟨rfl, fun sc d _ _ => .succ ?_⟩
    simp only [clauses]
    exact .const _
  | default _ _ ihb ihc =>
    intro hq
    obtain ⟨h1, h2⟩ := ihc hq
    refine ⟨rfl, fun sc d ha hd => .succ ?_⟩
    simp only [clauses]
    simp only [List.filter_cons, isDefault, if_true, List.length_cons] at hd
    cases d with
    | true => simp at hd
    | false =>
      simp only [Bool.false_eq_true, if_false] at hd ⊢
      exact .expect (.need (ihb h1 _ ha.toSwitch) (.need (h2 _ true ha (by simpa using hd)) (.const _)))
  | case _ hc _ _ ihe ihb ihc =>
    intro hq
    obtain ⟨h1, h2⟩ := ihc hq
    obtain rfl := addCheck_iff.mpr hc
    refine ⟨rfl, fun sc d ha hd => .succ ?_⟩
    simp only [clauses]
    simp only [List.filter_cons, isDefault, Bool.false_eq_true, if_false] at hd
    exact .need ihe (.expect (.need (ihb h1 _ ha.toSwitch) (.need (h2 _ d ha hd) (.const _))))
  | each lo up _ hx _ hy _ _ ihx ihy ihb ihc =>
    intro hq
    obtain ⟨h1, h2⟩ := ihc hq
    obtain rfl := addCheck_iff.mpr hx
    obtain rfl := addCheck_iff.mpr hy
    refine ⟨rfl, fun sc d ha hd => .succ ?_⟩
    simp only [clauses]
    simp only [List.filter_cons, isDefault, Bool.false_eq_true, if_false] at hd
    refine .need (a := (.each lo up, addCheck false _, addCheck false _)) (.succ ?_)
      (.expect (.need (ihb h1 _ ha.toSwitch) (.need (h2 _ d ha hd) (.const _))))
    simp only [interval]
    cases lo <;> cases up <;> exact .need (.const _) (.need ihx (.expect (.need ihy (.const _))))
  | exprStmt _ ih =>
    refine .succ ?_
    simp only [exprStmt]
    exact .orYes ih (.expect (.const _))
  | initDef _ ih =>
    refine .succ ?_
    simp only [forInit]
    exact .orYes ih (.const _)
  | initNull r =>
    refine .succ (.succ ?_)
    simp only [forInit, definition_no (.inr (.inl rfl)), P.orElse]
    exact .const _
  | initExpr he ih =>
    obtain ⟨t, q, rfl, ht⟩ := first he
    refine .succ ?_
    simp only [forInit]
    refine .orNo (.succ ?_) ?_
    · simp only [definition_no (.inl (by simp [startsStmt, ht] : startsStmt t = true))]
      exact .const _
    · split
      · rename_i he; cases he; cases ht
      · exact ih
  | body _ hb ih => intro sc ha; exact ⟨_, block_of hb, ih sc ha⟩
  | ifOnly hn _ _ hr ihc ihb =>
    intro sc ha
    obtain ⟨⟨x, hx⟩, hc⟩ := ihc
    obtain ⟨s, rfl, hs⟩ := ihb sc ha
    refine .succ ?_
    simp only [nondecl, negation_of hn hx]
    refine .need hc (.need hs (.need ?_ (.const _)))
    split
    · exact absurd rfl (hr _ _ rfl)
    · exact .const _
  | ifElse hn _ _ _ ihc ihb ihf =>
    intro sc ha
    obtain ⟨⟨x, hx⟩, hc⟩ := ihc
    obtain ⟨s, rfl, hs⟩ := ihb sc ha
    obtain ⟨f, rfl, hf⟩ := ihf sc ha
    refine .succ ?_
    simp only [nondecl, negation_of hn hx]
    exact .need hc (.need hs (.need (.need hf (.const _)) (.const _)))
  | noComplete l r h =>
    intro sc ha
    refine ⟨false, .succ (Ev.congr (.const _) fun n => ?_)⟩
    unfold complete
    split
    · rename_i he; cases he
    · exact absurd rfl (h _ _ rfl)
    · rfl
  | complete _ ih =>
    intro sc ha
    obtain ⟨s, rfl, hs⟩ := ih sc ha
    refine ⟨true, .succ ?_⟩
    simp only [complete]
    exact .need hs (.const _)
  | switch _ _ hd ihc ihs =>
    intro sc ha
    obtain ⟨_, h2⟩ := ihs ⟨_, rfl⟩
    refine .succ ?_
    simp only [nondecl]
    exact .need ihc.2 (.expect (.need (h2 sc false ha (by simpa using hd)) (.expect (.const _))))
  | @doWhile l ts b q n m us r _ hn _ ihb ihc =>
    intro sc ha
    obtain ⟨⟨x, hx⟩, hc⟩ := ihc
    obtain ⟨s, rfl, hs⟩ := ihb _ ha.toWhile
    refine .succ ?_
    simp only [nondecl]
    refine .need hs (.expectKw ?_)
    simp only [negation_of hn hx]
    refine .need hc (.need (a := (false, [])) (q := .p .semicol :: r) (.succ ?_) ?_)
    · simp only [complete]; exact .const _
    · simp only [Bool.false_eq_true, if_false]
      exact .expect (.const _)
  | @doComplete l ts b q n m us e k r _ hn _ _ ihb ihc ihk =>
    intro sc ha
    obtain ⟨⟨x, hx⟩, hc⟩ := ihc
    obtain ⟨s, rfl, hs⟩ := ihb _ ha.toWhile
    obtain ⟨s', rfl, hk⟩ := ihk _ ha
    refine .succ ?_
    simp only [nondecl]
    refine .need hs (.expectKw ?_)
    simp only [negation_of hn hx]
    refine .need hc (.need (a := (true, blockify s')) (q := r) (.succ ?_) ?_)
    · simp only [complete]; exact .need hk (.const _)
    · simp only [if_true]
      exact .const _
  | «while» hn _ _ _ ihc ihb ihk =>
    intro sc ha
    obtain ⟨⟨x, hx⟩, hc⟩ := ihc
    obtain ⟨s, rfl, hs⟩ := ihb _ ha.toWhile
    obtain ⟨_, hk⟩ := ihk _ ha
    refine .succ ?_
    simp only [nondecl, negation_of hn hx]
    exact .need hc (.need hs (.need hk (.const _)))
  | forEach hn _ _ _ ihe ihb ihk =>
    intro sc ha
    obtain ⟨s, rfl, hs⟩ := ihb _ ha.toFor
    obtain ⟨_, hk⟩ := ihk _ ha
    refine .succ ?_
    simp only [nondecl]
    refine .succ ?_
    simp only [forStmt]
    refine .expect ?_
    cases hn with
    | one r h1 =>
      refine .need ((Ev.const _).congr fun _ => userIdent_of h1 _) (.need (.const _) ?_)
      exact .expect (.need ihe (.expect (.need hs (.need hk (.const _)))))
    | comma r h1 h2 | colon r h1 h2 | equal r h1 h2 =>
      refine .need ((Ev.const _).congr fun _ => userIdent_of h1 _) (.need (.need ((Ev.const _).congr fun _ => userIdent_of h2 _)
        (.const _)) ?_)
      exact .expect (.need ihe (.expect (.need hs (.need hk (.const _)))))
  | @forTriplet l ts i q us vs m ws x b e k r hi _ hc _ _ _ ihi ihu ihw ihb ihk =>
    intro sc ha
    obtain rfl := addCheck_iff.mpr hc
    obtain ⟨s, rfl, hs⟩ := ihb _ ha.toFor
    obtain ⟨_, hk⟩ := ihk _ ha
    obtain ⟨t, x', rfl, ht⟩ := first hi
    refine .succ ?_
    simp only [nondecl]
    refine .succ ?_
    simp only [forStmt]
    refine .expect ?_
    split
    · rename_i he; cases he; exact absurd rfl ht
    · have h1 : Ev (fun n => (expr c n q).orElse (fun us ts => .yes (addCheck false us) ts) (.yes [] q))
          (.yes (addCheck false us) (.p .semicol :: m)) := by
        rcases ihu ⟨_, .inl rfl⟩ with h | ⟨rfl, rfl, h⟩
        · exact .orYes h (.const _)
        · exact .orNo h (.const _)
      have h2 : Ev (fun n => (expr c n m).orElse (fun us ts => .yes us ts) (.yes [] m)) (.yes ws (.p .parCl :: x)) := by
        rcases ihw ⟨_, .inr rfl⟩ with h | ⟨rfl, rfl, h⟩
        · exact .orYes h (.const _)
        · exact .orNo h (.const _)
      exact .need ihi (.need h1 (.expect (.need h2 (.expect (.need hs (.need hk (.const _)))))))
  | «break» h1 h2 =>
    intro sc ha
    refine .succ ?_
    simp only [nondecl, breakStmt_of ha h1 h2]
    exact .const _
  | «continue» h1 h2 =>
    intro sc ha
    refine .succ ?_
    simp only [nondecl, contStmt_of ha h1 h2]
    exact .const _
  | throw _ hc ih =>
    intro sc ha
    obtain rfl := addCheck_iff.mpr hc
    refine .succ ?_
    simp only [nondecl]
    exact .need ih (.expect (.const _))
  | returnVoid r =>
    intro sc ha
    refine .succ ?_
    simp only [nondecl, refSpec, Bool.false_eq_true, if_false]
    exact .need (.orNo (expr_no c _ rfl) (.const _)) (.expect (.const _))
  | «return» hs he ih =>
    intro sc ha
    obtain ⟨t, x, rfl, hst⟩ := first he
    refine .succ ?_
    simp only [nondecl, refSpec_of hs hst]
    exact .need (.orYes ih (.const _)) (.expect (.const _))
  | assert _ hc hm ih =>
    intro sc ha
    obtain rfl := addCheck_iff.mpr hc
    refine .succ ?_
    simp only [nondecl]
    refine .need ih ?_
    cases hm <;>
    · simp only [assertMsg]
      exact .expect (.const _)
  | «try» _ hd _ ihb ihh =>
    intro sc ha
    obtain ⟨s, rfl, hs⟩ := ihb _ ha
    obtain ⟨s', rfl, hs'⟩ := ihh _ ha
    refine .succ ?_
    simp only [nondecl]
    exact .need hs (.expectKw (.expect (.need ((Ev.const _).congr fun _ => userIdent_of hd _) (.expect (.need hs' (.const _))))))
  | block _ ih =>
    intro sc ha
    refine .succ ?_
    simp only [nondecl]
    exact .need (ih rfl sc ha) (.expect (.const _))
  | expression he hb ih =>
    intro sc ha
    obtain ⟨t, q, rfl, ht⟩ := first he
    refine .succ ?_
    simp only [nondecl_expr ht (hb _ _ rfl)]
    exact ih
  | define _ ih =>
    intro sc ha
    refine .succ ?_
    simp only [stmt]
    exact .orYes ih (.const _)
  | function hd hp hn _ ih =>
    intro sc ha
    refine .succ ?_
    simp only [stmt]
    refine .orNo (.succ ?_) (.succ ?_)
    · simp only [definition]; exact .const _
    · simp only [function]
      exact .need ((Ev.const _).congr fun _ => userIdent_of hd _) (.expect (.need ((Ev.const _).congr fun _ => params_ok hp hn)
        (.expect (.expect (.need (ih rfl _ agree_plain) (.expect (.const _)))))))
  | defer _ ih =>
    intro sc ha
    refine .succ ?_
    simp only [stmt]
    refine .orNo (.succ ?_) (.need ih (.expect (.const _)))
    simp only [definition]; exact .const _
  | null r =>
    intro sc ha
    refine .succ ?_
    simp only [stmt]
    refine .orNo (.succ ?_) (.const _)
    simp only [definition]; exact .const _
  | nondecl hn hf ih =>
    intro sc ha
    obtain ⟨t, q, rfl, ht⟩ := first hn
    have h := ih sc ha
    refine .succ (.succ ?_)
    simp only [stmt_nondecl ht (hf _ _ rfl)]
    obtain ⟨N, h⟩ := h
    exact ⟨N, fun n hn => h (n + 1) (by omega)⟩
  | done l r => intro hr sc _; exact stmts_end hr
  | next _ _ ihs iht =>
    intro hr sc ha
    refine .succ ?_
    simp only [stmts]
    exact .orYes (ihs sc ha) (.need (iht hr sc ha) (.const _))

end Asteria.Script
