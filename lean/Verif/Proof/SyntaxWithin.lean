import Verif.Proof.SyntaxMono

/-!
# What the model of the parser leaves out

Scripts without `__vcall` and `import` are within the model.
-/

namespace Asteria.Syntax

open Compile
open _root_.Asteria.Parser (Punct)

/-- No `__vcall`, no `import`. -/
def Within (ts : List Tok) : Prop := .k .vcall ∉ ts ∧ .k .import_ ∉ ts

/-- Neither the result nor the tokens that are left are outside the model. -/
def Safe {α : Type} (x : P α) : Prop := x ≠ .out ∧ ∀ a r, x = .yes a r → Within r

theorem Within.tail {t ts} (h : Within (t :: ts)) : Within ts :=
  ⟨fun h' => h.1 (.tail _ h'), fun h' => h.2 (.tail _ h')⟩

theorem Within.negation {ts} (h : Within ts) : Within (negation ts).2 := by
  unfold Syntax.negation; split <;> first | exact h.tail | exact h

theorem Within.refSpec {ts} (h : Within ts) : Within (refSpec ts).2 := by
  unfold Syntax.refSpec; split <;> first | exact h.tail | exact h

theorem Within.prefixes : ∀ {ts} acc, Within ts → Within (prefixes acc ts).2
  | [], _, h => h
  | t :: ts, acc, h => by
    rw [Syntax.prefixes]
    split
    · exact Within.prefixes _ h.tail
    · exact h

theorem Within.strings : ∀ {ts}, Within ts → Within (strings ts).2
  | [], h => h
  | t :: ts, h => by
    cases t with
    | str s => rw [Syntax.strings]; exact Within.strings h.tail
    | _ => exact h

section
variable {α β : Type}

theorem safe_throw : Safe (.throw : P α) := ⟨by simp, by simp⟩
theorem safe_no : Safe (.no : P α) := ⟨by simp, by simp⟩
theorem safe_fuel : Safe (.fuel : P α) := ⟨by simp, by simp⟩
theorem safe_yes {a : α} {r} (h : Within r) : Safe (.yes a r) := ⟨by simp, by rintro _ _ h'; cases h'; exact h⟩

theorem Safe.need {x : P α} {f : α → List Tok → P β} (h : Safe x) (hf : ∀ a r, Within r → Safe (f a r)) : Safe (x.need f) := by
  cases x with
  | yes a r => exact hf a r (h.2 a r rfl)
  | out => exact absurd rfl h.1
  | no => exact safe_throw
  | throw => exact safe_throw
  | fuel => exact safe_fuel

theorem Safe.orElse {x : P α} {f : α → List Tok → P β} {y : P β} (h : Safe x) (hf : ∀ a r, Within r → Safe (f a r))
    (h' : Safe y) : Safe (x.orElse f y) := by
  cases x with
  | yes a r => exact hf a r (h.2 a r rfl)
  | out => exact absurd rfl h.1
  | no => exact h'
  | throw => exact safe_throw
  | fuel => exact safe_fuel

theorem Safe.expect {x : Punct} {ts : List Tok} {f : List Tok → P β} (h : Within ts) (hf : ∀ r, Within r → Safe (f r)) :
    Safe (expect x ts f) := by
  unfold Syntax.expect
  split
  · split
    · exact hf _ h.tail
    · exact safe_throw
  · exact safe_throw

theorem Safe.expectKw {x : Kw} {ts : List Tok} {f : List Tok → P β} (h : Within ts) (hf : ∀ r, Within r → Safe (f r)) :
    Safe (expectKw x ts f) := by
  unfold Syntax.expectKw
  split
  · split
    · exact hf _ h.tail
    · exact safe_throw
  · exact safe_throw

theorem Safe.assertMsg {ts : List Tok} {f : List Tok → P β} (h : Within ts) (hf : ∀ r, Within r → Safe (f r)) :
    Safe (assertMsg ts f) := by
  unfold Syntax.assertMsg
  split
  · split
    · exact hf _ h.tail.tail
    · exact safe_throw
  · exact hf _ h

end

theorem safe_userIdent {c ts} (h : Within ts) : Safe (userIdent c ts) := by
  unfold userIdent
  split
  · exact safe_throw
  · split
    · exact safe_throw
    · exact safe_yes h.tail
  · exact safe_no

theorem safe_anyIdent {c ts} (h : Within ts) : Safe (anyIdent c ts) := by
  unfold anyIdent
  split
  · exact safe_yes h.tail
  · exact safe_no

theorem safe_key {ts} (h : Within ts) : Safe (key ts) := by
  unfold key
  split <;> first | exact safe_yes h.tail | exact safe_no

theorem safe_literal {ts} (h : Within ts) : Safe (literal ts) := by
  unfold literal
  split <;> first | exact safe_yes h.strings | exact safe_yes h.tail | exact safe_no

theorem safe_names {c} : ∀ (k : Nat) (ts : List Tok) acc, ts.length ≤ k → Within ts → Safe (names c acc ts) := by
  intro k
  induction k with
  | zero =>
    intro ts acc hk h
    match ts with
    | [] => rw [names] <;> first | exact safe_yes h | simp
  | succ k ih =>
    intro ts acc hk h
    unfold names
    split
    · exact safe_throw
    · split
      · exact safe_throw
      · split
        · refine ih _ _ ?_ h.tail.tail
          simp only [List.length_cons] at hk
          omega
        · exact safe_yes h.tail
    · exact safe_yes h

theorem safe_params {c} : ∀ (k : Nat) (ts : List Tok) acc, ts.length ≤ k → Within ts → Safe (params c acc ts) := by
  intro k
  induction k with
  | zero =>
    intro ts acc hk h
    match ts with
    | [] => rw [params] <;> first | exact safe_yes h | simp
  | succ k ih =>
    intro ts acc hk h
    unfold params
    split
    · exact safe_yes h.tail
    · exact safe_throw
    · split
      · exact safe_throw
      · split
        · refine ih _ _ ?_ h.tail.tail
          simp only [List.length_cons] at hk
          omega
        · exact safe_yes h.tail
    · exact safe_yes h

theorem safe_declarator {c ts} (h : Within ts) : Safe (declarator c ts) := by
  unfold declarator
  refine (safe_userIdent h).orElse (fun _ _ h => safe_yes h) ?_
  split
  · refine (safe_names _ _ _ (Nat.le_refl _) h.tail).need fun _ _ h => ?_
    split
    · exact safe_throw
    · exact .expect h fun _ h => safe_yes h
  · refine (safe_names _ _ _ (Nat.le_refl _) h.tail).need fun _ _ h => ?_
    split
    · exact safe_throw
    · exact .expect h fun _ h => safe_yes h
  · exact safe_no

theorem safe_breakStmt {sc ts} (h : Within ts) : Safe (breakStmt sc ts) := by
  unfold breakStmt
  split <;> (dsimp only; split) <;> first
    | exact safe_throw
    | exact .expect h.tail fun _ h => safe_yes h
    | exact .expect h fun _ h => safe_yes h

theorem safe_contStmt {sc ts} (h : Within ts) : Safe (contStmt sc ts) := by
  unfold contStmt
  split <;> (dsimp only; split) <;> first
    | exact safe_throw
    | exact .expect h.tail fun _ h => safe_yes h
    | exact .expect h fun _ h => safe_yes h

/-- All functions. -/
structure Safes (c : Cfg) (n : Nat) : Prop where
  expr : ∀ ts, Within ts → Safe (Syntax.expr c n ts)
  infixLoop : ∀ s ts, Within ts → Safe (Syntax.infixLoop c n s ts)
  infixOp : ∀ ts, Within ts → Safe (Syntax.infixOp c n ts)
  elem : ∀ ts, Within ts → Safe (Syntax.elem c n ts)
  primary : ∀ ts, Within ts → Safe (Syntax.primary c n ts)
  closure : ∀ ts, Within ts → Safe (Syntax.closure c n ts)
  elements : ∀ k ts, Within ts → Safe (Syntax.elements c n k ts)
  members : ∀ ks ts, Within ts → Safe (Syntax.members c n ks ts)
  suffixes : ∀ us ts, Within ts → Safe (Syntax.suffixes c n us ts)
  args : ∀ ts, Within ts → Safe (Syntax.args c n ts)
  cond : ∀ ts, Within ts → Safe (Syntax.cond c n ts)
  decls : ∀ imm ts, Within ts → Safe (Syntax.decls c imm n ts)
  refDecls : ∀ ts, Within ts → Safe (Syntax.refDecls c n ts)
  definition : ∀ ts, Within ts → Safe (Syntax.definition c n ts)
  function : ∀ ts, Within ts → Safe (Syntax.function c n ts)
  clauses : ∀ sc d ts, Within ts → Safe (Syntax.clauses c sc n d ts)
  interval : ∀ ts, Within ts → Safe (Syntax.interval c n ts)
  complete : ∀ sc ts, Within ts → Safe (Syntax.complete c sc n ts)
  forStmt : ∀ sc ts, Within ts → Safe (Syntax.forStmt c sc n ts)
  forInit : ∀ ts, Within ts → Safe (Syntax.forInit c n ts)
  exprStmt : ∀ ts, Within ts → Safe (Syntax.exprStmt c n ts)
  nondecl : ∀ sc ts, Within ts → Safe (Syntax.nondecl c sc n ts)
  stmt : ∀ sc ts, Within ts → Safe (Syntax.stmt c sc n ts)
  stmts : ∀ sc ts, Within ts → Safe (Syntax.stmts c n sc ts)

theorem Safes.zero (c : Cfg) : Safes c 0 := by
  constructor <;> intros <;> simp only [Syntax.expr, Syntax.infixLoop, Syntax.infixOp, Syntax.elem, Syntax.primary, Syntax.closure, Syntax.elements, Syntax.members, Syntax.suffixes, Syntax.args, Syntax.cond, Syntax.decls, Syntax.refDecls, Syntax.definition, Syntax.function, Syntax.clauses, Syntax.interval, Syntax.complete, Syntax.forStmt, Syntax.forInit, Syntax.exprStmt, Syntax.nondecl, Syntax.stmt, Syntax.stmts] <;> exact safe_fuel

/-- Shows that tokens are within the model. -/
macro "within" : tactic => `(tactic| first
  | assumption
  | exact Within.tail (by assumption)
  | exact Within.tail (Within.tail (by assumption))
  | exact Within.negation (by assumption)
  | exact Within.negation (Within.tail (by assumption))
  | exact Within.refSpec (by assumption)
  | exact Within.refSpec (Within.tail (by assumption))
  | exact Within.prefixes _ (by assumption))

/-- Follows the shape of a function. -/
macro "safe" ih:ident : tactic => `(tactic| repeat' first
  | exact safe_throw
  | exact safe_no
  | exact safe_fuel
  | exact safe_yes (by within)
  | exact safe_userIdent (by within)
  | exact safe_anyIdent (by within)
  | exact safe_key (by within)
  | exact safe_literal (by within)
  | exact safe_declarator (by within)
  | exact safe_breakStmt (by within)
  | exact safe_contStmt (by within)
  | exact safe_params _ _ _ (Nat.le_refl _) (by within)
  | exact Safes.expr $ih _ (by within)
  | exact Safes.infixLoop $ih _ _ (by within)
  | exact Safes.infixOp $ih _ (by within)
  | exact Safes.elem $ih _ (by within)
  | exact Safes.primary $ih _ (by within)
  | exact Safes.closure $ih _ (by within)
  | exact Safes.elements $ih _ _ (by within)
  | exact Safes.members $ih _ _ (by within)
  | exact Safes.suffixes $ih _ _ (by within)
  | exact Safes.args $ih _ (by within)
  | exact Safes.cond $ih _ (by within)
  | exact Safes.decls $ih _ _ (by within)
  | exact Safes.refDecls $ih _ (by within)
  | exact Safes.definition $ih _ (by within)
  | exact Safes.function $ih _ (by within)
  | exact Safes.clauses $ih _ _ _ (by within)
  | exact Safes.interval $ih _ (by within)
  | exact Safes.complete $ih _ _ (by within)
  | exact Safes.forStmt $ih _ _ (by within)
  | exact Safes.forInit $ih _ (by within)
  | exact Safes.exprStmt $ih _ (by within)
  | exact Safes.nondecl $ih _ _ (by within)
  | exact Safes.stmt $ih _ _ (by within)
  | exact Safes.stmts $ih _ _ (by within)
  | refine Safe.expect (by within) fun _ _ => ?_
  | refine Safe.expectKw (by within) fun _ _ => ?_
  | refine Safe.assertMsg (by within) fun _ _ => ?_
  | refine Safe.need ?_ fun _ _ _ => ?_
  | refine Safe.orElse ?_ (fun _ _ _ => ?_) ?_
  | split
  | (dsimp only; split))

section
variable {c : Cfg} {n : Nat}

theorem safe_expr (ih : Safes c n) : ∀ ts, Within ts → Safe (Syntax.expr c (n + 1) ts) := by
  intro ts h
  simp only [Syntax.expr]; safe ih

theorem safe_infixLoop (ih : Safes c n) : ∀ s ts, Within ts → Safe (Syntax.infixLoop c (n + 1) s ts) := by
  intro s ts h
  simp only [Syntax.infixLoop]; safe ih

theorem safe_infixOp (ih : Safes c n) : ∀ ts, Within ts → Safe (Syntax.infixOp c (n + 1) ts) := by
  intro ts h
  cases ts <;> simp only [Syntax.infixOp] <;> safe ih

theorem safe_elem (ih : Safes c n) : ∀ ts, Within ts → Safe (Syntax.elem c (n + 1) ts) := by
  intro ts h
  simp only [Syntax.elem]; safe ih

theorem safe_primary (ih : Safes c n) : ∀ ts, Within ts → Safe (Syntax.primary c (n + 1) ts) := by
  intro ts h
  match ts with
  | [] => simp only [Syntax.primary]; exact safe_no
  | t :: ts =>
    unfold Syntax.primary
    split
    · safe ih
    · have h' := h.tail
      split <;> first
        | exact absurd (.head _) h.1
        | exact absurd (.head _) h.2
        | (refine Safe.orElse (safe_literal h) (fun _ _ _ => safe_yes (by assumption)) safe_no)
        | safe ih

theorem safe_closure (ih : Safes c n) : ∀ ts, Within ts → Safe (Syntax.closure c (n + 1) ts) := by
  intro ts h
  simp only [Syntax.closure]; safe ih

theorem safe_elements (ih : Safes c n) : ∀ k ts, Within ts → Safe (Syntax.elements c (n + 1) k ts) := by
  intro k ts h
  simp only [Syntax.elements]; safe ih

theorem safe_members (ih : Safes c n) : ∀ ks ts, Within ts → Safe (Syntax.members c (n + 1) ks ts) := by
  intro ks ts h
  simp only [Syntax.members]; safe ih
  rename_i hr
  refine ih.expr _ ?_
  split at hr <;> cases hr <;> within

theorem safe_suffixes (ih : Safes c n) : ∀ us ts, Within ts → Safe (Syntax.suffixes c (n + 1) us ts) := by
  intro us ts h
  cases ts <;> simp only [Syntax.suffixes] <;> safe ih

theorem safe_args (ih : Safes c n) : ∀ ts, Within ts → Safe (Syntax.args c (n + 1) ts) := by
  intro ts h
  simp only [Syntax.args]; safe ih

theorem safe_cond (ih : Safes c n) : ∀ ts, Within ts → Safe (Syntax.cond c (n + 1) ts) := by
  intro ts h
  simp only [Syntax.cond]; safe ih

theorem safe_decls (ih : Safes c n) : ∀ imm ts, Within ts → Safe (Syntax.decls c imm (n + 1) ts) := by
  intro imm ts h
  simp only [Syntax.decls]; safe ih

theorem safe_refDecls (ih : Safes c n) : ∀ ts, Within ts → Safe (Syntax.refDecls c (n + 1) ts) := by
  intro ts h
  simp only [Syntax.refDecls]; safe ih

theorem safe_definition (ih : Safes c n) : ∀ ts, Within ts → Safe (Syntax.definition c (n + 1) ts) := by
  intro ts h
  unfold Syntax.definition; pos <;> safe ih

theorem safe_function (ih : Safes c n) : ∀ ts, Within ts → Safe (Syntax.function c (n + 1) ts) := by
  intro ts h
  simp only [Syntax.function]; safe ih

theorem safe_clauses (ih : Safes c n) : ∀ sc d ts, Within ts → Safe (Syntax.clauses c sc (n + 1) d ts) := by
  intro sc d ts h
  simp only [Syntax.clauses]; safe ih

theorem safe_interval (ih : Safes c n) : ∀ ts, Within ts → Safe (Syntax.interval c (n + 1) ts) := by
  intro ts h
  simp only [Syntax.interval]; safe ih

theorem safe_complete (ih : Safes c n) : ∀ sc ts, Within ts → Safe (Syntax.complete c sc (n + 1) ts) := by
  intro sc ts h
  unfold Syntax.complete; pos <;> safe ih

theorem safe_forStmt (ih : Safes c n) : ∀ sc ts, Within ts → Safe (Syntax.forStmt c sc (n + 1) ts) := by
  intro sc ts h
  simp only [Syntax.forStmt]; safe ih

theorem safe_forInit (ih : Safes c n) : ∀ ts, Within ts → Safe (Syntax.forInit c (n + 1) ts) := by
  intro ts h
  simp only [Syntax.forInit]; safe ih

theorem safe_exprStmt (ih : Safes c n) : ∀ ts, Within ts → Safe (Syntax.exprStmt c (n + 1) ts) := by
  intro ts h
  simp only [Syntax.exprStmt]; safe ih

theorem safe_nondecl (ih : Safes c n) : ∀ sc ts, Within ts → Safe (Syntax.nondecl c sc (n + 1) ts) := by
  intro sc ts h
  simp only [Syntax.nondecl]; safe ih

theorem safe_stmt (ih : Safes c n) : ∀ sc ts, Within ts → Safe (Syntax.stmt c sc (n + 1) ts) := by
  intro sc ts h
  simp only [Syntax.stmt]; safe ih

theorem safe_stmts (ih : Safes c n) : ∀ sc ts, Within ts → Safe (Syntax.stmts c (n + 1) sc ts) := by
  intro sc ts h
  simp only [Syntax.stmts]; safe ih

end

theorem safes (c : Cfg) : ∀ n, Safes c n
  | 0 => Safes.zero c
  | n + 1 =>
    have ih := safes c n
    { expr := safe_expr ih, infixLoop := safe_infixLoop ih, infixOp := safe_infixOp ih, elem := safe_elem ih, primary := safe_primary ih, closure := safe_closure ih, 
      elements := safe_elements ih, members := safe_members ih, suffixes := safe_suffixes ih, args := safe_args ih, cond := safe_cond ih, decls := safe_decls ih, refDecls := safe_refDecls ih, 
      definition := safe_definition ih, function := safe_function ih, clauses := safe_clauses ih, interval := safe_interval ih, complete := safe_complete ih, 
      forStmt := safe_forStmt ih, forInit := safe_forInit ih, exprStmt := safe_exprStmt ih, nondecl := safe_nondecl ih, stmt := safe_stmt ih, stmts := safe_stmts ih }

end Asteria.Syntax
