import Verif.Proof.SyntaxEnds

/-!
# The bound for the recursion of the parser does not matter

A larger bound gives the same result.
-/

namespace Asteria.Syntax

open Compile
open _root_.Asteria.Parser (Punct)

/-- The bound was exceeded on the left, or both are the same. -/
def Le {α : Type} (x y : P α) : Prop := x = .fuel ∨ x = y

section
variable {α β : Type}

theorem Le.refl (x : P α) : Le x x := .inr rfl

theorem Le.need {x y : P α} {f g : α → List Tok → P β} (h : Le x y) (hf : ∀ a r, Le (f a r) (g a r)) :
    Le (x.need f) (y.need g) := by
  rcases h with rfl | rfl
  · exact .inl rfl
  · cases x <;> first | exact hf _ _ | exact Le.refl _

theorem Le.orElse {x y : P α} {f g : α → List Tok → P β} {x' y' : P β} (h : Le x y) (hf : ∀ a r, Le (f a r) (g a r))
    (h' : Le x' y') : Le (x.orElse f x') (y.orElse g y') := by
  rcases h with rfl | rfl
  · exact .inl rfl
  · cases x <;> first | exact hf _ _ | exact Le.refl _ | exact h'

theorem Le.expect {x : Punct} {ts : List Tok} {f g : List Tok → P β} (hf : ∀ r, Le (f r) (g r)) :
    Le (expect x ts f) (expect x ts g) := by
  unfold Syntax.expect
  split
  · split
    · exact hf _
    · exact Le.refl _
  · exact Le.refl _

theorem Le.expectKw {x : Kw} {ts : List Tok} {f g : List Tok → P β} (hf : ∀ r, Le (f r) (g r)) :
    Le (expectKw x ts f) (expectKw x ts g) := by
  unfold Syntax.expectKw
  split
  · split
    · exact hf _
    · exact Le.refl _
  · exact Le.refl _

theorem Le.assertMsg {ts : List Tok} {f g : List Tok → P β} (hf : ∀ r, Le (f r) (g r)) :
    Le (assertMsg ts f) (assertMsg ts g) := by
  unfold Syntax.assertMsg
  split
  · split
    · exact hf _
    · exact Le.refl _
  · exact hf _

end

/-- A larger bound by one. -/
structure Mono (c : Cfg) (n : Nat) : Prop where
  expr : ∀ ts, Le (expr c n ts) (expr c (n + 1) ts)
  infixLoop : ∀ s ts, Le (infixLoop c n s ts) (infixLoop c (n + 1) s ts)
  infixOp : ∀ ts, Le (infixOp c n ts) (infixOp c (n + 1) ts)
  elem : ∀ ts, Le (elem c n ts) (elem c (n + 1) ts)
  primary : ∀ ts, Le (primary c n ts) (primary c (n + 1) ts)
  closure : ∀ ts, Le (closure c n ts) (closure c (n + 1) ts)
  elements : ∀ k ts, Le (elements c n k ts) (elements c (n + 1) k ts)
  members : ∀ ks ts, Le (members c n ks ts) (members c (n + 1) ks ts)
  suffixes : ∀ us ts, Le (suffixes c n us ts) (suffixes c (n + 1) us ts)
  args : ∀ ts, Le (args c n ts) (args c (n + 1) ts)
  cond : ∀ ts, Le (cond c n ts) (cond c (n + 1) ts)
  decls : ∀ imm ts, Le (decls c imm n ts) (decls c imm (n + 1) ts)
  refDecls : ∀ ts, Le (refDecls c n ts) (refDecls c (n + 1) ts)
  definition : ∀ ts, Le (definition c n ts) (definition c (n + 1) ts)
  function : ∀ ts, Le (function c n ts) (function c (n + 1) ts)
  clauses : ∀ sc d ts, Le (clauses c sc n d ts) (clauses c sc (n + 1) d ts)
  interval : ∀ ts, Le (interval c n ts) (interval c (n + 1) ts)
  complete : ∀ sc ts, Le (complete c sc n ts) (complete c sc (n + 1) ts)
  forStmt : ∀ sc ts, Le (forStmt c sc n ts) (forStmt c sc (n + 1) ts)
  forInit : ∀ ts, Le (forInit c n ts) (forInit c (n + 1) ts)
  exprStmt : ∀ ts, Le (exprStmt c n ts) (exprStmt c (n + 1) ts)
  nondecl : ∀ sc ts, Le (nondecl c sc n ts) (nondecl c sc (n + 1) ts)
  stmt : ∀ sc ts, Le (stmt c sc n ts) (stmt c sc (n + 1) ts)
  stmts : ∀ sc ts, Le (stmts c n sc ts) (stmts c (n + 1) sc ts)

theorem Mono.zero (c : Cfg) : Mono c 0 := by
  constructor <;> intros <;> exact .inl (by simp only [
    Syntax.expr, Syntax.infixLoop, Syntax.infixOp, Syntax.elem, Syntax.primary, Syntax.closure, Syntax.elements,
    Syntax.members, Syntax.suffixes, Syntax.args, Syntax.cond, Syntax.decls, Syntax.refDecls, Syntax.definition,
    Syntax.function, Syntax.clauses, Syntax.interval, Syntax.complete, Syntax.forStmt, Syntax.forInit,
    Syntax.exprStmt, Syntax.nondecl, Syntax.stmt, Syntax.stmts])

/-- Follows the shape of a function. -/
macro "pair" ih:ident : tactic => `(tactic| repeat' first
  | exact Le.refl _
  | exact Mono.expr $ih _
  | exact Mono.infixLoop $ih _ _
  | exact Mono.infixOp $ih _
  | exact Mono.elem $ih _
  | exact Mono.primary $ih _
  | exact Mono.closure $ih _
  | exact Mono.elements $ih _ _
  | exact Mono.members $ih _ _
  | exact Mono.suffixes $ih _ _
  | exact Mono.args $ih _
  | exact Mono.cond $ih _
  | exact Mono.decls $ih _ _
  | exact Mono.refDecls $ih _
  | exact Mono.definition $ih _
  | exact Mono.function $ih _
  | exact Mono.clauses $ih _ _ _
  | exact Mono.interval $ih _
  | exact Mono.complete $ih _ _
  | exact Mono.forStmt $ih _ _
  | exact Mono.forInit $ih _
  | exact Mono.exprStmt $ih _
  | exact Mono.nondecl $ih _ _
  | exact Mono.stmt $ih _ _
  | exact Mono.stmts $ih _ _
  | refine Le.expect fun _ => ?_
  | refine Le.expectKw fun _ => ?_
  | refine Le.assertMsg fun _ => ?_
  | refine Le.need ?_ fun _ _ => ?_
  | refine Le.orElse ?_ (fun _ _ => ?_) ?_
  | split
  | (dsimp only; split))

section
variable {c : Cfg} {n : Nat}

theorem mono_expr (ih : Mono c n) (ts : List Tok) : Le (expr c (n + 1) ts) (expr c (n + 2) ts) := by
  simp only [expr]; pair ih

theorem mono_infixLoop (ih : Mono c n) (s : List El) (ts : List Tok) : Le (infixLoop c (n + 1) s ts) (infixLoop c (n + 2) s ts) := by
  simp only [infixLoop]; pair ih

theorem mono_infixOp (ih : Mono c n) (ts : List Tok) : Le (infixOp c (n + 1) ts) (infixOp c (n + 2) ts) := by
  cases ts <;> simp only [infixOp] <;> pair ih

theorem mono_elem (ih : Mono c n) (ts : List Tok) : Le (elem c (n + 1) ts) (elem c (n + 2) ts) := by
  simp only [elem]; pair ih

theorem mono_primary (ih : Mono c n) (ts : List Tok) : Le (primary c (n + 1) ts) (primary c (n + 2) ts) := by
  cases ts <;> simp only [primary] <;> pair ih

theorem mono_closure (ih : Mono c n) (ts : List Tok) : Le (closure c (n + 1) ts) (closure c (n + 2) ts) := by
  simp only [closure]; pair ih

theorem mono_elements (ih : Mono c n) (k : Nat) (ts : List Tok) : Le (elements c (n + 1) k ts) (elements c (n + 2) k ts) := by
  simp only [elements]; pair ih

theorem mono_members (ih : Mono c n) (ks : List Bytes) (ts : List Tok) : Le (members c (n + 1) ks ts) (members c (n + 2) ks ts) := by
  simp only [members]; pair ih

theorem mono_suffixes (ih : Mono c n) (us : List U) (ts : List Tok) : Le (suffixes c (n + 1) us ts) (suffixes c (n + 2) us ts) := by
  cases ts <;> simp only [suffixes] <;> pair ih

theorem mono_args (ih : Mono c n) (ts : List Tok) : Le (args c (n + 1) ts) (args c (n + 2) ts) := by
  simp only [args]; pair ih

theorem mono_cond (ih : Mono c n) (ts : List Tok) : Le (cond c (n + 1) ts) (cond c (n + 2) ts) := by
  simp only [cond]; pair ih

theorem mono_decls (ih : Mono c n) (imm : Bool) (ts : List Tok) : Le (decls c imm (n + 1) ts) (decls c imm (n + 2) ts) := by
  simp only [decls]; pair ih

theorem mono_refDecls (ih : Mono c n) (ts : List Tok) : Le (refDecls c (n + 1) ts) (refDecls c (n + 2) ts) := by
  simp only [refDecls]; pair ih

theorem mono_definition (ih : Mono c n) (ts : List Tok) : Le (definition c (n + 1) ts) (definition c (n + 2) ts) := by
  unfold definition; pos <;> pair ih

theorem mono_function (ih : Mono c n) (ts : List Tok) : Le (function c (n + 1) ts) (function c (n + 2) ts) := by
  simp only [function]; pair ih

theorem mono_clauses (ih : Mono c n) (sc : Scope) (d : Bool) (ts : List Tok) : Le (clauses c sc (n + 1) d ts) (clauses c sc (n + 2) d ts) := by
  simp only [clauses]; pair ih

theorem mono_interval (ih : Mono c n) (ts : List Tok) : Le (interval c (n + 1) ts) (interval c (n + 2) ts) := by
  simp only [interval]; pair ih

theorem mono_complete (ih : Mono c n) (sc : Scope) (ts : List Tok) : Le (complete c sc (n + 1) ts) (complete c sc (n + 2) ts) := by
  unfold complete; pos <;> pair ih

theorem mono_forStmt (ih : Mono c n) (sc : Scope) (ts : List Tok) : Le (forStmt c sc (n + 1) ts) (forStmt c sc (n + 2) ts) := by
  simp only [forStmt]; pair ih

theorem mono_forInit (ih : Mono c n) (ts : List Tok) : Le (forInit c (n + 1) ts) (forInit c (n + 2) ts) := by
  simp only [forInit]; pair ih

theorem mono_exprStmt (ih : Mono c n) (ts : List Tok) : Le (exprStmt c (n + 1) ts) (exprStmt c (n + 2) ts) := by
  simp only [exprStmt]; pair ih

theorem mono_nondecl (ih : Mono c n) (sc : Scope) (ts : List Tok) : Le (nondecl c sc (n + 1) ts) (nondecl c sc (n + 2) ts) := by
  simp only [nondecl]; pair ih

theorem mono_stmt (ih : Mono c n) (sc : Scope) (ts : List Tok) : Le (stmt c sc (n + 1) ts) (stmt c sc (n + 2) ts) := by
  simp only [stmt]; pair ih

theorem mono_stmts (ih : Mono c n) (sc : Scope) (ts : List Tok) : Le (stmts c (n + 1) sc ts) (stmts c (n + 2) sc ts) := by
  simp only [stmts]; pair ih

end

theorem mono (c : Cfg) : ∀ n, Mono c n
  | 0 => Mono.zero c
  | n + 1 =>
    have ih := mono c n
    { expr := mono_expr ih, infixLoop := mono_infixLoop ih, infixOp := mono_infixOp ih, elem := mono_elem ih,
      primary := mono_primary ih, closure := mono_closure ih, elements := mono_elements ih,
      members := mono_members ih, suffixes := mono_suffixes ih, args := mono_args ih, cond := mono_cond ih,
      decls := mono_decls ih, refDecls := mono_refDecls ih, definition := mono_definition ih,
      function := mono_function ih, clauses := mono_clauses ih, interval := mono_interval ih,
      complete := mono_complete ih, forStmt := mono_forStmt ih, forInit := mono_forInit ih,
      exprStmt := mono_exprStmt ih, nondecl := mono_nondecl ih, stmt := mono_stmt ih, stmts := mono_stmts ih }

end Asteria.Syntax
