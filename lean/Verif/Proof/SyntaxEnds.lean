import Verif.Proof.Syntax

/-!
# The parser ends

Every function of the parser leaves fewer tokens than it was given, or as many, so a bound for the recursion is known.
-/

namespace Asteria.Syntax

open Compile
open _root_.Asteria.Parser (Punct)
open Exec (Name)

/-- The bound has not been exceeded, and fewer tokens than a number are left. -/
def Fin {α : Type} (k : Nat) : P α → Prop
  | .yes _ r => r.length < k
  | .fuel => False
  | _ => True

section
variable {α β : Type} {k k' : Nat}

theorem Fin.need {x : P α} {f : α → List Tok → P β} (h : Fin k x) (hf : ∀ a r, r.length < k → Fin k' (f a r)) :
    Fin k' (x.need f) := by
  cases x with
  | yes a r => exact hf a r h
  | fuel => exact h.elim
  | _ => trivial

theorem Fin.orElse {x : P α} {f : α → List Tok → P β} {g : P β} (h : Fin k x) (hf : ∀ a r, r.length < k → Fin k' (f a r))
    (hg : Fin k' g) : Fin k' (x.orElse f g) := by
  cases x with
  | yes a r => exact hf a r h
  | fuel => exact h.elim
  | no => exact hg
  | _ => trivial

theorem Fin.expect {x : Punct} {ts : List Tok} {f : List Tok → P β} (hf : ∀ r, r.length < ts.length → Fin k' (f r)) :
    Fin k' (expect x ts f) := by
  unfold Syntax.expect
  split
  · split
    · exact hf _ (by simp)
    · trivial
  · trivial

theorem Fin.expectKw {x : Kw} {ts : List Tok} {f : List Tok → P β} (hf : ∀ r, r.length < ts.length → Fin k' (f r)) :
    Fin k' (expectKw x ts f) := by
  unfold Syntax.expectKw
  split
  · split
    · exact hf _ (by simp)
    · trivial
  · trivial

theorem Fin.le {x : P α} (h : Fin k x) (hk : k ≤ k') : Fin k' x := by
  cases x with
  | yes a r => exact Nat.lt_of_lt_of_le h hk
  | fuel => exact h
  | _ => trivial

theorem Fin.yes {a : α} {r : List Tok} (h : r.length < k) : Fin k (.yes a r) := h
theorem Fin.throw : Fin k (.throw : P α) := trivial
theorem Fin.no : Fin k (.no : P α) := trivial
theorem Fin.out : Fin k (.out : P α) := trivial

theorem fin_userIdent (c : Cfg) (ts : List Tok) : Fin ts.length (userIdent c ts) := by
  unfold userIdent
  split
  · trivial
  · split
    · trivial
    · exact Fin.yes (by simp)
  · trivial

theorem fin_anyIdent (c : Cfg) (ts : List Tok) : Fin ts.length (anyIdent c ts) := by
  unfold anyIdent
  split
  · exact Fin.yes (by simp)
  · trivial

theorem fin_key (ts : List Tok) : Fin ts.length (key ts) := by
  unfold key
  split <;> first | trivial | exact Fin.yes (by simp)

theorem strings_le : ∀ ts : List Tok, (strings ts).2.length ≤ ts.length
  | [] => by simp [strings]
  | t :: ts => by
    have := strings_le ts
    cases t <;> simp [strings]
    omega

theorem fin_literal (ts : List Tok) : Fin ts.length (literal ts) := by
  unfold literal
  split
  case h_6 s ts =>
    refine Fin.yes ?_
    have := strings_le ts
    simp [strings]; omega
  all_goals first | trivial | exact Fin.yes (by simp)

theorem negation_le (ts : List Tok) : (negation ts).2.length ≤ ts.length := by
  unfold negation; split <;> simp

theorem refSpec_le (ts : List Tok) : (refSpec ts).2.length ≤ ts.length := by
  unfold refSpec; split <;> simp

theorem prefixes_le : ∀ (ts : List Tok) (acc : List U), (prefixes acc ts).2.length ≤ ts.length
  | [], _ => by simp [prefixes]
  | t :: ts, acc => by
    unfold prefixes
    split
    · have := prefixes_le ts (.op ‹_› false :: acc); simp; omega
    · simp

theorem fin_names (c : Cfg) : ∀ (n : Nat) (acc : List Name) (ts : List Tok), ts.length ≤ n → Fin (ts.length + 1) (names c acc ts) := by
  intro n
  induction n with
  | zero =>
    intro acc ts h
    have : ts = [] := List.length_eq_zero_iff.1 (by omega)
    subst this
    simp [names, Fin]
  | succ n ih =>
    intro acc ts h
    unfold names
    split
    · trivial
    · split
      · trivial
      · split
        · refine (ih _ _ (by simp at h; omega)).le (by simp)
        · exact Fin.yes (by simp; omega)
    · exact Fin.yes (by simp)

theorem fin_params (c : Cfg) : ∀ (n : Nat) (acc : List Name) (ts : List Tok), ts.length ≤ n → Fin (ts.length + 1) (params c acc ts) := by
  intro n
  induction n with
  | zero =>
    intro acc ts h
    have : ts = [] := List.length_eq_zero_iff.1 (by omega)
    subst this
    simp [params, Fin]
  | succ n ih =>
    intro acc ts h
    unfold params
    split
    · exact Fin.yes (by simp; omega)
    · trivial
    · split
      · trivial
      · split
        · refine (ih _ _ (by simp at h; omega)).le (by simp)
        · exact Fin.yes (by simp; omega)
    · exact Fin.yes (by simp)

theorem fin_declarator (c : Cfg) (ts : List Tok) : Fin ts.length (declarator c ts) := by
  unfold declarator
  refine (fin_userIdent c ts).orElse (fun a r h => Fin.yes h) ?_
  split
  · refine (fin_names c _ _ _ (Nat.le_refl _)).need fun a r h => ?_
    split
    · trivial
    · exact Fin.expect fun r' h' => Fin.yes (by simp; omega)
  · refine (fin_names c _ _ _ (Nat.le_refl _)).need fun a r h => ?_
    split
    · trivial
    · exact Fin.expect fun r' h' => Fin.yes (by simp; omega)
  · trivial

theorem fin_breakStmt (sc : Scope) (ts : List Tok) : Fin (ts.length + 1) (breakStmt sc ts) := by
  unfold breakStmt
  dsimp only
  split <;> split <;> first | trivial | exact Fin.expect fun r h => Fin.yes (by simp at *; omega)

theorem fin_contStmt (sc : Scope) (ts : List Tok) : Fin (ts.length + 1) (contStmt sc ts) := by
  unfold contStmt
  dsimp only
  split <;> split <;> first | trivial | exact Fin.expect fun r h => Fin.yes (by simp at *; omega)

theorem Fin.assertMsg {ts : List Tok} {f : List Tok → P β} (hf : ∀ r, r.length ≤ ts.length → Fin k' (f r)) :
    Fin k' (assertMsg ts f) := by
  unfold Syntax.assertMsg
  split
  · split
    · exact hf _ (by simp; omega)
    · trivial
  · exact hf _ (Nat.le_refl _)

end

/-- Every function ends if the bound is large enough for the number of tokens, and leaves fewer tokens, or not more. -/
structure Ends (c : Cfg) (n : Nat) : Prop where
  expr : ∀ ts, 8 * ts.length + 3 ≤ n → Fin ts.length (expr c n ts)
  infixLoop : ∀ s ts, 8 * ts.length + 2 ≤ n → Fin (ts.length + 1) (infixLoop c n s ts)
  infixOp : ∀ ts, 8 * ts.length + 1 ≤ n → Fin ts.length (infixOp c n ts)
  elem : ∀ ts, 8 * ts.length + 2 ≤ n → Fin ts.length (elem c n ts)
  primary : ∀ ts, 8 * ts.length + 1 ≤ n → Fin ts.length (primary c n ts)
  closure : ∀ ts, 8 * ts.length + 1 ≤ n → Fin ts.length (closure c n ts)
  elements : ∀ k ts, 8 * ts.length + 4 ≤ n → Fin (ts.length + 1) (elements c n k ts)
  members : ∀ ks ts, 8 * ts.length + 1 ≤ n → Fin (ts.length + 1) (members c n ks ts)
  suffixes : ∀ us ts, 8 * ts.length + 1 ≤ n → Fin (ts.length + 1) (suffixes c n us ts)
  args : ∀ ts, 8 * ts.length + 4 ≤ n → Fin (ts.length + 1) (args c n ts)
  cond : ∀ ts, 8 * ts.length + 1 ≤ n → Fin ts.length (cond c n ts)
  decls : ∀ imm ts, 8 * ts.length + 1 ≤ n → Fin ts.length (decls c imm n ts)
  refDecls : ∀ ts, 8 * ts.length + 1 ≤ n → Fin ts.length (refDecls c n ts)
  definition : ∀ ts, 8 * ts.length + 1 ≤ n → Fin ts.length (definition c n ts)
  function : ∀ ts, 8 * ts.length + 1 ≤ n → Fin ts.length (function c n ts)
  clauses : ∀ sc d ts, 8 * ts.length + 1 ≤ n → Fin (ts.length + 1) (clauses c sc n d ts)
  interval : ∀ ts, 8 * ts.length + 1 ≤ n → Fin ts.length (interval c n ts)
  complete : ∀ sc ts, 8 * ts.length + 1 ≤ n → Fin (ts.length + 1) (complete c sc n ts)
  forStmt : ∀ sc ts, 8 * ts.length + 1 ≤ n → Fin ts.length (forStmt c sc n ts)
  forInit : ∀ ts, 8 * ts.length + 5 ≤ n → Fin ts.length (forInit c n ts)
  exprStmt : ∀ ts, 8 * ts.length + 4 ≤ n → Fin ts.length (exprStmt c n ts)
  nondecl : ∀ sc ts, 8 * ts.length + 5 ≤ n → Fin ts.length (nondecl c sc n ts)
  stmt : ∀ sc ts, 8 * ts.length + 6 ≤ n → Fin ts.length (stmt c sc n ts)
  stmts : ∀ sc ts, 8 * ts.length + 7 ≤ n → Fin (ts.length + 1) (stmts c n sc ts)

theorem Ends.zero (c : Cfg) : Ends c 0 := by
  constructor <;> intros <;> omega

/-- Lengths are compared. -/
macro "len" : tactic => `(tactic| first
  | omega
  | (simp only [List.length_cons, List.length_nil] at *; omega))

/-- The bound is not zero. -/
macro "pos" : tactic => `(tactic| (split <;> first
  | (exfalso; exact Nat.succ_ne_zero _ ‹_ + 1 = 0›)
  | cases ‹_ + 1 = Nat.succ _›))

/-- Follows the shape of a function. -/
macro "walk" ih:ident : tactic => `(tactic| repeat' first
  | exact Fin.throw
  | exact Fin.no
  | exact Fin.out
  | (refine Fin.yes ?_; len)
  | (refine Fin.expect fun _ _ => ?_)
  | (refine Fin.expectKw fun _ _ => ?_)
  | (refine Fin.assertMsg fun _ _ => ?_)
  | (refine Fin.need (Ends.expr $ih _ (by len)) fun _ _ _ => ?_)
  | (refine Fin.need (Ends.nondecl $ih _ _ (by len)) fun _ _ _ => ?_)
  | (refine Fin.need (Ends.stmts $ih _ _ (by len)) fun _ _ _ => ?_)
  | (refine Fin.need (Ends.complete $ih _ _ (by len)) fun _ _ _ => ?_)
  | (refine Fin.need (Ends.clauses $ih _ _ _ (by len)) fun _ _ _ => ?_)
  | (refine Fin.need (Ends.cond $ih _ (by len)) fun _ _ _ => ?_)
  | (refine Fin.need (Ends.interval $ih _ (by len)) fun _ _ _ => ?_)
  | (refine Fin.need (Ends.forInit $ih _ (by len)) fun _ _ _ => ?_)
  | (refine Fin.need (Ends.elements $ih _ _ (by len)) fun _ _ _ => ?_)
  | (refine Fin.need (Ends.members $ih _ _ (by len)) fun _ _ _ => ?_)
  | (refine Fin.need (Ends.args $ih _ (by len)) fun _ _ _ => ?_)
  | (refine Fin.need (Ends.decls $ih _ _ (by len)) fun _ _ _ => ?_)
  | (refine Fin.need (Ends.refDecls $ih _ (by len)) fun _ _ _ => ?_)
  | (refine Fin.need (Ends.suffixes $ih _ _ (by len)) fun _ _ _ => ?_)
  | (refine Fin.need (Ends.elem $ih _ (by len)) fun _ _ _ => ?_)
  | (refine Fin.need (fin_userIdent _ _) fun _ _ _ => ?_)
  | (refine Fin.need (fin_anyIdent _ _) fun _ _ _ => ?_)
  | (refine Fin.need (fin_key _) fun _ _ _ => ?_)
  | (refine Fin.need (fin_declarator _ _) fun _ _ _ => ?_)
  | (refine Fin.need (fin_params _ _ _ _ (Nat.le_refl _)) fun _ _ _ => ?_)
  | (refine Fin.orElse (Ends.expr $ih _ (by len)) (fun _ _ _ => ?_) ?_)
  | (refine Fin.orElse (fin_key _) (fun _ _ _ => ?_) ?_)
  | (refine Fin.orElse (fin_literal _) (fun _ _ _ => ?_) ?_)
  | (refine Fin.orElse (Ends.elem $ih _ (by len)) (fun _ _ _ => ?_) ?_)
  | (refine Fin.orElse (Ends.primary $ih _ (by len)) (fun _ _ _ => ?_) ?_)
  | (refine Fin.orElse (Ends.infixOp $ih _ (by len)) (fun _ _ _ => ?_) ?_)
  | (refine Fin.orElse (Ends.definition $ih _ (by len)) (fun _ _ _ => ?_) ?_)
  | (refine Fin.orElse (Ends.stmt $ih _ _ (by len)) (fun _ _ _ => ?_) ?_)
  | (refine Fin.le (Ends.infixLoop $ih _ _ (by len)) (by len))
  | (refine Fin.le (Ends.suffixes $ih _ _ (by len)) (by len))
  | (refine Fin.le (Ends.closure $ih _ (by len)) (by len))
  | (refine Fin.le (Ends.exprStmt $ih _ (by len)) (by len))
  | (refine Fin.le (Ends.nondecl $ih _ _ (by len)) (by len))
  | (refine Fin.le (Ends.forStmt $ih _ _ (by len)) (by len))
  | (refine Fin.le (Ends.function $ih _ (by len)) (by len))
  | (refine Fin.le (fin_breakStmt _ _) (by len))
  | (refine Fin.le (fin_contStmt _ _) (by len))
  | split
  | (dsimp only; split))

section
variable {c : Cfg} {n : Nat}

theorem ends_expr (ih : Ends c n) (ts : List Tok) (h : 8 * ts.length + 3 ≤ n + 1) : Fin ts.length (expr c (n + 1) ts) := by
  unfold expr; walk ih

theorem ends_infixLoop (ih : Ends c n) (s : List El) (ts : List Tok) (h : 8 * ts.length + 2 ≤ n + 1) :
    Fin (ts.length + 1) (infixLoop c (n + 1) s ts) := by
  unfold infixLoop; walk ih

theorem ends_infixOp (ih : Ends c n) (ts : List Tok) (h : 8 * ts.length + 1 ≤ n + 1) : Fin ts.length (infixOp c (n + 1) ts) := by
  unfold infixOp; pos <;> walk ih

theorem ends_elem (ih : Ends c n) (ts : List Tok) (h : 8 * ts.length + 2 ≤ n + 1) : Fin ts.length (elem c (n + 1) ts) := by
  have := prefixes_le ts []
  unfold elem; walk ih

theorem ends_primary (ih : Ends c n) (ts : List Tok) (h : 8 * ts.length + 1 ≤ n + 1) : Fin ts.length (primary c (n + 1) ts) := by
  unfold primary; pos <;> walk ih

theorem ends_closure (ih : Ends c n) (ts : List Tok) (h : 8 * ts.length + 1 ≤ n + 1) : Fin ts.length (closure c (n + 1) ts) := by
  unfold closure; walk ih

theorem ends_elements (ih : Ends c n) (k : Nat) (ts : List Tok) (h : 8 * ts.length + 4 ≤ n + 1) :
    Fin (ts.length + 1) (elements c (n + 1) k ts) := by
  unfold elements; walk ih

theorem ends_members (ih : Ends c n) (ks : List Bytes) (ts : List Tok) (h : 8 * ts.length + 1 ≤ n + 1) :
    Fin (ts.length + 1) (members c (n + 1) ks ts) := by
  unfold members; walk ih

theorem ends_suffixes (ih : Ends c n) (us : List U) (ts : List Tok) (h : 8 * ts.length + 1 ≤ n + 1) :
    Fin (ts.length + 1) (suffixes c (n + 1) us ts) := by
  unfold suffixes; pos <;> walk ih

theorem ends_args (ih : Ends c n) (ts : List Tok) (h : 8 * ts.length + 4 ≤ n + 1) : Fin (ts.length + 1) (args c (n + 1) ts) := by
  have := refSpec_le ts
  unfold args; walk ih

theorem ends_cond (ih : Ends c n) (ts : List Tok) (h : 8 * ts.length + 1 ≤ n + 1) : Fin ts.length (cond c (n + 1) ts) := by
  unfold cond; walk ih

theorem ends_refDecls (ih : Ends c n) (ts : List Tok) (h : 8 * ts.length + 1 ≤ n + 1) : Fin ts.length (refDecls c (n + 1) ts) := by
  unfold refDecls; walk ih

theorem ends_definition (ih : Ends c n) (ts : List Tok) (h : 8 * ts.length + 1 ≤ n + 1) :
    Fin ts.length (definition c (n + 1) ts) := by
  unfold definition; pos <;> walk ih

theorem ends_function (ih : Ends c n) (ts : List Tok) (h : 8 * ts.length + 1 ≤ n + 1) :
    Fin ts.length (function c (n + 1) ts) := by
  unfold function; walk ih

theorem ends_clauses (ih : Ends c n) (sc : Scope) (d : Bool) (ts : List Tok) (h : 8 * ts.length + 1 ≤ n + 1) :
    Fin (ts.length + 1) (clauses c sc (n + 1) d ts) := by
  unfold clauses; walk ih

theorem ends_complete (ih : Ends c n) (sc : Scope) (ts : List Tok) (h : 8 * ts.length + 1 ≤ n + 1) :
    Fin (ts.length + 1) (complete c sc (n + 1) ts) := by
  unfold complete; pos <;> walk ih

theorem ends_forInit (ih : Ends c n) (ts : List Tok) (h : 8 * ts.length + 5 ≤ n + 1) : Fin ts.length (forInit c (n + 1) ts) := by
  unfold forInit; walk ih

theorem ends_exprStmt (ih : Ends c n) (ts : List Tok) (h : 8 * ts.length + 4 ≤ n + 1) : Fin ts.length (exprStmt c (n + 1) ts) := by
  unfold exprStmt; walk ih

theorem ends_stmt (ih : Ends c n) (sc : Scope) (ts : List Tok) (h : 8 * ts.length + 6 ≤ n + 1) :
    Fin ts.length (stmt c sc (n + 1) ts) := by
  unfold stmt; walk ih

theorem ends_stmts (ih : Ends c n) (sc : Scope) (ts : List Tok) (h : 8 * ts.length + 7 ≤ n + 1) :
    Fin (ts.length + 1) (stmts c (n + 1) sc ts) := by
  unfold stmts; walk ih

theorem ends_decls (ih : Ends c n) (imm : Bool) (ts : List Tok) (h : 8 * ts.length + 1 ≤ n + 1) :
    Fin ts.length (decls c imm (n + 1) ts) := by
  unfold decls
  refine (fin_declarator c ts).need fun b t1 h1 => Fin.need (k := t1.length + 1) ?_ fun us t2 h2 => ?_ <;> walk ih

theorem ends_interval (ih : Ends c n) (ts : List Tok) (h : 8 * ts.length + 1 ≤ n + 1) :
    Fin ts.length (interval c (n + 1) ts) := by
  unfold interval
  refine Fin.need (k := ts.length) ?_ fun us t2 h2 => ?_ <;> walk ih

theorem ends_forStmt (ih : Ends c n) (sc : Scope) (ts : List Tok) (h : 8 * ts.length + 1 ≤ n + 1) :
    Fin ts.length (forStmt c sc (n + 1) ts) := by
  unfold forStmt
  refine Fin.expect fun t1 h1 => ?_
  split
  · refine (fin_userIdent c _).need fun i t2 h2 => Fin.need (k := t2.length + 1) ?_ fun q t3 h3 => ?_ <;> walk ih
  · refine (ih.forInit _ (by len)).need fun i t2 h2 => Fin.need (k := t2.length + 1) ?_ fun us t3 h3 => ?_
    · walk ih
    · refine Fin.expect fun t4 h4 => Fin.need (k := t4.length + 1) ?_ fun vs t5 h5 => ?_ <;> walk ih

theorem ends_nondecl (ih : Ends c n) (sc : Scope) (ts : List Tok) (h : 8 * ts.length + 5 ≤ n + 1) :
    Fin ts.length (nondecl c sc (n + 1) ts) := by
  unfold nondecl
  split
  case h_1 ts =>
    have := negation_le ts
    refine (ih.cond _ (by len)).need fun us t1 h1 => (ih.nondecl _ _ (by len)).need fun b t2 h2 =>
      Fin.need (k := t2.length + 1) ?_ fun f t3 h3 => ?_ <;> walk ih
  case h_3 ts =>
    refine (ih.nondecl _ _ (by len)).need fun b t1 h1 => Fin.expectKw fun t2 h2 => ?_
    have := negation_le t2
    walk ih
  case h_4 ts =>
    have := negation_le ts
    walk ih
  case h_9 ts =>
    have := refSpec_le ts
    refine Fin.need (k := ts.length + 1) ?_ fun us t1 h1 => ?_ <;> walk ih
  all_goals walk ih

end

theorem ends (c : Cfg) : ∀ n, Ends c n
  | 0 => Ends.zero c
  | n + 1 =>
    have ih := ends c n
    { expr := ends_expr ih, infixLoop := ends_infixLoop ih, infixOp := ends_infixOp ih, elem := ends_elem ih,
      primary := ends_primary ih, closure := ends_closure ih, elements := ends_elements ih, members := ends_members ih,
      suffixes := ends_suffixes ih, args := ends_args ih, cond := ends_cond ih, decls := ends_decls ih,
      refDecls := ends_refDecls ih, definition := ends_definition ih, function := ends_function ih,
      clauses := ends_clauses ih, interval := ends_interval ih, complete := ends_complete ih, forStmt := ends_forStmt ih,
      forInit := ends_forInit ih, exprStmt := ends_exprStmt ih, nondecl := ends_nondecl ih, stmt := ends_stmt ih,
      stmts := ends_stmts ih }

end Asteria.Syntax
