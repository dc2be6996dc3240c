import Verif.Spec.Syntax

/-!
# What the parser accepts is well-formed
-/

namespace Asteria.Syntax

open Compile
open _root_.Asteria.Parser (Punct Xop infixGeneral)
open Exec (Name ClauseKind)

/-! ### Inversion -/

theorem need_yes {α β : Type} {x : P α} {f : α → List Tok → P β} {b : β} {r : List Tok} :
    x.need f = .yes b r ↔ ∃ a ts, x = .yes a ts ∧ f a ts = .yes b r := by
  cases x <;> simp [P.need]

theorem orElse_yes {α β : Type} {x : P α} {f : α → List Tok → P β} {g : P β} {b : β} {r : List Tok} :
    x.orElse f g = .yes b r ↔ (∃ a ts, x = .yes a ts ∧ f a ts = .yes b r) ∨ x = .no ∧ g = .yes b r := by
  cases x <;> simp [P.orElse]

theorem expect_yes {β : Type} {x : Punct} {ts : List Tok} {f : List Tok → P β} {b : β} {r : List Tok} :
    expect x ts f = .yes b r ↔ ∃ ts', ts = .p x :: ts' ∧ f ts' = .yes b r := by
  unfold expect
  constructor
  · intro h
    split at h
    · split at h
      · next h' => subst h'; exact ⟨_, rfl, h⟩
      · cases h
    · cases h
  · rintro ⟨ts', rfl, h⟩; simpa using h

theorem expectKw_yes {β : Type} {x : Kw} {ts : List Tok} {f : List Tok → P β} {b : β} {r : List Tok} :
    expectKw x ts f = .yes b r ↔ ∃ ts', ts = .k x :: ts' ∧ f ts' = .yes b r := by
  unfold expectKw
  constructor
  · intro h
    split at h
    · split at h
      · next h' => subst h'; exact ⟨_, rfl, h⟩
      · cases h
    · cases h
  · rintro ⟨ts', rfl, h⟩; simpa using h

/-! ### Expressions -/

section
variable {X : Type} {ar : X → Nat} {o : Opts}

theorem effects_append (us vs : List (XUnit X)) (n : Nat) :
    effects ar (us ++ vs) n = (effects ar us n).bind (effects ar vs) := by
  induction us generalizing n with
  | nil => rfl
  | cons u us ih =>
    simp only [List.cons_append, effects]
    cases effect ar u n with
    | none => rfl
    | some m => exact ih m

theorem wfUs_append {us vs : List (XUnit X)} (h : WfUs o ar us) (h' : WfUs o ar vs) : WfUs o ar (us ++ vs) := by
  induction us with
  | nil => exact h'
  | cons u us ih => simp only [List.cons_append, WfUs] at h ⊢; exact ⟨h.1, ih h.2⟩

theorem jumpUs_append {us vs : List (XUnit X)} (h : JumpUs us) (h' : JumpUs vs) : JumpUs (us ++ vs) := by
  induction us with
  | nil => exact h'
  | cons u us ih => simp only [List.cons_append, JumpUs] at h ⊢; exact ⟨h.1, ih h.2⟩

theorem wfSs_append {a b : List (Stmt X)} (h : WfSs o ar a) (h' : WfSs o ar b) : WfSs o ar (a ++ b) := by
  induction a with
  | nil => exact h'
  | cons u us ih => simp only [List.cons_append, WfSs] at h ⊢; exact ⟨h.1, ih h.2⟩

theorem jumpSs_append {l : List Around} {a b : List (Stmt X)} (h : JumpSs l a) (h' : JumpSs l b) : JumpSs l (a ++ b) := by
  induction a with
  | nil => exact h'
  | cons u us ih => simp only [List.cons_append, JumpSs] at h ⊢; exact ⟨h.1, ih h.2⟩
end

/-- A number of operands is pushed. -/
structure Has (o : Opts) (k : Nat) (us : List U) : Prop where
  wf : WfUs o arity us
  jump : JumpUs us
  eff : ∀ n, effects arity us n = some (n + k)

section
variable {o : Opts}

theorem Has.nil : Has o 0 [] := ⟨trivial, trivial, fun _ => rfl⟩

theorem Has.append {a b : Nat} {us vs : List U} (h : Has o a us) (h' : Has o b vs) : Has o (a + b) (us ++ vs) :=
  ⟨wfUs_append h.wf h'.wf, jumpUs_append h.jump h'.jump, fun n => by
    rw [effects_append, h.eff]; simp [h'.eff, Nat.add_assoc]⟩

theorem Has.snoc {a b : Nat} {us : List U} {u : U} (h : Has o a us) (h1 : WfU o arity u) (h2 : JumpU u)
    (h3 : ∀ n, effect arity u (n + a) = some (n + b)) : Has o b (us ++ [u]) :=
  ⟨wfUs_append h.wf (by simpa [WfUs] using h1), jumpUs_append h.jump (by simpa [JumpUs] using h2), fun n => by
    rw [effects_append, h.eff]; simp [effects, h3]⟩

theorem Has.op {us : List U} {x : Xop} {a : Bool} (h : Has o (arity x) us) : Has o 1 (us ++ [.op x a]) := by
  refine h.snoc (by simp [WfU]) (by simp [JumpU]) fun n => ?_
  have : 1 ≤ arity x := by cases x <;> decide
  simp only [effect]
  rw [if_pos ⟨this, by omega⟩]; congr 1; omega

theorem Has.unit {u : U} (h1 : WfU o arity u) (h2 : JumpU u) (h3 : ∀ n, effect arity u n = some (n + 1)) : Has o 1 [u] :=
  Has.snoc (us := []) Has.nil h1 h2 h3

theorem Has.one {us : List U} (h : Has o 1 us) : Compile.one arity us := by have := h.eff 0; rwa [Nat.zero_add] at this

theorem Has.some {us : List U} {k : Nat} (h : Has o k us) : (effects arity us 0).isSome := by rw [h.eff]; rfl

theorem Has.check {us : List U} {b : Bool} (h : Has o 1 us) : Has o 1 (addCheck b us) := by
  unfold addCheck
  split
  · exact h.snoc (by simp [WfU]) (by simp [JumpU]) fun n => by simp [effect]
  · exact h

theorem Has.branch {lhs : List U} {bs : List (Branch Xop)} {a : Bool} (h : Has o 1 lhs) (h1 : WfBs o arity bs)
    (h2 : JumpBs bs) : Has o 1 (lhs ++ [.branch bs a]) :=
  h.snoc (by simpa [WfU] using h1) (by simpa [JumpU] using h2) fun n => by simp [effect]

/-- Elements of an expression whose right operand is not known. -/
def ElPre (o : Opts) : El → Prop
  | .head _ => False
  | .ternary _ t _ => Has o 1 t
  | .general x _ _ => arity x = 2
  | _ => True

/-- The stack of elements. -/
def StackOk (o : Opts) : List El → Prop
  | [] => False
  | [.head us] => Has o 1 us
  | e :: s => (ElPre o e ∧ Has o 1 e.junction) ∧ StackOk o s

theorem stackOk_cons {e : El} {s : List El} (hs : s ≠ []) :
    StackOk o (e :: s) ↔ (ElPre o e ∧ Has o 1 e.junction) ∧ StackOk o s := by
  cases s with
  | nil => exact absurd rfl hs
  | cons d s => cases e <;> simp [StackOk]

theorem StackOk.one {e : El} (h : StackOk o [e]) : ∃ us, e = .head us ∧ Has o 1 us := by
  cases e <;> simp_all [StackOk]

theorem extract_ok {e : El} {lhs : List U} (h : Has o 1 lhs) (hp : ElPre o e) (hj : Has o 1 e.junction) :
    Has o 1 (e.extract lhs) := by
  cases e with
  | head us => exact hp.elim
  | ternary a t f =>
    have hp : Has o 1 t := hp
    exact h.branch (by simp only [WfBs]; exact ⟨⟨hp.wf, .inr hp.one⟩, ⟨hj.wf, .inr hj.one⟩, trivial⟩)
      (by simp only [JumpBs]; exact ⟨hp.jump, hj.jump, trivial⟩)
  | andl a t => exact h.branch (by simp only [WfBs]; exact ⟨⟨hj.wf, .inr hj.one⟩, trivial⟩) (by simp only [JumpBs]; exact ⟨hj.jump, trivial⟩)
  | orl a t => exact h.branch (by simp only [WfBs]; exact ⟨⟨hj.wf, .inr hj.one⟩, trivial⟩) (by simp only [JumpBs]; exact ⟨hj.jump, trivial⟩)
  | coales a t => exact h.branch (by simp only [WfBs]; exact ⟨⟨hj.wf, .inr hj.one⟩, trivial⟩) (by simp only [JumpBs]; exact ⟨hj.jump, trivial⟩)
  | general x a rhs =>
    have := h.append hj
    exact Has.op (by rw [show arity x = 1 + 1 from hp]; exact this)

theorem junction_set (e : El) (us : List U) : (e.setJunction us).junction = us := by cases e <;> rfl

theorem pre_set {e : El} {us : List U} : ElPre o (e.setJunction us) ↔ ElPre o e := by cases e <;> rfl

theorem popOne_ok {e d : El} {s : List El} (h : StackOk o (e :: d :: s)) : StackOk o (popOne (e :: d :: s)) := by
  rw [stackOk_cons (by simp)] at h
  obtain ⟨⟨h1, h2⟩, h3⟩ := h
  simp only [popOne]
  cases s with
  | nil =>
    obtain ⟨us, rfl, h4⟩ := h3.one
    exact extract_ok h4 h1 h2
  | cons d' s =>
    rw [stackOk_cons (by simp)] at h3 ⊢
    refine ⟨⟨pre_set.2 h3.1.1, ?_⟩, h3.2⟩
    rw [junction_set]
    exact extract_ok h3.1.2 h1 h2

theorem collapse_ok (next : Nat) : ∀ (n : Nat) (s : List El), StackOk o s → StackOk o (collapse next n s)
  | 0, s, h => h
  | n + 1, [], h => h.elim
  | n + 1, [e], h => by simpa [collapse] using h
  | n + 1, e :: d :: s, h => by
    simp only [collapse]
    split
    · exact collapse_ok next n _ (popOne_ok h)
    · exact h

theorem collapseAll_ok : ∀ (s : List El), StackOk o s → Has o 1 (collapseAll s.length s)
  | [], h => h.elim
  | [e], h => by
    obtain ⟨us, rfl, h1⟩ := h.one
    simpa [collapseAll, El.extract] using h1
  | e :: d :: s, h => by
    have : collapseAll (e :: d :: s).length (e :: d :: s) = collapseAll (popOne (e :: d :: s)).length (popOne (e :: d :: s)) := by
      simp [collapseAll, popOne]
    rw [this]
    exact collapseAll_ok _ (popOne_ok h)
termination_by s => s.length
decreasing_by simp [popOne]

theorem stack_ne {s : List El} (h : StackOk o s) : s ≠ [] := by rintro rfl; exact h

theorem prefixes_ok : ∀ (ts : List Tok) (acc us : List U), Has o 1 us → (∀ vs, Has o 1 vs → Has o 1 (vs ++ acc)) →
    Has o 1 (us ++ (prefixes acc ts).1)
  | [], acc, us, h, ha => ha us h
  | t :: ts, acc, us, h, ha => by
    simp only [prefixes]
    split
    · next x hx =>
      refine prefixes_ok ts _ us h fun vs hv => ?_
      have : arity x = 1 := by unfold prefixOp at hx; split at hx <;> cases hx <;> rfl
      have h1 : Has o 1 (vs ++ [.op x false]) := Has.op (by rw [this]; exact hv)
      have := ha _ h1
      simpa using this
    · exact ha us h

theorem infixOne_ok {t : Tok} {e : El} (h : infixOne t = some e) : ElPre o e := by
  unfold infixOne at h
  split at h <;> try (cases h <;> trivial)
  · obtain ⟨y, h1, rfl⟩ := Option.map_eq_some_iff.1 h
    unfold infixGeneral at h1
    split at h1 <;> cases h1 <;> rfl

theorem pairedOp_arity {t : Tok} {x : Xop} (h : pairedOp t = some x) : arity x = 2 := by
  unfold pairedOp at h; split at h <;> cases h <;> rfl

theorem postfixOp_arity {t : Tok} {x : Xop} (h : postfixOp t = some x) : arity x = 1 := by
  unfold postfixOp at h; split at h <;> cases h <;> rfl

/-! ### Statements -/

/-- The flags are those of the statements around. -/
def Fits (sc : Scope) (l : List Around) : Prop :=
  (sc.sw = true → .switch ∈ l) ∧ (sc.wh = true → .while ∈ l) ∧ (sc.fr = true → .for ∈ l)

/-- A statement is as expected. -/
def GoodS (o : Opts) (sc : Scope) (s : S) : Prop := WfS o arity s ∧ ∀ l, Fits sc l → JumpS l s

/-- The same for a list. -/
def GoodSs (o : Opts) (sc : Scope) (b : List S) : Prop := WfSs o arity b ∧ ∀ l, Fits sc l → JumpSs l b

theorem GoodSs.nil {sc : Scope} : GoodSs o sc [] := ⟨trivial, fun _ _ => trivial⟩

theorem fits_plain (l : List Around) : Fits plain l := ⟨nofun, nofun, nofun⟩

theorem Fits.sw {sc : Scope} {l : List Around} (h : Fits sc l) : Fits { sc with sw := true } (.switch :: l) :=
  ⟨fun _ => by simp, fun hh => by simp [h.2.1 hh], fun hh => by simp [h.2.2 hh]⟩

theorem Fits.wh {sc : Scope} {l : List Around} (h : Fits sc l) : Fits { sc with wh := true } (.while :: l) :=
  ⟨fun hh => by simp [h.1 hh], fun _ => by simp, fun hh => by simp [h.2.2 hh]⟩

theorem Fits.fr {sc : Scope} {l : List Around} (h : Fits sc l) : Fits { sc with fr := true } (.for :: l) :=
  ⟨fun hh => by simp [h.1 hh], fun hh => by simp [h.2.1 hh], fun _ => by simp⟩

theorem blockify_ok {sc : Scope} {s : S} (h : GoodS o sc s) : GoodSs o sc (blockify s) := by
  unfold blockify
  split
  · exact ⟨by have := h.1; simpa [WfS] using this, fun l hl => by have := h.2 l hl; simpa [JumpS] using this⟩
  · exact ⟨by simpa [WfSs] using h.1, fun l hl => by simpa [JumpSs] using h.2 l hl⟩

theorem breakStmt_ok {sc : Scope} {ts r : List Tok} {s : S} (h : breakStmt sc ts = .yes s r) : GoodS o sc s := by
  unfold breakStmt at h
  dsimp only at h
  split at h <;> split at h <;> first
    | cases h
    | (rename_i hc
       obtain ⟨ts', _, h1⟩ := expect_yes.1 h; cases h1
       refine ⟨by simp [WfS], fun l hl => ?_⟩
       simp only [JumpS, CanBreak]
       first
       | exact hl.1 hc
       | exact hl.2.1 hc
       | exact hl.2.2 hc
       | (intro h0; subst h0
          simp only [Bool.or_eq_true] at hc
          rcases hc with (hc | hc) | hc
          · exact absurd (hl.1 hc) (by simp)
          · exact absurd (hl.2.1 hc) (by simp)
          · exact absurd (hl.2.2 hc) (by simp)))

theorem contStmt_ok {sc : Scope} {ts r : List Tok} {s : S} (h : contStmt sc ts = .yes s r) : GoodS o sc s := by
  unfold contStmt at h
  dsimp only at h
  split at h <;> split at h <;> first
    | cases h
    | (rename_i hc
       obtain ⟨ts', _, h1⟩ := expect_yes.1 h; cases h1
       refine ⟨by simp [WfS], fun l hl => ?_⟩
       simp only [JumpS, CanContinue]
       first
       | exact hl.2.1 hc
       | exact hl.2.2 hc
       | (simp only [Bool.or_eq_true] at hc
          exact hc.imp hl.2.1 hl.2.2))

theorem assertMsg_yes {β : Type} {ts : List Tok} {f : List Tok → P β} {b : β} {r : List Tok}
    (h : assertMsg ts f = .yes b r) : ∃ ts', f ts' = .yes b r := by
  unfold assertMsg at h
  split at h
  · split at h
    · exact ⟨_, h⟩
    · cases h
  · exact ⟨_, h⟩

/-- What each of the functions gives. -/
structure Sound (o : Opts) (c : Cfg) (n : Nat) : Prop where
  expr : ∀ {ts us r}, expr c n ts = .yes us r → Has o 1 us
  infixLoop : ∀ {s ts us r}, StackOk o s → infixLoop c n s ts = .yes us r → Has o 1 us
  infixOp : ∀ {ts e r}, infixOp c n ts = .yes e r → ElPre o e
  elem : ∀ {ts us r}, elem c n ts = .yes us r → Has o 1 us
  primary : ∀ {ts us r}, primary c n ts = .yes us r → Has o 1 us
  closure : ∀ {ts us r}, closure c n ts = .yes us r → Has o 1 us
  elements : ∀ {k ts q r}, elements c n k ts = .yes q r → k ≤ q.1 ∧ Has o (q.1 - k) q.2
  members : ∀ {ks ts q r}, members c n ks ts = .yes q r → ks.length ≤ q.1.length ∧ Has o (q.1.length - ks.length) q.2
  suffixes : ∀ {us ts vs r}, Has o 1 us → suffixes c n us ts = .yes vs r → Has o 1 vs
  args : ∀ {ts as r}, args c n ts = .yes as r → WfAs o arity as ∧ JumpAs as
  cond : ∀ {ts us r}, cond c n ts = .yes us r → Has o 1 us
  decls : ∀ {imm ts ds r}, decls c imm n ts = .yes ds r → WfDs o arity ds ∧ JumpDs ds
  refDecls : ∀ {ts ds r}, refDecls c n ts = .yes ds r → WfRs o arity ds ∧ JumpRs ds
  definition : ∀ {ts s r}, definition c n ts = .yes s r → GoodS o plain s ∧ isInit s = true
  function : ∀ {ts s r}, function c n ts = .yes s r → GoodS o plain s
  clauses : ∀ {sc d ts cs r}, clauses c sc n d ts = .yes cs r →
    WfCs o arity cs ∧ ∀ l, Fits sc l → JumpCs (.switch :: l) cs
  interval : ∀ {ts q r}, interval c n ts = .yes q r → (∃ a b, q.1 = .each a b) ∧ Has o 1 q.2.1 ∧ Has o 1 q.2.2
  complete : ∀ {sc ts q r}, complete c sc n ts = .yes q r → GoodSs o sc q.2
  forStmt : ∀ {sc ts s r}, forStmt c sc n ts = .yes s r → GoodS o sc s
  forInit : ∀ {ts s r}, forInit c n ts = .yes s r → GoodS o plain s ∧ isInit s = true
  exprStmt : ∀ {ts s r}, exprStmt c n ts = .yes s r → ∃ us, s = .expr us ∧ Has o 1 us
  nondecl : ∀ {sc ts s r}, nondecl c sc n ts = .yes s r → GoodS o sc s
  stmt : ∀ {sc ts s r}, stmt c sc n ts = .yes s r → GoodS o sc s
  stmts : ∀ {sc ts b r}, stmts c n sc ts = .yes b r → GoodSs o sc b

theorem Sound.zero (o : Opts) (c : Cfg) : Sound o c 0 := by
  constructor <;> intros <;> rename_i h <;>
    simp [Syntax.expr, Syntax.infixLoop, Syntax.infixOp, Syntax.elem, Syntax.primary, Syntax.closure, Syntax.elements,
      Syntax.members, Syntax.suffixes, Syntax.args, Syntax.cond, Syntax.decls, Syntax.refDecls, Syntax.definition,
      Syntax.function, Syntax.clauses, Syntax.interval, Syntax.complete, Syntax.forStmt, Syntax.forInit, Syntax.exprStmt,
      Syntax.nondecl, Syntax.stmt, Syntax.stmts] at h

variable {c : Cfg} {n : Nat}

theorem Sound.plain_any {sc : Scope} {s : S} (h : GoodS o plain s) : GoodS o sc s := ⟨h.1, fun l _ => h.2 l (fits_plain l)⟩

theorem Has.goodExpr {us : List U} {sc : Scope} (h : Has o 1 us) : GoodS o sc (.expr us) :=
  ⟨by simp only [WfS]; exact ⟨h.wf, h.some⟩, fun l _ => by simp only [JumpS]; exact h.jump⟩

theorem sound_expr (ih : Sound o c n) {ts : List Tok} {us : List U} {r : List Tok} (h : Syntax.expr c (n + 1) ts = .yes us r) :
    Has o 1 us := by
  simp only [Syntax.expr, orElse_yes, reduceCtorEq, and_false, or_false] at h
  obtain ⟨a, t1, h1, h2⟩ := h
  exact ih.infixLoop (s := [.head a]) (ih.elem h1) h2

theorem sound_infixLoop (ih : Sound o c n) {s : List El} {ts : List Tok} {us : List U} {r : List Tok} (hs : StackOk o s)
    (h : Syntax.infixLoop c (n + 1) s ts = .yes us r) : Has o 1 us := by
  simp only [Syntax.infixLoop, orElse_yes, need_yes] at h
  rcases h with ⟨e, t1, h1, vs, t2, h2, h3⟩ | ⟨_, h⟩
  · have h4 := collapse_ok (nextPrec e) s.length s hs
    refine ih.infixLoop ?_ h3
    rw [stackOk_cons (stack_ne h4)]
    exact ⟨⟨pre_set.2 (ih.infixOp h1), by rw [junction_set]; exact ih.elem h2⟩, h4⟩
  · cases h; exact collapseAll_ok s hs

theorem sound_infixOp (ih : Sound o c n) {ts : List Tok} {e : El} {r : List Tok}
    (h : Syntax.infixOp c (n + 1) ts = .yes e r) : ElPre o e := by
  cases ts with
  | nil => simp [Syntax.infixOp] at h
  | cons t ts =>
    simp only [Syntax.infixOp] at h
    split at h
    · simp only [need_yes, expect_yes] at h
      obtain ⟨us, t1, h1, t2, _, h2⟩ := h
      cases h2
      exact ih.expr h1
    · split at h
      · next h1 => cases h; exact infixOne_ok h1
      · cases h

theorem sound_elem (ih : Sound o c n) {ts : List Tok} {us : List U} {r : List Tok}
    (h : Syntax.elem c (n + 1) ts = .yes us r) : Has o 1 us := by
  simp only [Syntax.elem, orElse_yes, need_yes] at h
  rcases h with ⟨a, t1, h1, b, t2, h2, h3⟩ | ⟨_, h⟩
  · cases h3
    exact prefixes_ok ts [] b (ih.suffixes (ih.primary h1) h2) fun vs hv => by simpa using hv
  · split at h <;> cases h

theorem Has.fma {a b d : List U} (h1 : Has o 1 a) (h2 : Has o 1 b) (h3 : Has o 1 d) :
    Has o 1 (a ++ b ++ d ++ [.op .fma false]) := Has.op ((h1.append h2).append h3)

theorem literal_has (v : Value) : Has o 1 [(.literal v : U)] := Has.unit (by simp [WfU]) (by simp [JumpU]) fun n => by simp [effect]

theorem localRef_has (i : Name) : Has o 1 [(.localRef i : U)] := Has.unit (by simp [WfU]) (by simp [JumpU]) fun n => by simp [effect]

theorem localName_has (s : Bytes) (ts : List Tok) : Has o 1 [localName c s ts] := by
  unfold localName
  split
  · exact literal_has _
  · split
    · exact literal_has _
    · exact localRef_has _

theorem closure_has {ps : List Name} {va : Bool} {b : List S} (h : GoodSs o plain b) : Has o 1 [.closure ps va b] :=
  Has.unit (by simp only [WfU]; exact h.1) (by simp only [JumpU]; exact h.2 [] (fits_plain _)) fun n => by simp [effect]

theorem return_good {sc : Scope} {us : List U} {b : Bool} (h : us = [] ∨ Has o 1 us) : GoodS o sc (.returnS b us) := by
  refine ⟨?_, fun l _ => ?_⟩
  · simp only [WfS]
    rcases h with rfl | h
    · exact ⟨trivial, .inl rfl⟩
    · exact ⟨h.wf, .inr h.one⟩
  · simp only [JumpS]
    rcases h with rfl | h
    · trivial
    · exact h.jump

theorem single {sc : Scope} {s : S} (h : GoodS o sc s) : GoodSs o sc [s] :=
  ⟨by simpa [WfSs] using h.1, fun l hl => by simpa [JumpSs] using h.2 l hl⟩

theorem GoodSs.append {sc : Scope} {a b : List S} (h : GoodSs o sc a) (h' : GoodSs o sc b) : GoodSs o sc (a ++ b) :=
  ⟨wfSs_append h.1 h'.1, fun l hl => jumpSs_append (h.2 l hl) (h'.2 l hl)⟩

theorem sound_primary (h0 : o.level = 0) (ih : Sound o c n) {ts : List Tok} {us : List U} {r : List Tok}
    (h : Syntax.primary c (n + 1) ts = .yes us r) : Has o 1 us := by
  cases ts with
  | nil => simp [Syntax.primary] at h
  | cons t ts =>
    simp only [Syntax.primary] at h
    split at h
    · next x hx =>
      simp only [need_yes, expect_yes] at h
      obtain ⟨t1, _, a, t2, h1, t3, _, b, t4, h2, t5, _, h3⟩ := h
      cases h3
      exact Has.op (by rw [pairedOp_arity hx]; exact (ih.expr h1).append (ih.expr h2))
    · split at h
      · cases h; exact localName_has _ _
      · simp only [need_yes] at h
        obtain ⟨i, t1, _, h1⟩ := h
        cases h1
        exact Has.unit (by simp [WfU]) (by simp [JumpU]) fun n => by simp [effect]
      · cases h; exact localRef_has _
      · exact ih.closure h
      · simp only [need_yes, expect_yes] at h
        obtain ⟨q, t1, h1, t2, _, h2⟩ := h
        cases h2
        have := (ih.elements h1).2
        exact this.snoc (by simp [WfU]) (by simp [JumpU]) fun n => by simp [effect]
      · simp only [need_yes, expect_yes] at h
        obtain ⟨q, t1, h1, t2, _, h2⟩ := h
        cases h2
        have := (ih.members h1).2
        exact this.snoc (by simp [WfU]) (by simp [JumpU]) fun n => by simp [effect]
      · simp only [need_yes, expect_yes] at h
        obtain ⟨q, t1, h1, t2, _, h2⟩ := h
        cases h2
        exact ih.expr h1
      · simp only [need_yes, expect_yes] at h
        obtain ⟨t1, _, a, t2, h1, t3, _, b, t4, h2, t5, _, d, t6, h3, t7, _, h4⟩ := h
        cases h4
        exact (ih.expr h1).fma (ih.expr h2) (ih.expr h3)
      · simp only [need_yes, expect_yes] at h
        obtain ⟨t1, _, a, t2, h1, t3, _, h2⟩ := h
        cases h2
        have h3 := ih.expr h1
        exact Has.unit (by simp only [WfU]; exact ⟨h3.wf, h3.some, .inl h0⟩) (by simp only [JumpU]; exact h3.jump)
          fun n => by simp [effect]
      · cases h
      · cases h
      · simp only [orElse_yes, reduceCtorEq, and_false, or_false] at h
        obtain ⟨v, t1, _, h1⟩ := h
        cases h1
        exact literal_has v

theorem sound_closure (ih : Sound o c n) {ts : List Tok} {us : List U} {r : List Tok}
    (h : Syntax.closure c (n + 1) ts = .yes us r) : Has o 1 us := by
  simp only [Syntax.closure, need_yes, expect_yes] at h
  obtain ⟨t1, _, ps, t2, _, t3, _, h⟩ := h
  split at h
  · simp only [need_yes, expect_yes] at h
    obtain ⟨b, t4, h1, t5, _, h2⟩ := h
    cases h2
    exact closure_has (ih.stmts h1)
  · simp only [need_yes] at h
    obtain ⟨vs, t4, h1, h2⟩ := h
    cases h2
    exact closure_has (single (return_good (.inr (ih.expr h1))))
  · simp only [need_yes] at h
    obtain ⟨vs, t4, h1, h2⟩ := h
    cases h2
    exact closure_has (single (return_good (.inr (ih.expr h1))))
  · cases h

theorem sound_elements (ih : Sound o c n) {k : Nat} {ts : List Tok} {q : Nat × List U} {r : List Tok}
    (h : Syntax.elements c (n + 1) k ts = .yes q r) : k ≤ q.1 ∧ Has o (q.1 - k) q.2 := by
  simp only [Syntax.elements, orElse_yes] at h
  rcases h with ⟨us, t1, h1, h⟩ | ⟨_, h⟩
  · have h2 := (ih.expr h1).check (b := false)
    split at h
    · cases h
    · split at h <;> first
        | (simp only [need_yes] at h
           obtain ⟨q', t2, h3, h4⟩ := h
           cases h4
           have h5 := ih.elements h3
           refine ⟨by have := h5.1; dsimp only; omega, ?_⟩
           have h6 := h2.append h5.2
           have h7 := h5.1
           rwa [show 1 + (q'.1 - (k + 1)) = q'.1 - k by omega] at h6)
        | (cases h; exact ⟨by simp, by simpa using h2⟩)
  · cases h; exact ⟨Nat.le_refl _, by simpa using Has.nil⟩

theorem sound_members (ih : Sound o c n) {ks : List Bytes} {ts : List Tok} {q : List Bytes × List U} {r : List Tok}
    (h : Syntax.members c (n + 1) ks ts = .yes q r) : ks.length ≤ q.1.length ∧ Has o (q.1.length - ks.length) q.2 := by
  simp only [Syntax.members, orElse_yes] at h
  rcases h with ⟨s, t1, h1, h⟩ | ⟨_, h⟩
  · split at h
    · cases h
    · split at h
      · cases h
      · rw [need_yes] at h
        obtain ⟨us, t2, h2, h⟩ := h
        have h2' := (ih.expr h2).check (b := false)
        split at h
        all_goals first
          | (cases h; exact ⟨by simp, by simpa using h2'⟩)
          | (rw [need_yes] at h
             obtain ⟨q', t3, h3, h4⟩ := h
             cases h4
             have h5 := ih.members h3
             have h7 := h5.1
             simp only [List.length_append, List.length_cons, List.length_nil] at h7
             refine ⟨by dsimp only; omega, ?_⟩
             have h6 := h2'.append h5.2
             simp only [List.length_append, List.length_cons, List.length_nil] at h6
             rwa [show 1 + (q'.1.length - (ks.length + (0 + 1))) = q'.1.length - ks.length by omega] at h6)
  · cases h; exact ⟨Nat.le_refl _, by simpa using Has.nil⟩

theorem sound_suffixes (ih : Sound o c n) {us : List U} {ts : List Tok} {vs : List U} {r : List Tok} (hu : Has o 1 us)
    (h : Syntax.suffixes c (n + 1) us ts = .yes vs r) : Has o 1 vs := by
  cases ts with
  | nil => simp only [Syntax.suffixes] at h; cases h; exact hu
  | cons t ts =>
    simp only [Syntax.suffixes] at h
    split at h
    · next x hx => exact ih.suffixes (Has.op (by rw [postfixOp_arity hx]; exact hu)) h
    · split at h
      · simp only [need_yes, expect_yes] at h
        obtain ⟨as, t1, h1, t2, _, h2⟩ := h
        have h3 := ih.args h1
        exact ih.suffixes (hu.snoc (by simp only [WfU]; exact h3.1) (by simp only [JumpU]; exact h3.2)
          fun n => by simp [effect]) h2
      · simp only [need_yes, expect_yes] at h
        obtain ⟨is, t1, h1, t2, _, h2⟩ := h
        exact ih.suffixes (Has.op (x := .index) (hu.append (ih.expr h1))) h2
      · simp only [need_yes] at h
        obtain ⟨s, t1, _, h2⟩ := h
        refine ih.suffixes ?_ h2
        have := Has.op (x := .index) (a := false) (hu.append (literal_has (.str s)))
        simpa using this
      · cases h; exact hu

theorem sound_args (ih : Sound o c n) {ts : List Tok} {as : List (Arg Xop)} {r : List Tok}
    (h : Syntax.args c (n + 1) ts = .yes as r) : WfAs o arity as ∧ JumpAs as := by
  simp only [Syntax.args, orElse_yes] at h
  rcases h with ⟨us, t1, h1, h⟩ | ⟨_, h⟩
  · have h2 := (ih.expr h1).check (b := (refSpec ts).1)
    split at h
    · simp only [need_yes] at h
      obtain ⟨as', t2, h3, h4⟩ := h
      cases h4
      have h5 := ih.args h3
      simp only [WfAs, JumpAs]
      exact ⟨⟨⟨h2.wf, h2.one⟩, h5.1⟩, h2.jump, h5.2⟩
    · cases h
      simp only [WfAs, JumpAs]
      exact ⟨⟨⟨h2.wf, h2.one⟩, trivial⟩, h2.jump, trivial⟩
  · split at h
    · cases h
    · cases h; exact ⟨trivial, trivial⟩

theorem sound_cond (ih : Sound o c n) {ts : List Tok} {us : List U} {r : List Tok}
    (h : Syntax.cond c (n + 1) ts = .yes us r) : Has o 1 us := by
  simp only [Syntax.cond, need_yes, expect_yes] at h
  obtain ⟨t1, _, vs, t2, h1, t3, _, h2⟩ := h
  cases h2
  exact (ih.expr h1).check

theorem decl_ok {b : Binder} {us : List U} {ds : List (Decl Xop)} (h : us = [] ∨ Has o 1 us) (hd : WfDs o arity ds ∧ JumpDs ds) :
    WfDs o arity (b.decl us :: ds) ∧ JumpDs (b.decl us :: ds) := by
  have h1 : WfUs o arity us ∧ (us = [] ∨ Compile.one arity us) := by
    rcases h with rfl | h
    · exact ⟨trivial, .inl rfl⟩
    · exact ⟨h.wf, .inr h.one⟩
  have h2 : JumpUs us := by
    rcases h with rfl | h
    · trivial
    · exact h.jump
  cases b <;> simp only [Binder.decl, WfDs, JumpDs] <;> exact ⟨⟨h1, hd.1⟩, h2, hd.2⟩

theorem sound_decls (ih : Sound o c n) {imm : Bool} {ts : List Tok} {ds : List (Decl Xop)} {r : List Tok}
    (h : Syntax.decls c imm (n + 1) ts = .yes ds r) : WfDs o arity ds ∧ JumpDs ds := by
  simp only [Syntax.decls, need_yes] at h
  obtain ⟨b, t1, _, us, t2, h1, h⟩ := h
  have h2 : us = [] ∨ Has o 1 us := by
    split at h1
    · simp only [need_yes] at h1
      obtain ⟨vs, t3, h3, h4⟩ := h1
      cases h4
      exact .inr (ih.expr h3)
    · split at h1
      · cases h1
      · cases h1; exact .inl rfl
  split at h
  · simp only [need_yes] at h
    obtain ⟨ds', t3, h3, h4⟩ := h
    cases h4
    exact decl_ok h2 (ih.decls h3)
  · cases h
    exact decl_ok h2 ⟨trivial, trivial⟩

theorem sound_refDecls (ih : Sound o c n) {ts : List Tok} {ds : List (RefDecl Xop)} {r : List Tok}
    (h : Syntax.refDecls c (n + 1) ts = .yes ds r) : WfRs o arity ds ∧ JumpRs ds := by
  simp only [Syntax.refDecls, need_yes, expect_yes] at h
  obtain ⟨i, t1, _, t2, _, us, t3, h1, h⟩ := h
  have h2 := ih.expr h1
  split at h
  · simp only [need_yes] at h
    obtain ⟨ds', t3, h3, h4⟩ := h
    cases h4
    have h5 := ih.refDecls h3
    simp only [WfRs, JumpRs]
    exact ⟨⟨⟨h2.wf, h2.one⟩, h5.1⟩, h2.jump, h5.2⟩
  · cases h
    simp only [WfRs, JumpRs]
    exact ⟨⟨⟨h2.wf, h2.one⟩, trivial⟩, h2.jump, trivial⟩

theorem sound_definition (ih : Sound o c n) {ts : List Tok} {s : S} {r : List Tok}
    (h : Syntax.definition c (n + 1) ts = .yes s r) : GoodS o plain s ∧ isInit s = true := by
  unfold Syntax.definition at h
  split at h
  · next h0 => cases h0
  · next h0 =>
    cases h0
    simp only [need_yes, expect_yes] at h
    obtain ⟨ds, t1, h1, t2, _, h2⟩ := h
    cases h2
    have h3 := ih.decls h1
    exact ⟨⟨by simpa only [WfS] using h3.1, fun l _ => by simpa only [JumpS] using h3.2⟩, rfl⟩
  · next h0 =>
    cases h0
    simp only [need_yes, expect_yes] at h
    obtain ⟨ds, t1, h1, t2, _, h2⟩ := h
    cases h2
    have h3 := ih.decls h1
    exact ⟨⟨by simpa only [WfS] using h3.1, fun l _ => by simpa only [JumpS] using h3.2⟩, rfl⟩
  · next h0 =>
    cases h0
    simp only [need_yes, expect_yes] at h
    obtain ⟨ds, t1, h1, t2, _, h2⟩ := h
    cases h2
    have h3 := ih.refDecls h1
    exact ⟨⟨by simpa only [WfS] using h3.1, fun l _ => by simpa only [JumpS] using h3.2⟩, rfl⟩
  · cases h

theorem sound_function (ih : Sound o c n) {ts : List Tok} {s : S} {r : List Tok}
    (h : Syntax.function c (n + 1) ts = .yes s r) : GoodS o plain s := by
  simp only [Syntax.function, need_yes, expect_yes] at h
  obtain ⟨i, t1, _, t2, _, ps, t3, _, t4, _, t5, _, b, t6, h1, t7, _, h2⟩ := h
  cases h2
  have h3 := (ih.stmts h1).append (single (return_good (b := true) (.inl rfl)))
  exact ⟨by simp only [WfS]; exact h3.1, fun l _ => by simp only [JumpS]; exact h3.2 [] (fits_plain _)⟩

theorem sound_clauses (ih : Sound o c n) {sc : Scope} {d : Bool} {ts : List Tok} {cs : List (SClause Xop)} {r : List Tok}
    (h : Syntax.clauses c sc (n + 1) d ts = .yes cs r) :
    WfCs o arity cs ∧ ∀ l, Fits sc l → JumpCs (.switch :: l) cs := by
  unfold Syntax.clauses at h
  split at h
  · split at h
    · cases h
    · simp only [need_yes, expect_yes] at h
      obtain ⟨t1, _, b, t2, h1, cs', t3, h2, h3⟩ := h
      cases h3
      have h4 := ih.stmts h1
      have h5 := ih.clauses h2
      refine ⟨by simp only [WfCs]; exact ⟨⟨⟨trivial, trivial⟩, ⟨trivial, trivial⟩, h4.1⟩, h5.1⟩, fun l hl => ?_⟩
      simp only [JumpCs]
      exact ⟨⟨trivial, trivial, h4.2 _ hl.sw⟩, h5.2 l hl⟩
  · simp only [need_yes, expect_yes] at h
    obtain ⟨us, t0, h0, t1, _, b, t2, h1, cs', t3, h2, h3⟩ := h
    cases h3
    have h4 := ih.stmts h1
    have h5 := ih.clauses h2
    have h6 := (ih.expr h0).check (b := false)
    refine ⟨by simp only [WfCs]; exact ⟨⟨⟨h6.wf, trivial⟩, ⟨h6.one, trivial⟩, h4.1⟩, h5.1⟩, fun l hl => ?_⟩
    simp only [JumpCs]
    exact ⟨⟨h6.jump, trivial, h4.2 _ hl.sw⟩, h5.2 l hl⟩
  · simp only [need_yes, expect_yes] at h
    obtain ⟨⟨k, lo, up⟩, t0, h0, t1, _, b, t2, h1, cs', t3, h2, h3⟩ := h
    cases h3
    have h4 := ih.stmts h1
    have h5 := ih.clauses h2
    obtain ⟨⟨x, y, h8⟩, h6, h7⟩ := ih.interval h0
    dsimp only at h8 h6 h7
    subst h8
    refine ⟨by simp only [WfCs]; exact ⟨⟨⟨h6.wf, h7.wf⟩, ⟨h6.one, h7.one⟩, h4.1⟩, h5.1⟩, fun l hl => ?_⟩
    simp only [JumpCs]
    exact ⟨⟨h6.jump, h7.jump, h4.2 _ hl.sw⟩, h5.2 l hl⟩
  · cases h; exact ⟨trivial, fun _ _ => trivial⟩

theorem sound_interval (ih : Sound o c n) {ts : List Tok} {q : ClauseKind × List U × List U} {r : List Tok}
    (h : Syntax.interval c (n + 1) ts = .yes q r) : (∃ a b, q.1 = .each a b) ∧ Has o 1 q.2.1 ∧ Has o 1 q.2.2 := by
  simp only [Syntax.interval, need_yes, expect_yes] at h
  obtain ⟨lower, t0, _, a, t1, h1, t2, _, b, t3, h2, h⟩ := h
  split at h
  · cases h; exact ⟨⟨_, _, rfl⟩, (ih.expr h1).check, (ih.expr h2).check⟩
  · cases h; exact ⟨⟨_, _, rfl⟩, (ih.expr h1).check, (ih.expr h2).check⟩
  · cases h

theorem sound_complete (ih : Sound o c n) {sc : Scope} {ts : List Tok} {q : Bool × List S} {r : List Tok}
    (h : Syntax.complete c sc (n + 1) ts = .yes q r) : GoodSs o sc q.2 := by
  unfold Syntax.complete at h
  split at h
  · next h0 => cases h0
  · next h0 =>
    cases h0
    simp only [need_yes] at h
    obtain ⟨s, t1, h1, h2⟩ := h
    cases h2
    exact blockify_ok (ih.nondecl h1)
  · cases h; exact GoodSs.nil

theorem sound_forInit (ih : Sound o c n) {ts : List Tok} {s : S} {r : List Tok}
    (h : Syntax.forInit c (n + 1) ts = .yes s r) : GoodS o plain s ∧ isInit s = true := by
  simp only [Syntax.forInit, orElse_yes] at h
  rcases h with ⟨s', t1, h1, h2⟩ | ⟨_, h⟩
  · cases h2; exact ih.definition h1
  · split at h
    · cases h
      exact ⟨⟨by simp [WfS, WfSs], fun l _ => by simp [JumpS, JumpSs]⟩, rfl⟩
    · obtain ⟨us, rfl, h1⟩ := ih.exprStmt h
      exact ⟨h1.goodExpr, rfl⟩

theorem sound_exprStmt (ih : Sound o c n) {ts : List Tok} {s : S} {r : List Tok}
    (h : Syntax.exprStmt c (n + 1) ts = .yes s r) : ∃ us, s = .expr us ∧ Has o 1 us := by
  simp only [Syntax.exprStmt, orElse_yes, reduceCtorEq, and_false, or_false, expect_yes] at h
  obtain ⟨us, t1, h1, t2, _, h2⟩ := h
  cases h2
  exact ⟨us, rfl, ih.expr h1⟩

theorem sound_forStmt (ih : Sound o c n) {sc : Scope} {ts : List Tok} {s : S} {r : List Tok}
    (h : Syntax.forStmt c sc (n + 1) ts = .yes s r) : GoodS o sc s := by
  simp only [Syntax.forStmt, expect_yes] at h
  obtain ⟨t0, _, h⟩ := h
  split at h
  · simp only [need_yes, expect_yes] at h
    obtain ⟨i, t1, _, q, t2, _, t3, _, us, t4, h1, t5, _, b, t6, h2, k, t7, h3, h4⟩ := h
    cases h4
    have h5 := ih.expr h1
    have h6 := blockify_ok (ih.nondecl h2)
    have h7 := ih.complete h3
    refine ⟨by simp only [WfS]; exact ⟨⟨h5.wf, h5.one⟩, h6.1, h7.1⟩, fun l hl => ?_⟩
    simp only [JumpS]
    exact ⟨h5.jump, h6.2 _ hl.fr, h7.2 l hl⟩
  · simp only [need_yes, expect_yes, orElse_yes] at h
    obtain ⟨i, t1, h1, us, t2, h2, t3, _, vs, t4, h3, t5, _, b, t6, h4, k, t7, h5, h6⟩ := h
    cases h6
    have h7 := ih.forInit h1
    have h8 : WfUs o arity us ∧ JumpUs us ∧ (effects arity us 0).isSome := by
      rcases h2 with ⟨ws, t8, h8, h9⟩ | ⟨_, h9⟩
      · cases h9
        have := (ih.expr h8).check (b := false)
        exact ⟨this.wf, this.jump, this.some⟩
      · cases h9; exact ⟨trivial, trivial, rfl⟩
    have h9 : WfUs o arity vs ∧ JumpUs vs ∧ (effects arity vs 0).isSome := by
      rcases h3 with ⟨ws, t8, h8, h9⟩ | ⟨_, h9⟩
      · cases h9
        have := ih.expr h8
        exact ⟨this.wf, this.jump, this.some⟩
      · cases h9; exact ⟨trivial, trivial, rfl⟩
    have h10 := blockify_ok (ih.nondecl h4)
    have h11 := ih.complete h5
    have h12 := single h7.1
    refine ⟨by simp only [WfS]; exact ⟨⟨h12.1, by simp [h7.2]⟩, ⟨h8.1, h8.2.2⟩, ⟨h9.1, h9.2.2⟩, h10.1, h11.1⟩, fun l hl => ?_⟩
    simp only [JumpS]
    exact ⟨h12.2 _ (fits_plain _), h8.2.1, h9.2.1, h10.2 _ hl.fr, h11.2 l hl⟩

theorem sound_nondecl (ih : Sound o c n) {sc : Scope} {ts : List Tok} {s : S} {r : List Tok}
    (h : Syntax.nondecl c sc (n + 1) ts = .yes s r) : GoodS o sc s := by
  unfold Syntax.nondecl at h
  split at h
  · simp only [need_yes] at h
    obtain ⟨us, t1, h1, t, t2, h2, f, t3, h3, h4⟩ := h
    cases h4
    have h5 := ih.cond h1
    have h6 := blockify_ok (ih.nondecl h2)
    have h7 : GoodSs o sc f := by
      split at h3
      · simp only [need_yes] at h3
        obtain ⟨f', t4, h7, h8⟩ := h3
        cases h8
        exact blockify_ok (ih.nondecl h7)
      · cases h3; exact GoodSs.nil
    refine ⟨by simp only [WfS]; exact ⟨⟨h5.wf, h5.one⟩, h6.1, h7.1⟩, fun l hl => ?_⟩
    simp only [JumpS]
    exact ⟨h5.jump, h6.2 l hl, h7.2 l hl⟩
  · simp only [need_yes, expect_yes] at h
    obtain ⟨us, t1, h1, t2, _, cs, t3, h2, t4, _, h3⟩ := h
    cases h3
    have h5 := ih.cond h1
    have h6 := ih.clauses h2
    refine ⟨by simp only [WfS]; exact ⟨⟨h5.wf, h5.one⟩, h6.1⟩, fun l hl => ?_⟩
    simp only [JumpS]
    exact ⟨h5.jump, h6.2 l hl⟩
  · simp only [need_yes, expectKw_yes] at h
    obtain ⟨b, t1, h1, t2, _, us, t3, h2, k, t4, h3, h⟩ := h
    have h5 := ih.cond h2
    have h6 := blockify_ok (ih.nondecl h1)
    have h7 := ih.complete h3
    have h8 : GoodS o sc (.doWhile (blockify b) (negation t2).1 us k.2) := by
      refine ⟨by simp only [WfS]; exact ⟨h6.1, ⟨h5.wf, h5.one⟩, h7.1⟩, fun l hl => ?_⟩
      simp only [JumpS]
      exact ⟨h6.2 _ hl.wh, h5.jump, h7.2 l hl⟩
    split at h
    · cases h; exact h8
    · simp only [expect_yes] at h
      obtain ⟨t5, _, h9⟩ := h
      cases h9; exact h8
  · simp only [need_yes] at h
    obtain ⟨us, t1, h1, b, t2, h2, k, t3, h3, h4⟩ := h
    cases h4
    have h5 := ih.cond h1
    have h6 := blockify_ok (ih.nondecl h2)
    have h7 := ih.complete h3
    refine ⟨by simp only [WfS]; exact ⟨⟨h5.wf, h5.one⟩, h6.1, h7.1⟩, fun l hl => ?_⟩
    simp only [JumpS]
    exact ⟨h5.jump, h6.2 _ hl.wh, h7.2 l hl⟩
  · exact ih.forStmt h
  · exact breakStmt_ok h
  · exact contStmt_ok h
  · simp only [need_yes, expect_yes] at h
    obtain ⟨us, t1, h1, t2, _, h2⟩ := h
    cases h2
    have h5 := (ih.expr h1).check (b := false)
    exact ⟨by simp only [WfS]; exact ⟨h5.wf, h5.one⟩, fun l _ => by simp only [JumpS]; exact h5.jump⟩
  · simp only [need_yes, expect_yes, orElse_yes] at h
    obtain ⟨us, t1, h1, t2, _, h2⟩ := h
    cases h2
    refine return_good ?_
    rcases h1 with ⟨vs, t3, h3, h4⟩ | ⟨_, h4⟩
    · cases h4; exact .inr (ih.expr h3)
    · split at h4
      · cases h4
      · cases h4; exact .inl rfl
  · simp only [need_yes] at h
    obtain ⟨us, t1, h1, h2⟩ := h
    obtain ⟨t2, h2⟩ := assertMsg_yes h2
    obtain ⟨t3, _, h2⟩ := expect_yes.1 h2
    cases h2
    have h5 := (ih.expr h1).check (b := false)
    exact ⟨by simp only [WfS]; exact ⟨h5.wf, h5.one⟩, fun l _ => by simp only [JumpS]; exact h5.jump⟩
  · simp only [need_yes, expect_yes, expectKw_yes] at h
    obtain ⟨b, t1, h1, t2, _, t3, _, i, t4, _, t5, _, k, t6, h2, h3⟩ := h
    cases h3
    have h6 := blockify_ok (ih.nondecl h1)
    have h7 := blockify_ok (ih.nondecl h2)
    exact ⟨by simp only [WfS]; exact ⟨h6.1, h7.1⟩, fun l hl => by simp only [JumpS]; exact ⟨h6.2 l hl, h7.2 l hl⟩⟩
  · simp only [need_yes, expect_yes] at h
    obtain ⟨b, t1, h1, t2, _, h2⟩ := h
    cases h2
    have h6 := ih.stmts h1
    exact ⟨by simp only [WfS]; exact h6.1, fun l hl => by simp only [JumpS]; exact h6.2 l hl⟩
  · obtain ⟨us, rfl, h1⟩ := ih.exprStmt h
    exact h1.goodExpr

theorem sound_stmt (ih : Sound o c n) {sc : Scope} {ts : List Tok} {s : S} {r : List Tok}
    (h : Syntax.stmt c sc (n + 1) ts = .yes s r) : GoodS o sc s := by
  simp only [Syntax.stmt, orElse_yes] at h
  rcases h with ⟨s', t1, h1, h2⟩ | ⟨_, h⟩
  · cases h2; exact Sound.plain_any (ih.definition h1).1
  · split at h
    · exact Sound.plain_any (ih.function h)
    · simp only [need_yes, expect_yes] at h
      obtain ⟨us, t1, h1, t2, _, h2⟩ := h
      cases h2
      have h5 := ih.expr h1
      exact ⟨by simp only [WfS]; exact ⟨h5.wf, h5.some⟩, fun l _ => by simp only [JumpS]; exact h5.jump⟩
    · cases h
      exact ⟨by simp [WfS, WfSs], fun l _ => by simp [JumpS, JumpSs]⟩
    · exact ih.nondecl h

theorem sound_stmts (ih : Sound o c n) {sc : Scope} {ts : List Tok} {b : List S} {r : List Tok}
    (h : Syntax.stmts c (n + 1) sc ts = .yes b r) : GoodSs o sc b := by
  simp only [Syntax.stmts, orElse_yes, need_yes] at h
  rcases h with ⟨s, t1, h1, ss, t2, h2, h3⟩ | ⟨_, h⟩
  · cases h3
    have h4 := (single (ih.stmt h1)).append (ih.stmts h2)
    simpa using h4
  · cases h; exact GoodSs.nil

theorem sound (h0 : o.level = 0) (c : Cfg) : ∀ n, Sound o c n
  | 0 => Sound.zero o c
  | n + 1 =>
    have ih := sound h0 c n
    { expr := sound_expr ih, infixLoop := sound_infixLoop ih, infixOp := sound_infixOp ih, elem := sound_elem ih,
      primary := sound_primary h0 ih, closure := sound_closure ih, elements := sound_elements ih, members := sound_members ih,
      suffixes := sound_suffixes ih, args := sound_args ih, cond := sound_cond ih, decls := sound_decls ih,
      refDecls := sound_refDecls ih, definition := sound_definition ih, function := sound_function ih,
      clauses := sound_clauses ih, interval := sound_interval ih, complete := sound_complete ih, forStmt := sound_forStmt ih,
      forInit := sound_forInit ih, exprStmt := sound_exprStmt ih, nondecl := sound_nondecl ih, stmt := sound_stmt ih,
      stmts := sound_stmts ih }

end

end Asteria.Syntax
