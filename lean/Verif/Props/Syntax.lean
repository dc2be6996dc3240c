import Verif.Proof.SyntaxMono
import Verif.Proof.SyntaxQuiet
import Verif.Props.Safe

/-!
# What the parser gives

C100: expressions and statements are well-formed: operators have their operands, conditions, branches and arguments have
one result.  So the hypothesis of C99 about source is met by everything that is parsed.

C101: `break` and `continue` statements have a statement around them, in the same function, to which they refer.

C102: the parser ends, and its result does not depend on the bound for the recursion.
-/

namespace Asteria.Syntax

open Compile
open _root_.Asteria.Parser (Xop Punct)

section
variable {c : Cfg} {n : Nat} {ts r : List Tok} {o : Opts} {b : List S}

theorem reload_good (h0 : o.level = 0) (h : reload c n ts = .yes b r) : GoodSs o plain b := by
  simp only [reload, need_yes] at h
  obtain ⟨b', t1, h1, h2⟩ := h
  split at h2
  · cases h2
    exact ((sound h0 c n).stmts h1).append (single (return_good (.inl rfl)))
  · cases h2

theorem oneline_good (h0 : o.level = 0) (h : reloadOneline c n ts = .yes b r) : GoodSs o plain b := by
  simp only [reloadOneline, need_yes] at h
  obtain ⟨b', t1, h1, h2⟩ := h
  split at h2
  · cases h2
    exact single (return_good (.inr ((sound h0 c n).expr h1)))
  · cases h2

/-- **C100.** A script is well-formed.  If it is optimized then operands of `catch` must not call functions, see C79. -/
theorem C100_script_well_formed (h : reload c n ts = .yes b r) (hq : o.level = 0 ∨ QuietSs b) : WfSs o arity b := by
  rcases hq with h0 | hq
  · exact (reload_good h0 h).1
  · exact quietSs (reload_good (o := { o with level := 0 }) rfl h).1 hq

/-- **C100**, for a snippet that is a single expression. -/
theorem C100_expression_well_formed (h : reloadOneline c n ts = .yes b r) (hq : o.level = 0 ∨ QuietSs b) :
    WfSs o arity b := by
  rcases hq with h0 | hq
  · exact (oneline_good h0 h).1
  · exact quietSs (oneline_good (o := { o with level := 0 }) rfl h).1 hq

/-- **C100**: every expression has one result, whatever is on the stack before it. -/
theorem C100_one_result {us : List U} (h : expr c n ts = .yes us r) (k : Nat) : effects arity us k = some (k + 1) :=
  ((sound (o := ⟨true, false, false, 0, fun _ => false⟩) rfl c n).expr h).eff k

/-- **C101.** Jumps in a script, and in functions in it, have a place to go to. -/
theorem C101_jumps_have_targets (h : reload c n ts = .yes b r) : JumpSs [] b :=
  (reload_good (o := ⟨true, false, false, 0, fun _ => false⟩) rfl h).2 [] (fits_plain _)

/-- **C101**, for a snippet that is a single expression: this is about functions in it. -/
theorem C101_expression_jumps_have_targets (h : reloadOneline c n ts = .yes b r) : JumpSs [] b :=
  (oneline_good (o := ⟨true, false, false, 0, fun _ => false⟩) rfl h).2 [] (fits_plain _)

end

section
variable (c : Cfg) (ts : List Tok)

/-- **C102.** The parser ends: a depth of the recursion proportional to the number of tokens suffices. -/
theorem C102_parser_ends (n : Nat) (h : 8 * ts.length + 7 ≤ n) : reload c n ts ≠ .fuel ∧ reloadOneline c n ts ≠ .fuel := by
  have h1 := (ends c n).stmts plain ts h
  have h2 := (ends c n).expr ts (by omega)
  refine ⟨?_, ?_⟩
  · unfold reload
    cases h3 : stmts c n plain ts with
    | fuel => rw [h3] at h1; exact h1.elim
    | yes b r => simp only [P.need]; split <;> simp
    | _ => simp [P.need]
  · unfold reloadOneline
    cases h3 : expr c n ts with
    | fuel => rw [h3] at h2; exact h2.elim
    | yes b r => simp only [P.need]; split <;> simp
    | _ => simp [P.need]

theorem mono_le {n m : Nat} (h : n ≤ m) : Le (stmts c n plain ts) (stmts c m plain ts) ∧ Le (expr c n ts) (expr c m ts) := by
  induction h with
  | refl => exact ⟨Le.refl _, Le.refl _⟩
  | step _ ih =>
    refine ⟨?_, ?_⟩
    · rcases ih.1 with h | h
      · exact .inl h
      · rw [h]; exact (mono c _).stmts plain ts
    · rcases ih.2 with h | h
      · exact .inl h
      · rw [h]; exact (mono c _).expr ts

/-- **C102**: whatever the result is, a larger bound gives the same, so there is one result. -/
theorem C102_bound_irrelevant (n m : Nat) (h : n ≤ m) :
    (reload c n ts ≠ .fuel → reload c m ts = reload c n ts) ∧
    (reloadOneline c n ts ≠ .fuel → reloadOneline c m ts = reloadOneline c n ts) := by
  obtain ⟨h1, h2⟩ := mono_le c ts h
  refine ⟨fun h3 => ?_, fun h3 => ?_⟩
  · rcases h1 with h1 | h1
    · exact absurd (by simp [reload, h1, P.need]) h3
    · simp [reload, h1]
  · rcases h2 with h2 | h2
    · exact absurd (by simp [reloadOneline, h2, P.need]) h3
    · simp [reloadOneline, h2]

end

end Asteria.Syntax

namespace Asteria.Exec

open Safe Syntax
open _root_.Asteria.Parser (Xop)

section
variable {P : Type} {sem : Sem P} {sig : P → Sig}

/-- A function that the code generator makes of a script. -/
def FromScript (sig : P → Sig) (f : Func P) : Prop :=
  match f with
  | .native _ => True
  | .inst ps _ code => ∃ (c : Cfg) (m : Nat) (ts r : List Tok) (b : List S) (o : Compile.Opts) (e : Compile.Emit P Xop),
      reload c m ts = .yes b r ∧ (o.level = 0 ∨ QuietSs b) ∧ Compile.Arity e sig Syntax.arity ∧
      Compile.compile o e ps b = .ok code

/-- **C100** together with C99: when a script that has been parsed and compiled is called, no assertion fails, as far as
references can be used.  Missing are catch expressions with calls in optimized code, and variadic and import calls. -/
theorem C100_scripts_run_partial (hsem : SafeSem sem sig) (n f : Nat) (st : State P)
    (hf : ∀ f ∈ st.funcs, FromScript sig f) (hs : st.scopes = []) (hp : st.ptcs = [])
    (hw : ∀ i, st.world.nvars ≤ i → (st.world.env i).value = none) (hst : st.status = .next) (hk : st.stk0 ≠ []) :
    attempt sem n (.tailOrCall .none f) st ≠ some .ub := by
  refine C99_no_assertion_fails_partial (X := Xop) hsem n f st (fun f h => ?_) hs hp hw hst hk
  have h1 := hf f h
  cases f with
  | native _ => trivial
  | inst ps va code =>
    obtain ⟨c, m, ts, r, b, o, e, h2, h3, h4, h5⟩ := h1
    exact ⟨o, e, Syntax.arity, b, h4, C100_script_well_formed h2 h3, h5⟩

end

end Asteria.Exec

/-! ## Concrete cases -/

namespace Asteria.Syntax.Example

open Compile
open _root_.Asteria.Parser (Xop Punct)

/-- Names are numbered by their bytes. -/
def cfg : Cfg := ⟨fun s => s.foldl (fun a b => a * 256 + b.toNat) 0, [0x66], fun _ => 1⟩

/-- `while(x) { if(!x[0]) break; f(ref x, x ? -x : 1); } return x && catch(x++);` -/
def script : List Tok :=
  [.k .while_, .p .parOp, .ident [0x78], .p .parCl, .p .braceOp,
     .k .if_, .p .notl, .p .parOp, .ident [0x78], .p .brackOp, .int 0, .p .brackCl, .p .parCl, .k .break_, .p .semicol,
     .ident [0x66], .p .parOp, .k .ref, .ident [0x78], .p .comma,
       .ident [0x78], .p .quest, .p .sub, .ident [0x78], .p .colon, .int 1, .p .parCl, .p .semicol,
   .p .braceCl,
   .k .return_, .ident [0x78], .p .andl, .k .catch_, .p .parOp, .ident [0x78], .p .inc, .p .parCl, .p .semicol]

/-- What it is parsed to. -/
def parsed : List S :=
  [.whileS false [.localRef 0x78, .checkArg false]
     [.ifS true [.localRef 0x78, .literal (.int 0), .op .index false] [.breakS .none] [],
      .expr [.localRef 0x66, .call
        [.mk [.localRef 0x78, .checkArg true],
         .mk [.localRef 0x78, .branch [.mk .true [.localRef 0x78, .op .neg false], .mk .false [.literal (.int 1)]] false]]]]
     [],
   .returnS false [.localRef 0x78, .branch [.mk .true [.catchE [.localRef 0x78, .op .inc true]]] false],
   .returnS true []]

theorem script_parsed : reload cfg 400 script = .yes parsed [] := by rfl

theorem script_quiet : QuietSs parsed := by
  simp [parsed, QuietSs, QuietS, QuietUs, QuietU, QuietAs, QuietBs, callFreeU, callFree]

/-- It is well-formed although it is optimized, and its jumps have places to go to. -/
example : WfSs ⟨true, false, false, 2, fun _ => false⟩ arity parsed ∧ JumpSs [] parsed :=
  ⟨C100_script_well_formed script_parsed (.inr script_quiet), C101_jumps_have_targets script_parsed⟩

/-- The number of tokens is 39, so this bound is enough. -/
example : reload cfg 319 script = .yes parsed [] := by
  have h := C102_parser_ends cfg script 319 (by decide)
  rw [← (C102_bound_irrelevant cfg script 319 400 (by decide)).1 h.1]
  exact script_parsed

/-- `while(1) { func f() { break; } }`: the loop is not in the same function. -/
example : reload cfg 400 [.k .while_, .p .parOp, .int 1, .p .parCl, .p .braceOp,
    .k .func, .ident [0x66], .p .parOp, .p .parCl, .p .braceOp, .k .break_, .p .semicol, .p .braceCl, .p .braceCl] = .throw := by
  rfl

/-- `for(;;) continue for;` is accepted, `switch(1) { default: continue; }` and `do break for; while(1);` are not. -/
example : reload cfg 400 [.k .for_, .p .parOp, .p .semicol, .p .semicol, .p .parCl, .k .continue_, .k .for_, .p .semicol] =
      .yes [.forS [.block []] [] [] [.contS .for] [], .returnS true []] [] ∧
    reload cfg 400 [.k .switch, .p .parOp, .int 1, .p .parCl, .p .braceOp, .k .default, .p .colon,
      .k .continue_, .p .semicol, .p .braceCl] = .throw ∧
    reload cfg 400 [.k .do_, .k .break_, .k .for_, .p .semicol, .k .while_, .p .parOp, .int 1, .p .parCl, .p .semicol] =
      .throw := ⟨rfl, rfl, rfl⟩

/-- `x = [1, f(2), a: ]` is not an expression; `{ "k": x ?? 1 }` is. -/
example : reloadOneline cfg 400 [.ident [0x78], .p .assign, .p .brackOp, .int 1, .p .comma, .ident [0x61], .p .colon,
      .p .brackCl] = .throw ∧
    reloadOneline cfg 400 [.p .braceOp, .str [0x6B], .p .colon, .ident [0x78], .p .coales, .int 1, .p .braceCl] =
      .yes [.returnS true [.localRef 0x78, .branch [.mk .null [.literal (.int 1)]] false, .object [[0x6B]]]] [] := ⟨rfl, rfl⟩

open Exec in
/-- The nodes of C99's example. -/
def emit : Emit SafeExample.Nd Xop :=
  ⟨.op 0 0, fun _ => .op 0 1, fun x _ => .op (arity x) 1, fun _ => .op 1 1, fun _ => .op 1 1, fun x _ _ => .op (arity x - 1) 1,
    fun n => .op n 1, fun ks => .op ks.length 1, fun _ n => .unpack n, fun _ ns => .unpack ns.length,
    fun _ => false, fun _ => false, fun _ => false, fun _ => none, fun _ => true⟩

theorem emit_arity : Arity emit Exec.SafeExample.sig arity := by
  refine ⟨rfl, fun _ => rfl, fun _ _ => rfl, nofun, fun _ => rfl, nofun, fun _ => rfl, nofun, nofun, ?_, fun _ => rfl,
    fun _ => rfl, fun _ _ => rfl, fun _ _ => rfl⟩
  intro x a i _
  exact ⟨by cases x <;> decide, rfl⟩

open Exec in
/-- It is compiled with two parameters and called. -/
example (code : List (Node SafeExample.Nd)) (h : compile SafeExample.opts emit [0x66, 0x78] parsed = .ok code) (n : Nat) :
    attempt SafeExample.sem n (.tailOrCall .none 1)
      { world := ⟨fun _ => ⟨none, false⟩, 0, []⟩, funcs := [.native (.op 0 0), .inst [0x66, 0x78] false code], ptcs := []
        scopes := [], stk0 := [.temp .null []], stk1 := [.temp (.arr [.int 1, .int 2]) [], .temp .null []], status := .next
        result := .invalid, trace := [] } ≠ some .ub := by
  refine C100_scripts_run_partial SafeExample.safe n 1 _ ?_ rfl rfl (fun _ _ => rfl) rfl (by simp)
  simp only [List.mem_cons, List.not_mem_nil, or_false, forall_eq_or_imp, forall_eq]
  exact ⟨trivial, cfg, 400, script, [], parsed, SafeExample.opts, emit, script_parsed, .inr script_quiet, emit_arity, h⟩

example : ∃ code, compile Exec.SafeExample.opts emit [0x66, 0x78] parsed = .ok code := ⟨_, rfl⟩

end Asteria.Syntax.Example
