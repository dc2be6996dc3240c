import Verif.Proof.ScriptComplete
import Verif.Proof.SyntaxWithin
import Verif.Props.Syntax

/-!
# The parser and the grammar

C104: the parser accepts exactly the scripts of the grammar (Verif/Spec/Script.lean), and gives what the grammar says
they stand for.  In particular the grammar is unambiguous.
-/

namespace Asteria.Script

open Syntax Compile
open _root_.Asteria.Parser (Punct Xop)

section
variable (c : Cfg) (n : Nat) (ts : List Tok) (b : List S)

/-- **C104**, one half: what the parser gives is what the grammar says.  No matter what the bound is. -/
theorem C104_sound {r} (h : reload c n ts = .yes b r) : r = [] ∧ Document c ts b := by
  unfold reload at h
  obtain ⟨ss, q, h1, h2⟩ := need_yes h
  split at h2
  · rename_i he
    cases h2
    cases q with
    | nil => exact ⟨rfl, ss, (sound c n).stmts agree_plain h1, rfl⟩
    | cons => cases he
  · cases h2

/-- **C104**: with a bound that is enough (C102) a script is parsed if and only if it is in the grammar, to the same
statements. -/
theorem C104_scripts (hn : 8 * ts.length + 7 ≤ n) : reload c n ts = .yes b [] ↔ Document c ts b := by
  constructor
  · exact fun h => (C104_sound c n ts b h).2
  · rintro ⟨ss, h, rfl⟩
    obtain ⟨N, hN⟩ := good h rfl plain agree_plain
    have h1 : reload c (max n N) ts = .yes (ss ++ [.returnS true []]) [] := by
      have := hN (max n N) (by omega)
      simp only at this
      simp [reload, this, P.need]
    rw [← h1]
    exact ((C102_bound_irrelevant c ts n (max n N) (by omega)).1 (C102_parser_ends c ts n hn).1).symm

/-- **C104**, for snippets that are single expressions. -/
theorem C104_expressions (hn : 8 * ts.length + 7 ≤ n) : reloadOneline c n ts = .yes b [] ↔ Oneline c ts b := by
  constructor
  · intro h
    unfold reloadOneline at h
    obtain ⟨us, q, h1, h2⟩ := need_yes h
    split at h2
    · rename_i he
      cases h2
      cases q with
      | nil => exact ⟨us, (sound c n).expr h1, rfl⟩
      | cons => cases he
    · cases h2
  · rintro ⟨us, h, rfl⟩
    obtain ⟨N, hN⟩ := good h
    have h1 : reloadOneline c (max n N) ts = .yes [.returnS true us] [] := by
      have := hN (max n N) (by omega)
      simp only at this
      simp [reloadOneline, this, P.need]
    rw [← h1]
    exact ((C102_bound_irrelevant c ts n (max n N) (by omega)).2 (C102_parser_ends c ts n hn).2).symm

/-- **C104**: the grammar is unambiguous: a script stands for one sequence of statements. -/
theorem C104_unambiguous {b b' : List S} (h : Document c ts b) (h' : Document c ts b') : b = b' := by
  have h1 := (C104_scripts c _ ts b (Nat.le_refl _)).mpr h
  have h2 := (C104_scripts c _ ts b' (Nat.le_refl _)).mpr h'
  rw [h1] at h2
  cases h2
  rfl

/-- **C104**: if there is no `__vcall` and no `import`, the parser throws an exception on everything that is not in the
grammar. -/
theorem C104_rejects (hn : 8 * ts.length + 7 ≤ n) (hv : .k .vcall ∉ ts) (hi : .k .import_ ∉ ts)
    (h : ¬ ∃ b, Document c ts b) : reload c n ts = .throw := by
  have h1 := (C102_parser_ends c ts n hn).1
  have h2 : Safe (reload c n ts) := by
    refine ((safes c n).stmts plain ts ⟨hv, hi⟩).need fun b r h => ?_
    split
    · exact safe_yes ⟨by simp, by simp⟩
    · exact safe_throw
  have h3 := h2.1
  have h4 : reload c n ts ≠ .no := by
    unfold reload
    intro h'
    cases h5 : stmts c n plain ts with
    | yes a r => rw [h5] at h'; simp only [P.need] at h'; split at h' <;> cases h'
    | _ => rw [h5] at h'; cases h'
  cases h5 : reload c n ts with
  | yes b r =>
    obtain ⟨rfl, h6⟩ := C104_sound c n ts b h5
    exact absurd ⟨b, h6⟩ h
  | throw => rfl
  | no => exact absurd h5 h4
  | out => exact absurd h5 h3
  | fuel => exact absurd h5 h1

end

end Asteria.Script

/-! ## Concrete cases -/

namespace Asteria.Script.Example

open Syntax Compile Syntax.Example
open _root_.Asteria.Parser (Punct Xop)

/-- The script of C100 is in the grammar and stands for that. -/
example : Document cfg script parsed := (C104_scripts cfg 400 script parsed (by decide)).mp script_parsed

/-- `if(a) if(b) x; else y;` -/
def dangling : List Tok :=
  [.k .if_, .p .parOp, .int 1, .p .parCl, .k .if_, .p .parOp, .int 2, .p .parCl, .ident [0x78], .p .semicol,
   .k .else_, .ident [0x79], .p .semicol]

/-- The `else` belongs to the inner `if`, and it cannot be read otherwise. -/
example : Document cfg dangling
      [.ifS false [.literal (.int 1)] [.ifS false [.literal (.int 2)] [.expr [.localRef 0x78]] [.expr [.localRef 0x79]]] [],
       .returnS true []] ∧
    ¬ Document cfg dangling
      [.ifS false [.literal (.int 1)] [.ifS false [.literal (.int 2)] [.expr [.localRef 0x78]] []] [.expr [.localRef 0x79]],
       .returnS true []] := by
  have h := (C104_scripts cfg 400 dangling _ (by decide)).mp rfl
  exact ⟨h, fun h' => by cases C104_unambiguous cfg dangling h h'⟩

/-- `a = b ? c : d || e * -f[0]` is read from the right at `=` and `?`, and the prefix operator applies to the element. -/
example : Oneline cfg
      [.ident [0x61], .p .assign, .ident [0x62], .p .quest, .ident [0x63], .p .colon, .ident [0x64], .p .orl, .ident [0x65],
       .p .mul, .p .sub, .ident [0x66], .p .brackOp, .int 0, .p .brackCl]
      [.returnS true [.localRef 0x61, .localRef 0x62, .branch
        [.mk .true [.localRef 0x63],
         .mk .false [.localRef 0x64, .branch [.mk .false
           [.localRef 0x65, .localRef 0x66, .literal (.int 0), .op .index false, .op .neg false, .op .mul false]] false]] false,
        .op .assign true]] :=
  (C104_expressions cfg 400 _ _ (by decide)).mp rfl

/-- `for(;;) func f() {}` is not in the grammar: the body is no declaration.  Hence it is rejected. -/
example : ¬ ∃ b, Document cfg [.k .for_, .p .parOp, .p .semicol, .p .semicol, .p .parCl, .k .func, .ident [0x66], .p .parOp,
    .p .parCl, .p .braceOp, .p .braceCl] b := by
  rintro ⟨b, h⟩
  have := (C104_scripts cfg 400 _ b (by decide)).mpr h
  cases this

/-- `{ a: 1 };` as a statement is a block, so `:` is a mistake. -/
example : reload cfg 400 [.p .braceOp, .ident [0x61], .p .colon, .int 1, .p .braceCl, .p .semicol] = .throw := by
  refine C104_rejects cfg 400 _ (by decide) (by simp) (by simp) ?_
  rintro ⟨b, h⟩
  have := (C104_scripts cfg 400 _ b (by decide)).mpr h
  cases this

end Asteria.Script.Example
