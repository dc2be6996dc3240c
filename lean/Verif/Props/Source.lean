import Verif.Proof.Source
import Verif.Props.LexExact
import Verif.Props.Script

/-!
# From the text of a script to its statements

C110: the text of a script is accepted if and only if it is divided into tokens by the lexical grammar
(Verif/Spec/LexExact.lean) and the tokens are a script by the grammar of statements (Verif/Spec/Script.lean).
-/

namespace Asteria.Source

open Syntax (Kw Cfg S P QuietSs)
open Compile (Opts WfSs)
open Utf (WellFormed)

/-- What the lexer calls a keyword is one of the keywords of the parser. -/
theorem keyword (w : Bytes) (h : w ∈ Lexer.Spec.keywords.map Lexer.Spec.bytes) : ∃ k : Kw, k.text = w ∧ token (.kw w) = .k k := by
  have := (by decide +kernel : ∀ w ∈ Lexer.Spec.keywords.map Lexer.Spec.bytes, ∃ k ∈ Kw.all, k.text = w ∧ Kw.all.find? (fun k => k.text = w) = some k) w h
  obtain ⟨k, _, h1, h2⟩ := this
  exact ⟨k, h1, by unfold token; simp only [h2]⟩

section
variable (c : Cfg) (n : Nat) (src : Bytes) (hw : WellFormed src) (hl : src.length ≤ 2 ^ 57) (hn : 8 * src.length + 7 ≤ n)

theorem map_ok {α β : Type} {x : Res α} {f : α → β} {b : β} : x.map f = .ok b ↔ ∃ a, x = .ok a ∧ f a = b := by
  cases x <;> simp [Res.map]

include hw hl hn

/-- **C110.** -/
theorem C110_scripts (b : List S) :
    reload c n src = .ok (.yes b []) ↔ ∃ toks, Lexer.Spec.Source realOf src toks ∧ Script.Document c (toks.map token) b := by
  unfold reload
  rw [map_ok]
  constructor
  · rintro ⟨toks, h1, h2⟩
    have h3 := (Lexer.C109_source Lexer.C109_conversion src hw hl toks).mp h1
    exact ⟨toks, h3, (Script.C104_sound c n _ b h2).2⟩
  · rintro ⟨toks, h1, h2⟩
    have h3 := Lexer.source_length Lexer.C109_conversion hl h1
    exact ⟨toks, (Lexer.C109_source Lexer.C109_conversion src hw hl toks).mpr h1,
      (Script.C104_scripts c n _ b (by rw [List.length_map]; omega)).mpr h2⟩

/-- **C110**, for snippets that are single expressions. -/
theorem C110_expressions (b : List S) :
    reloadOneline c n src = .ok (.yes b []) ↔ ∃ toks, Lexer.Spec.Source realOf src toks ∧ Script.Oneline c (toks.map token) b := by
  unfold reloadOneline
  rw [map_ok]
  constructor
  · rintro ⟨toks, h1, h2⟩
    have h3 := (Lexer.C109_source Lexer.C109_conversion src hw hl toks).mp h1
    have h4 := Lexer.source_length Lexer.C109_conversion hl h3
    exact ⟨toks, h3, (Script.C104_expressions c n _ b (by rw [List.length_map]; omega)).mp h2⟩
  · rintro ⟨toks, h1, h2⟩
    have h3 := Lexer.source_length Lexer.C109_conversion hl h1
    exact ⟨toks, (Lexer.C109_source Lexer.C109_conversion src hw hl toks).mpr h1,
      (Script.C104_expressions c n _ b (by rw [List.length_map]; omega)).mpr h2⟩

/-- **C110**: if `__vcall` and `import` do not occur, everything else is rejected with an exception, of the lexer or of the
parser. -/
theorem C110_rejects (h : ¬ ∃ toks b, Lexer.Spec.Source realOf src toks ∧ Script.Document c (toks.map token) b)
    (hv : ∀ toks, Lexer.Spec.Source realOf src toks → .kw (Lexer.Spec.bytes "__vcall") ∉ toks ∧ .kw (Lexer.Spec.bytes "import") ∉ toks) :
    reload c n src = .throw ∨ reload c n src = .ok .throw := by
  by_cases h1 : ∃ toks, Lexer.Spec.Source realOf src toks
  · obtain ⟨toks, h1⟩ := h1
    right
    have h2 := (Lexer.C109_source Lexer.C109_conversion src hw hl toks).mpr h1
    have h3 := Lexer.source_length Lexer.C109_conversion hl h1
    obtain ⟨v1, v2⟩ := hv toks h1
    have key : ∀ k : Kw, .k k ∈ toks.map token → .kw k.text ∈ toks := by
      intro k hk
      obtain ⟨t, ht, he⟩ := List.mem_map.1 hk
      cases t with
      | kw w =>
        obtain ⟨k', e1, e2⟩ := keyword w (Lexer.source_keywords h1 w ht)
        rw [e2] at he
        cases he
        rw [e1]
        exact ht
      | _ => cases he
    unfold reload
    rw [h2]
    have := Script.C104_rejects c n (toks.map token) (by rw [List.length_map]; omega)
      (fun hk => v1 (by have := key _ hk; rwa [show Kw.vcall.text = Lexer.Spec.bytes "__vcall" by decide +kernel] at this))
      (fun hk => v2 (by have := key _ hk; rwa [show Kw.import_.text = Lexer.Spec.bytes "import" by decide +kernel] at this))
      (fun ⟨b, hb⟩ => h ⟨toks, b, h1, hb⟩)
    rw [Res.map, this]
  · left
    unfold reload
    rw [Lexer.C109_rejects Lexer.C109_conversion src hw hl h1]
    rfl

end

/-- **C110**: what is accepted is well-formed, and jumps have a place to go to. -/
theorem C110_well_formed {c : Cfg} {n : Nat} {src : Bytes} {b : List S} {r : List Syntax.Tok} (h : reload c n src = .ok (.yes b r)) (o : Opts)
    (hq : o.level = 0 ∨ QuietSs b) : WfSs o Syntax.arity b ∧ Syntax.JumpSs [] b := by
  unfold reload at h
  rw [map_ok] at h
  obtain ⟨toks, _, h2⟩ := h
  exact ⟨Syntax.C100_script_well_formed h2 hq, Syntax.C101_jumps_have_targets h2⟩

/-! ### Concrete cases -/

/-- A script. -/
def text : String := "for(;;) { x += 0x10; if(x > 1`00) break; }  // a comment\n"

/-- Its tokens. -/
def tokens : List (Lexer.Tok Nat) :=
  [.kw Kw.for_.text, .punct .parOp, .punct .semicol, .punct .semicol, .punct .parCl, .punct .braceOp,
   .ident [0x78], .punct .addEq, .int 16, .punct .semicol,
   .kw Kw.if_.text, .punct .parOp, .ident [0x78], .punct .cmpGt, .int 100, .punct .parCl,
   .kw Kw.break_.text, .punct .semicol, .punct .braceCl]

/-- The grammars say what it stands for. -/
example : Lexer.Spec.Source realOf (Lexer.Spec.bytes text) tokens ∧ Script.Document Syntax.Example.cfg (tokens.map token)
    [.forS [.block []] [] [] [.expr [.localRef 0x78, .literal (.int 16), .op .add true],
      .ifS false [.localRef 0x78, .literal (.int 100), .op .cmpGt false] [.breakS .none] []] [], .returnS true []] := by
  have hr : Lexer.reload realOf (Lexer.Spec.bytes text) = .ok tokens := Lexer.gives (by decide +kernel)
  have h : reload Syntax.Example.cfg 500 (Lexer.Spec.bytes text) = .ok (.yes
      [.forS [.block []] [] [] [.expr [.localRef 0x78, .literal (.int 16), .op .add true],
        .ifS false [.localRef 0x78, .literal (.int 100), .op .cmpGt false] [.breakS .none] []] [], .returnS true []] []) := by
    unfold reload
    rw [hr]
    rfl
  obtain ⟨toks, h1, h2⟩ := (C110_scripts Syntax.Example.cfg 500 (Lexer.Spec.bytes text) (Lexer.ascii (by decide +kernel)) (by decide +kernel)
    (by decide +kernel) _).mp h
  have h3 := (Lexer.C109_source Lexer.C109_conversion (Lexer.Spec.bytes text) (Lexer.ascii (by decide +kernel)) (by decide +kernel) tokens).mp hr
  cases Lexer.C109_unambiguous Lexer.C109_conversion _ (Lexer.ascii (by decide +kernel)) (by decide +kernel) h1 h3
  exact ⟨h1, h2⟩

/-- `if x` is not, and `__vcall` and `import` do not occur in it. -/
example : reload Syntax.Example.cfg 500 (Lexer.Spec.bytes "if x") = .throw ∨ reload Syntax.Example.cfg 500 (Lexer.Spec.bytes "if x") = .ok .throw := by
  have hr : Lexer.reload realOf (Lexer.Spec.bytes "if x") = .ok [.kw Kw.if_.text, .ident [0x78]] := Lexer.gives (by decide +kernel)
  have only : ∀ toks, Lexer.Spec.Source realOf (Lexer.Spec.bytes "if x") toks → toks = [.kw Kw.if_.text, .ident [0x78]] := by
    intro toks h
    have := (Lexer.C109_source Lexer.C109_conversion (Lexer.Spec.bytes "if x") (Lexer.ascii (by decide +kernel)) (by decide +kernel) toks).mpr h
    rw [hr] at this
    exact (Res.ok.inj this).symm
  refine C110_rejects Syntax.Example.cfg 500 _ (Lexer.ascii (by decide +kernel)) (by decide +kernel) (by decide +kernel) ?_ ?_
  · rintro ⟨toks, b, h1, h2⟩
    cases only toks h1
    have := (Script.C104_scripts Syntax.Example.cfg 500 _ b (by decide)).mpr h2
    have e : [Lexer.Tok.kw Kw.if_.text, .ident [0x78]].map token = [.k .if_, .ident [0x78]] := by rfl
    rw [e] at this
    cases this
  · intro toks h
    cases only toks h
    decide +kernel

end Asteria.Source
