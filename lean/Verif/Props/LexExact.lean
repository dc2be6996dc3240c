import Verif.Proof.LexExact
import Verif.Model.Source
import Verif.Props.Lexer

/-!
# The lexer and the lexical grammar

C109: a text is divided into tokens if and only if the lexical grammar (Verif/Spec/LexExact.lean) says how, and it gives
those tokens.  All other texts are rejected with an exception.
-/

namespace Asteria.Lexer

open Spec (Source Saturates Token Splits Numeral Denotes)
open Utf (WellFormed)
open NumText (NumGet)

section
variable {R : Type} {castD : NumGet → Option R}

/-- **C109.**  The lexer follows the grammar, whatever the conversion of real numbers is as long as it does not depend on
how large the huge exponents are.  The bound on the length has to do with exponents; there is no text as long as that. -/
theorem C109_source (hsat : Saturates castD) (src : Bytes) (hw : WellFormed src) (hl : src.length ≤ 2 ^ 57) (toks : List (Tok R)) :
    reload castD src = .ok toks ↔ Source castD src toks :=
  reload_exact hsat src hw hl toks

/-- **C109**: all other texts are rejected. -/
theorem C109_rejects (hsat : Saturates castD) (src : Bytes) (hw : WellFormed src) (hl : src.length ≤ 2 ^ 57)
    (h : ¬ ∃ toks, Source castD src toks) : reload castD src = .throw := by
  have h1 := C83_no_ub_partial (castD := castD) src hw
  cases h2 : reload castD src with
  | ok toks => exact absurd ⟨toks, (C109_source hsat src hw hl toks).mp h2⟩ h
  | throw => rfl
  | ub => exact absurd h2 h1

/-- **C109**: there is one way to divide a text into tokens. -/
theorem C109_unambiguous (hsat : Saturates castD) (src : Bytes) (hw : WellFormed src) (hl : src.length ≤ 2 ^ 57)
    {toks toks' : List (Tok R)} (h : Source castD src toks) (h' : Source castD src toks') : toks = toks' := by
  have h1 := (C109_source hsat src hw hl toks).mpr h
  rw [(C109_source hsat src hw hl toks').mpr h'] at h1
  exact (Res.ok.inj h1).symm

/-- **C109** for one token: what is taken at the beginning of a text other than a comment. -/
theorem C109_token (hsat : Saturates castD) (prev : List (Tok R)) (s : Bytes) (hl : s.length ≤ 2 ^ 57)
    (h1 : ¬ [47, 47] <+: s) (h2 : ¬ [47, 42] <+: s) (t : Tok R) (rest : Bytes) :
    token castD prev.head? s = .ok (some (t, rest)) ↔ ∃ w, s = w ++ rest ∧ Token castD prev t w rest := by
  constructor
  · exact token_sound hsat hl h1 h2
  · rintro ⟨w, rfl, h⟩
    rw [List.length_append] at hl
    exact (token_complete hsat h (by omega)).1

end

/-- **C109**: the actual conversion of real numbers is as required. -/
theorem C109_conversion : Saturates Source.realOf := by
  intro g e h
  unfold Source.realOf RealText.castD
  simp only
  generalize (if g.sign = true then 2 ^ 63 else 0) = sg
  by_cases h0 : g.mant = 0
  · rw [if_pos h0, if_pos h0]
  · rw [if_neg h0, if_neg h0]
    rcases h with ⟨h1, h2⟩ | ⟨h1, h2⟩
    · rw [if_neg (by omega), if_pos (by omega), if_neg (by omega), if_pos (by omega)]
    · rw [if_pos (by omega), if_pos (by omega)]

/-! ### Concrete cases -/

theorem gives {src : String} {toks : List (Tok Nat)}
    (h : (match reload Source.realOf (Spec.bytes src) with | .ok t => decide (t = toks) | _ => false) = true) :
    reload Source.realOf (Spec.bytes src) = .ok toks := by
  cases h1 : reload Source.realOf (Spec.bytes src) with
  | ok t => rw [h1] at h; rw [of_decide_eq_true h]
  | throw => rw [h1] at h; cases h
  | ub => rw [h1] at h; cases h

theorem fails {src : String}
    (h : (match reload Source.realOf (Spec.bytes src) with | .throw => true | _ => false) = true) :
    ∀ toks, reload Source.realOf (Spec.bytes src) ≠ .ok toks := by
  intro toks h1
  rw [h1] at h
  cases h

theorem ascii {src : String} (h : (Spec.bytes src).all (fun c => c.toNat < 128) = true) : WellFormed (Spec.bytes src) :=
  wf_ascii (by simpa using h)

/-- All kinds of tokens and comments.  `0x1`F.8p1` is 63; in front of it there is a sign. -/
example : Source Source.realOf (Spec.bytes "#!/usr/bin/asteria\nvar _x=-0x1`F.8p1;// */ \"\n/*'/*/a -1>>>=[?]-1e3 'b\\' \"\\x41\\n\"Infinity\n")
    [.kw (Spec.bytes "var"), .ident (Spec.bytes "_x"), .punct .assign, .real 0xC04F800000000000, .punct .semicol,
     .ident (Spec.bytes "a"), .punct .sub, .int 1, .punct .srlEq, .punct .random, .int (-1000), .str (Spec.bytes "b\\"), .str (Spec.bytes "A\n"),
     .inf false] :=
  (C109_source C109_conversion _ (ascii (by decide +kernel)) (by decide +kernel) _).mp (gives (by decide +kernel))

/-- The hypotheses of C109_token: `0x7F;`. -/
example : Token Source.realOf [] (.int 127) (Spec.bytes "0x7F") (Spec.bytes ";") := by
  obtain ⟨w, h1, h2⟩ := (C109_token C109_conversion ([] : List (Tok Nat)) (Spec.bytes "0x7F;") (by decide +kernel) (by decide +kernel) (by decide +kernel)
    (.int 127) (Spec.bytes ";")).mp (by decide +kernel)
  have : w = Spec.bytes "0x7F" := List.append_cancel_right (bs := Spec.bytes ";") (by rw [← h1]; decide +kernel)
  rwa [this] at h2

/-- An underscore does not separate digits, though names may begin with one: there are two tokens. -/
theorem C109_underscore : Source Source.realOf (Spec.bytes "1_000") [.int 1, .ident (Spec.bytes "_000")] :=
  (C109_source C109_conversion _ (ascii (by decide +kernel)) (by decide +kernel) _).mp (gives (by decide +kernel))

/-- A separator may be between `0` and `x`. -/
theorem C109_separator : Source Source.realOf (Spec.bytes "0`x`1`0") [.int 16] :=
  (C109_source C109_conversion _ (ascii (by decide +kernel)) (by decide +kernel) _).mp (gives (by decide +kernel))

/-- An integer within the range that is rejected: 2^61 + 1, whose last bit is in a digit that does not fit into 64 bits. -/
theorem C109_inexact : ¬ ∃ toks, Source Source.realOf (Spec.bytes "0x10000000000000008p-3") toks := by
  rintro ⟨toks, h⟩
  exact fails (by decide +kernel) toks ((C109_source C109_conversion _ (ascii (by decide +kernel)) (by decide +kernel) _).mpr h)

/-- A comment that is not closed, a number with a suffix, an integer that is too large, a fraction that is not an integer, a
mark of a conflict. -/
example : ∀ s ∈ ["/* a", "12u", "0x8000000000000000", "15e-1", "a\n=======\nb", "'abc", "1.0e+309", "1.e-400"],
    ¬ ∃ toks, Source Source.realOf (Spec.bytes s) toks := by
  intro s hs ⟨toks, h⟩
  simp only [List.mem_cons, List.not_mem_nil, or_false] at hs
  rcases hs with rfl | rfl | rfl | rfl | rfl | rfl | rfl | rfl <;>
    exact fails (by decide +kernel) toks ((C109_source C109_conversion _ (ascii (by decide +kernel)) (by decide +kernel) _).mpr h)

end Asteria.Lexer
