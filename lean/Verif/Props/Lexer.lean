import Verif.Proof.LexerReload

namespace Asteria.Lexer

open Spec (bytes text IsPrefix IsSign IsDigits NumEnd MaySign SignOk Lexeme Spells SpellsAll)
open NumText (NumGet)
open Utf (WellFormed)
open Asteria.Parser (Punct)

variable {R : Type} {castD : NumGet → Option R}

/-! ### C61 -/

/-- **C61.** `do_accept_punctuator` takes `p` exactly when `p` is the longest punctuator at the start of the text. -/
theorem C61_longest (s : Bytes) (p : Punct) (rest : Bytes) :
    acceptPunct s = some (p, rest) ↔
      s = bytes (text p) ++ rest ∧ ∀ q, bytes (text q) <+: s → (bytes (text q)).length ≤ (bytes (text p)).length := by
  constructor
  · exact acceptPunct_some
  · rintro ⟨rfl, h⟩; exact acceptPunct_eq h

/-- **C61.** It takes nothing exactly when no punctuator is at the start. -/
theorem C61_none (s : Bytes) : acceptPunct s = none ↔ ∀ q, ¬ bytes (text q) <+: s := by
  constructor
  · intro h q hq
    -- the longest one would have been taken
    have : ∀ n, ∀ q, bytes (text q) <+: s → 5 - (bytes (text q)).length = n → False := by
      intro n
      induction n using Nat.strongRecOn with
      | _ n ih =>
        intro q hq hn
        have hle : ∀ q : Punct, (bytes (text q)).length ≤ 4 := by intro q; cases q <;> decide +kernel
        by_cases hl : ∀ q', bytes (text q') <+: s → (bytes (text q')).length ≤ (bytes (text q)).length
        · obtain ⟨t, rfl⟩ := hq
          rw [acceptPunct_eq hl] at h
          cases h
        · simp only [not_forall] at hl
          obtain ⟨q', h1, h2⟩ := hl
          exact ih (5 - (bytes (text q')).length) (by have := hle q'; omega) q' h1 rfl
    exact this _ q hq rfl
  · exact acceptPunct_none

/-- **C61.** No two punctuators have the same text. -/
theorem C61_distinct (p q : Punct) (h : bytes (text p) = bytes (text q)) : p = q := text_inj p q h

/-- **C61 (in a program).** Where a line goes on with a punctuator, the longest one becomes the next token, unless it starts
a comment or is the sign of a literal. -/
theorem C61_lex (toks : List (Tok R)) (p : Punct) (rest : Bytes)
    (hl : ∀ q, bytes (text q) <+: bytes (text p) ++ rest → (bytes (text q)).length ≤ (bytes (text p)).length)
    (hc : p = .div → ¬ [0x2F] <+: rest ∧ ¬ [0x2A] <+: rest)
    (hn : p = .add ∨ p = .sub → Spec.NumStart rest →
      ∃ t, toks.head? = some t ∧ Spec.endsExpr t = true ∧ t ≠ .punct .random) :
    lexFrom castD false toks (bytes (text p) ++ rest) = lexFrom castD false (.punct p :: toks) rest := by
  obtain ⟨h1, h2⟩ := lexeme_token (castD := castD) (Lexeme.punct hl hc hn)
  exact lexFrom_token (wf_ascii (puncts_ascii _ (puncts_all p)).2) h2.space h2.line h2.block h1

/-- `>>>=>` is `>>>=` and then `>`. -/
example : acceptPunct [62, 62, 62, 61, 62] = some (.srlEq, [62]) ∧ acceptPunct [62] = some (.cmpGt, []) ∧
    acceptPunct [46, 46, 62] = some (.dot, [46, 62]) ∧ acceptPunct [64] = none := by decide +kernel

/-! ### C62 -/

/-- The claim of C62: a comment ends at the first `*/`. -/
def C62_claim : Prop := ∀ (R : Type) (castD : NumGet → Option R) (toks : List (Tok R)) (x rest : Bytes),
  WellFormed x → ¬ [42, 47] <:+: x ++ [42] →
    lexFrom castD false toks (47 :: 42 :: (x ++ 42 :: 47 :: rest)) = lexFrom castD false toks rest

/-- **C62 does not hold**: in `/* a*b */;` only the asterisk of `a*b` is looked at, and the comment stays open. -/
theorem C62_false : ¬ C62_claim := by
  intro h
  have := h Unit (fun _ => none) [] [32, 97, 42, 98, 32] [59] (wf_ascii (by decide +kernel)) (by decide +kernel)
  have h1 : lexFrom (fun _ => none) false ([] : List (Tok Unit)) (47 :: 42 :: ([32, 97, 42, 98, 32] ++ 42 :: 47 :: [59])) =
      .ok (true, []) := by
    rw [lexFrom_open]; decide +kernel
  have h2 : lexFrom (fun _ => none) false ([] : List (Tok Unit)) [59] = .ok (false, [.punct .semicol]) := by decide +kernel
  rw [h1, h2] at this
  cases this

/-- **C62, partial.** A comment on one line whose text has no other asterisk is skipped. -/
theorem C62_skip_partial (toks : List (Tok R)) (x rest : Bytes) (hw : WellFormed x) (hx : ∀ c ∈ x, c ≠ 42) :
    lexFrom castD false toks (47 :: 42 :: (x ++ 42 :: 47 :: rest)) = lexFrom castD false toks rest := by
  rw [lexFrom_open, lexFrom_close toks x rest hx hw]

/-- **C62, partial.** The same over several lines: after its opening, the comment goes on over all lines without an
asterisk, and the line with the `*/` continues after it. -/
theorem C62_lines_partial (toks : List (Tok R)) (x : Bytes) (mid : List Bytes) (y rest : Bytes) (ls : List Bytes)
    (hx : Plain (47 :: 42 :: x)) (hx' : ∀ c ∈ x, c ≠ 42) (hm : ∀ l ∈ mid, Plain l ∧ ∀ c ∈ l, c ≠ 42)
    (hy : Plain (y ++ 42 :: 47 :: rest)) (hy' : ∀ c ∈ y, c ≠ 42) (hw : WellFormed y) :
    allLines castD false false toks ((47 :: 42 :: x) :: (mid ++ (y ++ 42 :: 47 :: rest) :: ls)) =
      (lexFrom castD false toks rest).bind fun r => allLines castD false r.1 r.2 ls := by
  have hmid : allLines castD false true toks (mid ++ (y ++ 42 :: 47 :: rest) :: ls) =
      (lexFrom castD false toks rest).bind fun r => allLines castD false r.1 r.2 ls := by
    induction mid with
    | nil =>
      simp only [List.nil_append, allLines, line]
      rw [if_neg (by simp), checked_plain hy, lexFrom_close toks y rest hy' hw]
    | cons l mid ih =>
      simp only [List.cons_append, allLines, line]
      rw [if_neg (by simp), checked_plain (hm l (by simp)).1, lexFrom_inside _ _ (hm l (by simp)).2]
      exact ih fun x h => hm x (List.mem_cons_of_mem _ h)
  rw [allLines, line, if_neg (by simp), checked_plain hx, lexFrom_open, lexFrom_inside _ _ hx']
  exact hmid

/-- `/* a+b */;` -/
example : lexFrom (fun _ => none) false ([] : List (Tok Unit)) (47 :: 42 :: ([32, 97, 43, 98, 32] ++ 42 :: 47 :: [59])) =
    .ok (false, [.punct .semicol]) := by
  rw [C62_skip_partial _ _ _ (wf_ascii (by decide +kernel)) (by decide +kernel)]
  decide +kernel

/-! ### C63 -/

/-- **C63.** What `c_quote` gives, between quotation marks, is lexed as a string literal with the original bytes. -/
theorem C63_quote (toks : List (Tok R)) (s rest : Bytes) :
    lexFrom castD false toks (34 :: (cQuote s ++ [34]) ++ rest) = lexFrom castD false (.str s :: toks) rest := by
  obtain ⟨h1, h2⟩ := lexeme_token (castD := castD) (prev := toks) (rest := rest) (Lexeme.quoted (cQuote_quoted s))
  refine lexFrom_token (wf_ascii ?_) h2.space h2.line h2.block h1
  intro c hc
  simp only [List.mem_cons, List.mem_append, List.not_mem_nil, or_false] at hc
  rcases hc with rfl | hc | rfl
  · decide +kernel
  · have := cQuote_printable s c hc; omega
  · decide +kernel

/-- **C63.** The quoted text consists of printable ASCII characters, on one line. -/
theorem C63_printable (s : Bytes) : ∀ c ∈ cQuote s, 0x20 ≤ c.toNat ∧ c.toNat ≤ 0x7E := cQuote_printable s

/-- **C63 (as a program).** A program of nothing but the literal has the one token. -/
theorem C63_reload (s : Bytes) : reload castD (34 :: (cQuote s ++ [34])) = .ok [.str s] := by
  have hasc : ∀ c ∈ 34 :: (cQuote s ++ [34]), 0x20 ≤ c.toNat ∧ c.toNat ≤ 0x7E := by
    intro c hc
    simp only [List.mem_cons, List.mem_append, List.not_mem_nil, or_false] at hc
    rcases hc with rfl | hc | rfl
    · decide +kernel
    · exact cQuote_printable s c hc
    · decide +kernel
  have hp : Plain (34 :: (cQuote s ++ [34])) := by
    refine ⟨wf_ascii fun c hc => by have := hasc c hc; omega, fun h => ?_, ?_⟩
    · have := hasc 0 h; simp at this
    · intro c hc
      simp only [List.mem_cons, List.not_mem_nil, or_false] at hc
      rintro ⟨t, e⟩
      rcases hc with rfl | rfl | rfl | rfl <;> simp [List.replicate] at e
  have hf : FirstOk (34 :: (cQuote s ++ [34])) := by
    constructor <;> rintro ⟨t, e⟩ <;> simp at e
  have hl := getlines_last (34 :: (cQuote s ++ [34])) (fun h => by have := hasc 10 h; simp at this) (by simp) []
  have := C63_quote (castD := castD) [] s []
  simp only [List.append_nil] at this
  rw [lexFrom_nil] at this
  unfold reload
  rw [hl, allLines_first (by intro l e; cases e; exact hf)]
  simp only [List.nil_append, allLines, line]
  rw [if_neg (by simp), checked_plain hp, this]
  rfl

/-- A string with a quotation mark, a line feed, a zero byte and a byte that is not UTF-8 is read back. -/
example : cQuote [34, 10, 0, 200, 65] = [92, 34, 92, 110, 92, 48, 92, 120, 67, 56, 65] := by decide +kernel

/-! ### C81 -/

/-- **C81.** A word, that is, the longest run of letters, digits and underscores that starts with no digit, is one
token: the keyword with exactly that spelling, or else an identifier. -/
theorem C81_word (toks : List (Tok R)) (w rest : Bytes) (h : Spec.Name w)
    (hr : ∀ c t, rest = c :: t → Spec.letter c = false ∧ Spec.digit c = false)
    (hn : w ∉ [bytes "nan", bytes "NaN", bytes "infinity", bytes "Infinity"]) :
    lexFrom castD false toks (w ++ rest) =
      lexFrom castD false ((if w ∈ Spec.keywords.map bytes then .kw w else .ident w) :: toks) rest :=
  lexFrom_token (wf_ascii (name_ascii h)) (name_starts h).space (name_starts h).line (name_starts h).block
    (token_word h hn hr)

/-- `iff(` starts with an identifier although `if` is a keyword. -/
example : lexFrom (fun _ => none) false ([] : List (Tok Unit)) [105, 102, 102, 40] =
    .ok (false, [.punct .parOp, .ident [105, 102, 102]]) := by decide +kernel

/-! ### C82 -/

/-- The claim of C82: after a token that may end an expression, a sign is an operator. -/
def C82_claim : Prop := ∀ (R : Type) (castD : NumGet → Option R) (toks : List (Tok R)) (t : Tok R) (rest : Bytes),
  Spec.endsExpr t = true → Spec.NumStart rest →
    lexFrom castD false (t :: toks) (45 :: rest) = lexFrom castD false (.punct .sub :: t :: toks) rest ∧
    lexFrom castD false (t :: toks) (43 :: rest) = lexFrom castD false (.punct .add :: t :: toks) rest

/-- A number is no part of a longer punctuator. -/
theorem sign_longest (rest : Bytes) (h : Spec.NumStart rest) :
    Spec.Longest .sub (45 :: rest) ∧ Spec.Longest .add (43 :: rest) := by
  have hr : ∃ c t, rest = c :: t ∧ (Spec.digit c = true ∨ Spec.letter c = true) := by
    rcases h with ⟨c, t, e, hd⟩ | h
    · exact ⟨c, t, e, .inl hd⟩
    · cases rest with
      | nil => exact absurd h (by decide +kernel)
      | cons c t =>
        refine ⟨c, t, rfl, ?_⟩
        by_cases hc : (Spec.letter c || Spec.digit c) = true
        · simpa [or_comm] using hc
        · unfold Spec.word at h
          rw [List.takeWhile_cons_of_neg (by simpa using hc)] at h
          exact absurd h (by decide +kernel)
  obtain ⟨c, t, rfl, hc⟩ := hr
  have two : ∀ p : Punct, (bytes (text p)).length ≤ 1 ∨
      (Spec.digit ((bytes (text p)).getD 1 0) = false ∧ Spec.letter ((bytes (text p)).getD 1 0) = false) := by
    intro p; cases p <;> decide +kernel
  have key : ∀ a : UInt8, ∀ q : Punct, bytes (text q) <+: a :: c :: t → (bytes (text q)).length ≤ 1 := by
    intro a q hq
    rcases two q with h | ⟨h1, h2⟩
    · exact h
    · obtain ⟨u, e⟩ := hq
      cases hb : bytes (text q) with
      | nil => simp
      | cons x y =>
        cases y with
        | nil => simp
        | cons y z =>
          rw [hb] at e h1 h2
          simp only [List.cons_append, List.cons.injEq] at e
          simp only [List.getD_cons_succ, List.getD_cons_zero] at h1 h2
          rw [e.2.1] at h1 h2
          rcases hc with hc | hc
          · rw [h1] at hc; cases hc
          · rw [h2] at hc; cases hc
  have l1 : (bytes (text .sub)).length = 1 := by decide +kernel
  have l2 : (bytes (text .add)).length = 1 := by decide +kernel
  exact ⟨fun q hq => by rw [l1]; exact key _ q hq, fun q hq => by rw [l2]; exact key _ q hq⟩

/-- **C82, partial.** It is so after every token but `[?]`. -/
theorem C82_operator_partial (toks : List (Tok R)) (t : Tok R) (rest : Bytes) (h : Spec.endsExpr t = true)
    (h' : t ≠ .punct .random) (hn : Spec.NumStart rest) :
    lexFrom castD false (t :: toks) (45 :: rest) = lexFrom castD false (.punct .sub :: t :: toks) rest ∧
    lexFrom castD false (t :: toks) (43 :: rest) = lexFrom castD false (.punct .add :: t :: toks) rest := by
  have e1 : bytes (text .add) = [43] := by decide +kernel
  have e2 : bytes (text .sub) = [45] := by decide +kernel
  obtain ⟨g1, g2⟩ := sign_longest rest hn
  have a := C61_lex (castD := castD) (t :: toks) .sub rest (by have := g1; rw [show (45 :: rest) = bytes (text .sub) ++ rest by rw [e2]; rfl] at this; exact this)
    (by intro h; cases h) (fun _ _ => ⟨t, rfl, h, h'⟩)
  have b := C61_lex (castD := castD) (t :: toks) .add rest (by have := g2; rw [show (43 :: rest) = bytes (text .add) ++ rest by rw [e1]; rfl] at this; exact this)
    (by intro h; cases h) (fun _ _ => ⟨t, rfl, h, h'⟩)
  rw [e2] at a
  rw [e1] at b
  exact ⟨a, b⟩

/-! ### C84 -/

/-- **C84.** An integer literal in any base, of any length, with separators and with a sign where one may be, is the integer
that its digits denote if that is an integer of the language, and is an error otherwise. -/
theorem C84_integer (toks : List (Tok R)) (sgn pre u rest : Bytes) (neg : Bool) (base : Nat) (ds : List Nat)
    (hs : IsSign sgn neg) (ho : SignOk toks sgn) (hp : IsPrefix base pre) (hu : IsDigits base u ds) (he : NumEnd rest) :
    lexFrom castD false toks (sgn ++ (pre ++ u) ++ rest) =
      if Spec.InRange (if neg then -(Spec.number base ds : Int) else Spec.number base ds) then
        lexFrom castD false (.int (if neg then -(Spec.number base ds : Int) else Spec.number base ds) :: toks) rest
      else .throw := by
  have hst : Starts (sgn ++ (pre ++ u)) rest := sign_starts hs (int_starts hp hu)
  by_cases h : Spec.InRange (if neg then -(Spec.number base ds : Int) else Spec.number base ds)
  · rw [if_pos h]
    obtain ⟨h1, h2⟩ := lexeme_token (castD := castD) (Lexeme.int hs ho hp hu rfl h he)
    refine lexFrom_token (wf_ascii ?_) h2.space h2.line h2.block h1
    intro c hc
    simp only [List.mem_append] at hc
    rcases hc with hc | hc | hc
    · rcases hs.prop with ⟨rfl, _⟩ | ⟨rfl, _⟩ | ⟨rfl, _⟩
      · simp at hc
      · simp only [List.mem_singleton] at hc; subst hc; decide +kernel
      · simp only [List.mem_singleton] at hc; subst hc; decide +kernel
    · have : ∀ p ∈ ([[], [48, 98], [48, 66], [48, 120], [48, 88]] : List Bytes), ∀ c ∈ p, c.toNat < 128 := by decide +kernel
      refine this pre ?_ c hc
      rcases hp.prop with ⟨_, rfl⟩ | ⟨_, rfl | rfl⟩ | ⟨_, rfl | rfl⟩ <;> decide +kernel
    · rcases hu.mem c hc with rfl | ⟨d, _, e⟩
      · decide +kernel
      · exact hexDigit_ascii c d e
  · rw [if_neg h]
    obtain ⟨x, a, hx, _⟩ := hst.last
    refine lexFrom_throw (by rw [hx]; simp) hst.space hst.line hst.block ?_
    have := acceptNumeric_int (castD := castD) hs ho hp hu he
    rw [if_neg h] at this
    simp only [List.append_assoc]
    simp only [token, this, Res.bind]

/-- ``-0x7f`FF;``: the hypotheses of `C84_integer` and what it says. -/
example : lexFrom (fun _ => none) false ([.punct .assign] : List (Tok Unit)) ([45] ++ ([48, 120] ++ [55, 102, 96, 70, 70]) ++ [59]) =
    .ok (false, [.punct .semicol, .int (-32767), .punct .assign]) := by
  rw [C84_integer [.punct .assign] [45] [48, 120] [55, 102, 96, 70, 70] [59] true 16 [7, 15, 15, 15]
    ⟨.inr (.inr ⟨rfl, rfl⟩)⟩ (.inr (by intro t e; cases e; decide)) ⟨.inr (.inr ⟨rfl, .inl rfl⟩)⟩
    ⟨by decide +kernel, by decide +kernel, by decide +kernel, by decide +kernel⟩ ⟨by intro c t e; cases e; decide⟩]
  decide +kernel

/-- `9223372036854775808` is too large. -/
example : lexFrom (fun _ => none) false ([] : List (Tok Unit))
    ([] ++ ([] ++ [57, 50, 50, 51, 51, 55, 50, 48, 51, 54, 56, 53, 52, 55, 55, 53, 56, 48, 56]) ++ []) = .throw := by
  rw [C84_integer [] [] [] _ [] false 10 [9, 2, 2, 3, 3, 7, 2, 0, 3, 6, 8, 5, 4, 7, 7, 5, 8, 0, 8]
    ⟨.inl ⟨rfl, rfl⟩⟩ (.inl rfl) ⟨.inl ⟨rfl, rfl⟩⟩
    ⟨by decide +kernel, by decide +kernel, by decide +kernel, by decide +kernel⟩ ⟨by intro c t e; cases e⟩]
  decide +kernel

/-- **C82 does not hold**: in `a[?] -1` the sign goes with the number, so that two operands follow each other. -/
theorem C82_false : ¬ C82_claim := by
  intro h
  have h1 := (h Unit (fun _ => none) [] (.punct .random) [49] (by decide +kernel) (.inl ⟨49, [], rfl, by decide +kernel⟩)).1
  have h2 : lexFrom (fun _ => none) false ([.punct .random] : List (Tok Unit)) (45 :: [49]) =
      .ok (false, [.int (-1), .punct .random]) := by decide +kernel
  have h3 := C84_integer (castD := fun _ => none) ([.punct .sub, .punct .random] : List (Tok Unit)) [] [] [49] [] false 10 [1]
    ⟨.inl ⟨rfl, rfl⟩⟩ (.inl rfl) ⟨.inl ⟨rfl, rfl⟩⟩ ⟨by decide +kernel, by decide +kernel, by decide +kernel, by decide +kernel⟩
    ⟨by intro c t e; cases e⟩
  rw [if_pos (by decide +kernel), lexFrom_nil] at h3
  simp only [List.nil_append, List.append_nil] at h3
  rw [h2, h3] at h1
  cases h1

/-- `a -1`: `C82_operator_partial` applies. -/
example : Spec.endsExpr (.ident [97] : Tok Unit) = true ∧ (.ident [97] : Tok Unit) ≠ .punct .random ∧
    Spec.NumStart [49] := ⟨by decide +kernel, by decide +kernel, .inl ⟨49, [], rfl, by decide +kernel⟩⟩

/-! ### C83 -/

/-- The claim of C83: no source text makes the lexer fail an assertion. -/
def C83_claim : Prop := ∀ (R : Type) (castD : NumGet → Option R) (src : Bytes), reload castD src ≠ .ub

/-- **C83 does not hold.** As `utf8_decode` does not look at all trailing bytes (C08), the line `"\xE2");` passes
validation, the literal ends at the second quotation mark, and skipping its three bytes goes past it. -/
theorem C83_false : ¬ C83_claim := by
  intro h
  refine h Unit (fun _ => none) [0x22, 0xE2, 0x22, 0x29, 0x3B] ?_
  have hv : Utf.utf8Validate [0x22, 0xE2, 0x22, 0x29, 0x3B] = .ok true := by
    rw [Utf.utf8Validate.eq_def]
    have d1 : Utf.utf8Decode [0x22, 0xE2, 0x22, 0x29, 0x3B] 5 = .ok (some (0x22, 1)) := by decide +kernel
    simp only [List.length_cons, List.length_nil, Nat.zero_add, Nat.reduceAdd, d1, List.drop_succ_cons, List.drop_zero]
    rw [if_neg (by decide +kernel), if_pos (by decide +kernel), Utf.utf8Validate.eq_def]
    have d2 : ∃ c, Utf.utf8Decode [0xE2, 0x22, 0x29, 0x3B] 4 = .ok (some (c, 3)) := ⟨_, by rfl⟩
    obtain ⟨c, d2⟩ := d2
    simp only [List.length_cons, List.length_nil, Nat.zero_add, Nat.reduceAdd, d2, List.drop_succ_cons, List.drop_zero]
    rw [if_neg (by decide +kernel), if_pos (by decide +kernel), Utf.utf8Validate.eq_def]
    have d3 : Utf.utf8Decode [0x3B] 1 = .ok (some (0x3B, 1)) := by decide +kernel
    simp only [List.length_cons, List.length_nil, Nat.zero_add, d3, List.drop_succ_cons, List.drop_zero]
    rw [if_neg (by decide +kernel), if_pos (by decide +kernel), Utf.utf8Validate.eq_def]
    rfl
  have hl : loop (fun _ => none) 5 false ([] : List (Tok Unit)) [0x22, 0xE2, 0x22, 0x29, 0x3B] = .ub := by decide +kernel
  have hg : getlines [] [0x22, 0xE2, 0x22, 0x29, 0x3B] = [[0x22, 0xE2, 0x22, 0x29, 0x3B]] := by decide +kernel
  unfold reload
  rw [hg]
  simp only [allLines, line]
  rw [if_pos trivial, if_neg (by decide +kernel)]
  simp only [Res.bind]
  rw [if_neg (by decide +kernel)]
  simp only [checked, hv, Res.bind]
  rw [if_neg (by simp), if_neg (by decide +kernel), if_neg (by decide +kernel)]
  simp only [List.length_cons, List.length_nil, Nat.zero_add, Nat.reduceAdd, hl]

/-- **C83, partial.** No well-formed UTF-8 text does. -/
theorem C83_no_ub_partial (src : Bytes) (h : WellFormed src) : reload castD src ≠ .ub := by
  unfold reload
  refine bind_no_ub (allLines_no_ub _ _ _ _ (wf_getlines src [] (by simpa using h))) ?_
  intro r _
  split <;> simp

/-- Text with a character of three bytes. -/
example : WellFormed ([0x22] ++ ([0xE2, 0x82, 0xAC] ++ [0x22, 0x3B])) :=
  wf_append (wf_ascii (by decide +kernel)) (.cons _ _ (.r4 _ _ _ (by unfold Utf.inR; decide) (by unfold Utf.inR; decide)
    (by unfold Utf.inR; decide)) (wf_ascii (by decide +kernel)))

/-! ### C85 -/

/-- **C85.** A program, of any number of lines, which spells some tokens by the lexical grammar gives exactly these tokens in
this order. -/
theorem C85_reload (lines : List Bytes) (toks : List (Tok R)) (h : SpellsAll false [] lines false toks)
    (hp : ∀ l ∈ lines, Plain l ∧ 10 ∉ l) (hf : ∀ l, lines.head? = some l → FirstOk l) :
    reload castD (lines.flatMap (· ++ [10])) = .ok toks.reverse := by
  unfold reload
  rw [getlines_lines lines fun l hl => (hp l hl).2, allLines_first hf, allLines_spells h fun l hl => (hp l hl).1]
  rfl

/-- **C85 (one line).** The same for the rest of a line. -/
theorem C85_line (toks toks' : List (Tok R)) (c c' : Bool) (s : Bytes) (h : Spells c toks s c' toks') (hw : WellFormed s) :
    lexFrom castD c toks s = .ok (c', toks') := spells_lex h hw

/-- **C85 (one reading).** The lexical grammar gives a line of well-formed text one reading only. -/
theorem C85_unambiguous (toks t1 t2 : List (Tok R)) (c c1 c2 : Bool) (s : Bytes) (h1 : Spells c toks s c1 t1)
    (h2 : Spells c toks s c2 t2) (hw : WellFormed s) : c1 = c2 ∧ t1 = t2 := by
  have a := spells_lex (castD := fun _ => none) h1 hw
  rw [spells_lex h2 hw] at a
  cases a
  exact ⟨rfl, rfl⟩

/-- **C85 (byte order mark).** A byte order mark before the text makes no difference. -/
theorem C85_bom (l : Bytes) (ls : List Bytes) (hl : ∀ x ∈ l :: ls, 10 ∉ x) (hb : ¬ [0xEF, 0xBB, 0xBF] <+: l) :
    reload castD (([0xEF, 0xBB, 0xBF] ++ l) ++ 10 :: ls.flatMap (· ++ [10])) =
      reload castD (l ++ 10 :: ls.flatMap (· ++ [10])) := by
  have h1 : 10 ∉ ([0xEF, 0xBB, 0xBF] ++ l : Bytes) := by
    simp only [List.cons_append, List.nil_append, List.mem_cons, not_or]
    exact ⟨by decide +kernel, by decide +kernel, by decide +kernel, hl l (by simp)⟩
  unfold reload
  rw [getlines_line _ _ h1, getlines_line _ _ (hl l (by simp)), getlines_lines ls fun x hx => hl x (List.mem_cons_of_mem _ hx)]
  simp only [List.nil_append, allLines, line]
  rw [if_pos trivial, if_pos trivial, if_pos (by rw [List.isPrefixOf_iff_prefix]; exact ⟨l, rfl⟩),
    if_neg (by rw [List.isPrefixOf_iff_prefix]; exact hb)]
  have : consume 3 ([0xEF, 0xBB, 0xBF] ++ l) = .ok l := consume_wf wf_bom l
  rw [this]

/-- **C85 (`#!`).** A first line that starts with `#!` is skipped, whatever is in it. -/
theorem C85_shebang (x : Bytes) (ls : List Bytes) (hx : 10 ∉ x) (hl : ∀ l ∈ ls, 10 ∉ l) :
    reload castD ((35 :: 33 :: x) ++ 10 :: ls.flatMap (· ++ [10])) = reload castD (10 :: ls.flatMap (· ++ [10])) := by
  have h1 : 10 ∉ (35 :: 33 :: x : Bytes) := by
    simp only [List.mem_cons, not_or]
    exact ⟨by decide +kernel, by decide +kernel, hx⟩
  have h2 := getlines_line [] (ls.flatMap (· ++ [10])) (by simp) []
  simp only [List.nil_append] at h2
  have hs : line castD true false [] (35 :: 33 :: x) = .ok (false, ([] : List (Tok R))) := by
    unfold line
    rw [if_pos rfl, if_neg (by simp [List.isPrefixOf])]
    simp only [Res.bind]
    rw [if_pos (by simp [List.isPrefixOf])]
  have he : line castD true false [] [] = .ok (false, ([] : List (Tok R))) := by
    rw [line_first ⟨by decide +kernel, by decide +kernel⟩]
    unfold line
    rw [if_neg (by simp), checked_plain ⟨.nil, by simp, by decide +kernel⟩]
    exact lexFrom_nil _ _
  unfold reload
  rw [getlines_line _ _ h1, h2, getlines_lines ls hl]
  simp only [List.nil_append, allLines, hs, he]

/-- `x = -1;` and a comment. -/
example : Spells (R := Unit) false [] ([120] ++ (32 :: ([61] ++ (32 :: ([45] ++ ([] ++ [49]) ++ ([59] ++ (47 :: 47 :: [39])))))))
    false [.punct .semicol, .int (-1), .punct .assign, .ident [120]] := by
  have n : ∀ p : Punct, p ≠ .add → p ≠ .sub → ∀ (rest : Bytes) (prev : List (Tok Unit)),
      (p = .add ∨ p = .sub → Spec.NumStart rest → ∃ t, prev.head? = some t ∧ Spec.endsExpr t = true ∧ t ≠ .punct .random) := by
    intro p h1 h2 rest prev h
    rcases h with h | h
    · exact absurd h h1
    · exact absurd h h2
  refine .token (.ident ?_ (by decide +kernel) (by decide +kernel) ?_) (.blank (by decide +kernel) ?_)
  · exact (isName_iff _).1 (by decide +kernel)
  · intro c t e; cases e; decide +kernel
  have e1 : ([61] : Bytes) = bytes (text .assign) := by decide +kernel
  rw [e1]
  refine .token (.punct ?_ (by intro h; cases h) (n _ (by decide +kernel) (by decide +kernel) _ _)) (.blank (by decide +kernel) ?_)
  · intro q; cases q <;> decide +kernel
  refine .token (t := .int (-1)) (.int (neg := true) (base := 10) (ds := [1]) ⟨.inr (.inr ⟨rfl, rfl⟩)⟩ (.inr ?_) ⟨.inl ⟨rfl, rfl⟩⟩
    ⟨by decide +kernel, by decide +kernel, by decide +kernel, by decide +kernel⟩ (by decide +kernel) (by decide +kernel) ⟨?_⟩) ?_
  · intro t e; cases e; decide +kernel
  · intro c t e; cases e; decide +kernel
  have e2 : ([59] : Bytes) = bytes (text .semicol) := by decide +kernel
  rw [e2]
  refine .token (.punct ?_ (by intro h; cases h) (n _ (by decide +kernel) (by decide +kernel) _ _)) ?_
  · intro q; cases q <;> decide +kernel
  have e3 : (47 :: 47 :: [39] : Bytes) = bytes "//" ++ [39] := by decide +kernel
  rw [e3]
  exact .lineComment

/-! ### C86 -/

/-- **C86.** A literal in double quotation marks is accepted exactly when its text follows the grammar of escape sequences,
and stands for the string that the grammar assigns. -/
theorem C86_quoted (s : Bytes) (t : Tok R) (rest : Bytes) :
    acceptString 34 (34 :: s) = .ok (some (t, rest)) ↔ ∃ q v, s = q ++ 34 :: rest ∧ Spec.Quoted q v ∧ t = .str v := by
  simp only [acceptString, ne_eq, not_true, if_false]
  constructor
  · intro h
    cases hl : strLoop 34 (s.length + 1) [] s with
    | ok r =>
      rw [hl] at h
      simp only [Res.map, Res.ok.injEq, Option.some.injEq, Prod.mk.injEq] at h
      obtain ⟨rfl, rfl⟩ := h
      obtain ⟨q, w, e1, e2, e3⟩ := strLoop_quoted_some _ _ _ _ _ hl
      exact ⟨q, w, e1, e3, by rw [e2]; rfl⟩
    | throw => rw [hl] at h; cases h
    | ub => rw [hl] at h; cases h
  · rintro ⟨q, v, rfl, h, rfl⟩
    rw [strLoop_quoted _ q v [] rest h (by simp; omega)]
    rfl

/-- **C86.** A literal in single quotation marks goes up to the next single quotation mark, and stands for itself. -/
theorem C86_raw (s : Bytes) (t : Tok R) (rest : Bytes) :
    acceptString 39 (39 :: s) = .ok (some (t, rest)) ↔ ∃ q, s = q ++ 39 :: rest ∧ (∀ c ∈ q, c ≠ 0 ∧ c ≠ 39) ∧ t = .str q := by
  simp only [acceptString, ne_eq, not_true, if_false]
  constructor
  · intro h
    cases hl : strLoop 39 (s.length + 1) [] s with
    | ok r =>
      rw [hl] at h
      simp only [Res.map, Res.ok.injEq, Option.some.injEq, Prod.mk.injEq] at h
      obtain ⟨rfl, rfl⟩ := h
      obtain ⟨q, e1, e2, e3⟩ := strLoop_raw_some _ _ _ _ _ hl
      exact ⟨q, e1, e3, by rw [e2]; rfl⟩
    | throw => rw [hl] at h; cases h
    | ub => rw [hl] at h; cases h
  · rintro ⟨q, rfl, h, rfl⟩
    rw [strLoop_raw _ q [] rest h (by simp; omega)]
    rfl

/-- `"a€\x41\n"` -/
example : Spec.Quoted [97, 92, 117, 50, 48, 65, 67, 92, 120, 52, 49, 92, 110] [97, 0xE2, 0x82, 0xAC, 65, 10] := by
  have h3 : Spec.Quoted [92, 110] [10] := .simple (by decide +kernel) .nil
  have h2 : Spec.Quoted [92, 120, 52, 49, 92, 110] [65, 10] := .byte (h := [52, 49]) (n := 65) rfl (by decide +kernel) h3
  have h1 : Spec.Quoted [92, 117, 50, 48, 65, 67, 92, 120, 52, 49, 92, 110] [0xE2, 0x82, 0xAC, 65, 10] :=
    .unicode (x := 117) (h := [50, 48, 65, 67]) (n := 0x20AC) (b := [0xE2, 0x82, 0xAC]) (.inl ⟨rfl, rfl⟩) (by decide +kernel)
      (by decide +kernel) h2
  exact .plain (by decide +kernel) (by decide +kernel) (by decide +kernel) h1

end Asteria.Lexer
