import Verif.Proof.LexExactText
import Verif.Proof.LexerReload

/-!
# The lexer and the whole lexical grammar
-/

namespace Asteria.Lexer

open Spec (IsSign Parts Numeral Meaning Denotes tick Extent Unary Token Saturates Splits SplitsAll Fine Lines Head Source Lexeme)
open NumText (NumGet)
open Utf (WellFormed)
open Asteria.Parser (Punct)

variable {R : Type} {castD : NumGet → Option R}

/-! ### Tokens -/

theorem mayInfix_random : mayInfixFollow (some (.punct .random : Tok R)) = false := rfl

theorem unary_iff (prev : List (Tok R)) (sgn : Bytes) : Unary prev sgn ↔ ¬ (sgn ≠ [] ∧ mayInfixFollow prev.head? = true) := by
  unfold Unary
  constructor
  · rintro (h | h) ⟨h1, h2⟩
    · exact h1 h
    · cases hp : prev.head? with
      | none => rw [hp] at h2; cases h2
      | some t =>
        rw [hp] at h2
        rcases h t hp with h | rfl
        · rw [mayInfix_false t h] at h2; cases h2
        · cases h2
  · intro h
    by_cases h0 : sgn = []
    · exact .inl h0
    · right
      intro t ht
      by_contra hc
      push Not at hc
      exact h ⟨h0, by rw [ht]; exact mayInfix_true t (by simpa using hc.1) hc.2⟩

theorem sign_total (s : Bytes) : ∃ sgn s' neg, s = sgn ++ s' ∧ sign s = (sgn, s') ∧ IsSign sgn neg ∧ decide (sgn = [45]) = neg := by
  unfold sign
  split
  · exact ⟨[43], _, false, rfl, rfl, ⟨.inr (.inl ⟨rfl, rfl⟩)⟩, rfl⟩
  · exact ⟨[45], _, true, rfl, rfl, ⟨.inr (.inr ⟨rfl, rfl⟩)⟩, rfl⟩
  · exact ⟨[], _, false, rfl, rfl, ⟨.inl ⟨rfl, rfl⟩⟩, rfl⟩

theorem acceptNumeric_number {prev : List (Tok R)} {sgn u rest : Bytes} {neg : Bool} (hs : IsSign sgn neg) (ho : Unary prev sgn)
    (hu : Extent u rest) : acceptNumeric castD prev.head? (sgn ++ (u ++ rest)) =
      (convert castD (decide (46 ∈ u.filter fun c => !tick c)) (sgn ++ u.filter fun c => !tick c)).map fun x => some (x, rest) := by
  obtain ⟨c, t, ht, hdig⟩ := extent_digit hu
  have hc : ∀ c, Spec.digit c = true → c ≠ 43 ∧ c ≠ 45 ∧ c ≠ 110 ∧ c ≠ 78 ∧ c ≠ 105 ∧ c ≠ 73 ∧ 48 ≤ c ∧ c ≤ 57 :=
    forall_byte (by decide +kernel)
  obtain ⟨c1, c2, c3, c4, c5, c6, c7⟩ := hc c hdig
  obtain ⟨g1, g2⟩ := sign_append hs (s := u ++ rest) (by rw [ht]; exact c1) (by rw [ht]; exact c2)
  have hn := numericText_extent hu
  have hpt : decide (46 ∈ u.filter fun c => !tick c) = decide (46 ∈ u) := by
    apply decide_eq_decide.mpr
    rw [List.mem_filter]
    simp [tick]
  unfold acceptNumeric
  simp only [g1]
  rw [if_neg ((unary_iff prev sgn).mp ho), hn, hpt, ht]
  simp only [List.cons_append, c3, c4, c5, c6, c7, or_self, and_self, if_false, if_true]

theorem filter_digit {u : Bytes} (h : ∃ c t, u = c :: t ∧ Spec.digit c = true) :
    ∃ c t', (u.filter fun c => !tick c) = c :: t' ∧ Spec.digit c = true := by
  obtain ⟨c, t, rfl, hd⟩ := h
  have ht : ∀ c, Spec.digit c = true → tick c = false := forall_byte (by decide +kernel)
  exact ⟨c, t.filter fun c => !tick c, by rw [List.filter_cons_of_pos (by rw [ht c hd]; rfl)], hd⟩

/-- A token of the grammar is taken as a whole. -/
theorem token_complete (hsat : Saturates castD) {prev : List (Tok R)} {t : Tok R} {w rest : Bytes} (h : Token castD prev t w rest)
    (hl : w.length ≤ 2 ^ 57) : token castD prev.head? (w ++ rest) = .ok (some (t, rest)) ∧ Starts w rest := by
  have number : ∀ {sgn u neg}, IsSign sgn neg → Unary prev sgn → Extent u rest → u.length ≤ 2 ^ 57 →
      convert castD (decide (46 ∈ u.filter fun c => !tick c)) (sgn ++ u.filter fun c => !tick c) = .ok t →
      token castD prev.head? (sgn ++ u ++ rest) = .ok (some (t, rest)) ∧ Starts (sgn ++ u) rest := by
    intro sgn u neg h1 h2 h3 _ h5
    have ht : token castD prev.head? (sgn ++ u ++ rest) = .ok (some (t, rest)) := by
      refine token_numeric ?_
      rw [List.append_assoc, acceptNumeric_number h1 h2 h3, h5]
      rfl
    refine ⟨ht, sign_starts h1 ?_⟩
    obtain ⟨c, t', rfl, hd⟩ := extent_digit h3
    obtain ⟨d1, d2, d3⟩ := digit_facts c hd
    refine starts_of rfl d1 d2 ?_
    obtain ⟨pre, a, e, ha⟩ := (token_ends ht).prop
    have e' : sgn ++ c :: t' = pre ++ [a] := by
      apply List.append_cancel_right (bs := rest)
      rw [e]; simp
    rcases List.eq_nil_or_concat t' with rfl | ⟨y, z, rfl⟩
    · exact ⟨[], c, rfl, d3⟩
    · refine ⟨c :: y, z, by simp, ?_⟩
      have : z = a := by
        have : (sgn ++ c :: y) ++ [z] = pre ++ [a] := by rw [← e']; simp
        have := congrArg List.getLast? this
        rw [List.getLast?_concat, List.getLast?_concat] at this
        exact Option.some.inj this
      rw [this]; exact ha
  cases h with
  | punct h1 h2 h3 => exact lexeme_token (.punct h1 h2 h3)
  | kw h1 h2 => exact lexeme_token (.kw h1 h2)
  | ident h1 h2 h3 h4 => exact lexeme_token (.ident h1 h2 h3 h4)
  | quoted h => exact lexeme_token (.quoted h)
  | raw h => exact lexeme_token (.raw h)
  | nan h1 h2 h3 h4 =>
    rw [List.append_assoc]
    refine ⟨token_numeric (acceptNumeric_nan h1 ((unary_iff _ _).mp h2) h3 h4), sign_starts h1 (name_starts ?_)⟩
    rcases h3 with rfl | rfl <;> exact (isName_iff _).1 (by decide +kernel)
  | inf h1 h2 h3 h4 =>
    rw [List.append_assoc]
    refine ⟨token_numeric (acceptNumeric_inf h1 ((unary_iff _ _).mp h2) h3 h4), sign_starts h1 (name_starts ?_)⟩
    rcases h3 with rfl | rfl <;> exact (isName_iff _).1 (by decide +kernel)
  | @int sgn neg u p v _ h1 h2 h3 h4 h5 h6 =>
    have hul : u.length ≤ 2 ^ 57 := by rw [List.length_append] at hl; omega
    refine number h1 h2 h3 hul ((convert_exact hsat h1 (filter_digit (extent_digit h3)) ?_ _).mpr (.inl ⟨p, v, h4, h5, h6, rfl⟩))
    exact Nat.le_trans (List.length_filter_le _ _) hul
  | @real sgn neg u p g r _ h1 h2 h3 h4 h5 h6 h7 =>
    have hul : u.length ≤ 2 ^ 57 := by rw [List.length_append] at hl; omega
    refine number h1 h2 h3 hul ((convert_exact hsat h1 (filter_digit (extent_digit h3)) ?_ _).mpr (.inr ⟨p, g, r, h4, h5, h6, h7, rfl⟩))
    exact Nat.le_trans (List.length_filter_le _ _) hul

theorem word_split (s : Bytes) : ∃ rest, s = Spec.word s ++ rest ∧ Spec.WordEnd rest := by
  refine ⟨s.dropWhile fun c => Spec.letter c || Spec.digit c, (List.takeWhile_append_dropWhile).symm, ?_⟩
  intro c t e
  have := List.head?_dropWhile_not (fun c => Spec.letter c || Spec.digit c) s
  rw [e] at this
  simpa using this

/-- A text that starts with a numeric literal. -/
theorem acceptNumeric_some (hsat : Saturates castD) {prev : List (Tok R)} {s : Bytes} (hl : s.length ≤ 2 ^ 57) {sgn s' : Bytes} {neg : Bool}
    (hs : s = sgn ++ s') (hg : IsSign sgn neg) (ho : Unary prev sgn) (hn : Spec.NumStart s') :
    acceptNumeric castD prev.head? s ≠ .ok none ∧
      ∀ t rest, acceptNumeric castD prev.head? s = .ok (some (t, rest)) → ∃ w, s = w ++ rest ∧ Token castD prev t w rest := by
  subst hs
  have hno := (unary_iff prev sgn).mp ho
  rcases hn with hd | hw
  · obtain ⟨u, rest, rfl, hu⟩ := extent_total hd
    rw [acceptNumeric_number hg ho hu]
    have hul : u.length ≤ 2 ^ 57 := by simp only [List.length_append] at hl; omega
    cases hc : convert castD (decide (46 ∈ u.filter fun c => !tick c)) (sgn ++ u.filter fun c => !tick c) with
    | throw => exact ⟨nofun, nofun⟩
    | ub => exact ⟨nofun, nofun⟩
    | ok x =>
      refine ⟨nofun, ?_⟩
      intro t rest' h
      simp only [Res.map, Res.ok.injEq, Option.some.injEq, Prod.mk.injEq] at h
      obtain ⟨rfl, rfl⟩ := h
      refine ⟨sgn ++ u, by simp, ?_⟩
      rcases (convert_exact hsat hg (filter_digit (extent_digit hu)) (Nat.le_trans (List.length_filter_le _ _) hul) _).mp hc with
        ⟨p, v, h1, h2, h3, rfl⟩ | ⟨p, g, r, h1, h2, h3, h4, rfl⟩
      · exact .int hg ho hu h1 h2 h3
      · exact .real hg ho hu h1 h2 h3 h4
  · obtain ⟨rest, e1, e2⟩ := word_split s'
    have hcase : (Spec.word s' = Spec.bytes "nan" ∨ Spec.word s' = Spec.bytes "NaN") ∨
        (Spec.word s' = Spec.bytes "infinity" ∨ Spec.word s' = Spec.bytes "Infinity") := by
      simp only [List.mem_cons, List.not_mem_nil, or_false] at hw
      tauto
    generalize Spec.word s' = w at *
    subst e1
    rcases hcase with h | h
    · rw [acceptNumeric_nan hg hno h e2]
      refine ⟨nofun, fun t rest' h' => ?_⟩
      simp only [Res.ok.injEq, Option.some.injEq, Prod.mk.injEq] at h'
      obtain ⟨rfl, rfl⟩ := h'
      exact ⟨sgn ++ w, by simp, .nan hg ho h e2⟩
    · rw [acceptNumeric_inf hg hno h e2]
      refine ⟨nofun, fun t rest' h' => ?_⟩
      simp only [Res.ok.injEq, Option.some.injEq, Prod.mk.injEq] at h'
      obtain ⟨rfl, rfl⟩ := h'
      exact ⟨sgn ++ w, by simp, .inf hg ho h e2⟩

theorem acceptName_some {s : Bytes} {t : Tok R} {rest : Bytes} (h : acceptName s = some (t, rest)) :
    ∃ w, s = w ++ rest ∧ Spec.Name w ∧ Spec.WordEnd rest ∧ t = (if w ∈ Spec.keywords.map Spec.bytes then Tok.kw w else .ident w) := by
  cases s with
  | nil =>
    have : isCmask 0x10 (([] : Bytes).headD 0) = false := by decide +kernel
    unfold acceptName at h
    rw [this] at h
    simp at h
  | cons c s =>
    have hc : Spec.letter c = true := by
      by_contra hc
      unfold acceptName at h
      rw [List.headD_cons, cmask_namei] at h
      simp only [Bool.not_eq_true] at hc
      rw [hc] at h
      simp at h
    obtain ⟨rest', e1, e2⟩ := word_split (c :: s)
    have hname : Spec.Name (Spec.word (c :: s)) := by
      refine ⟨c, Spec.word s, ?_, hc, ?_⟩
      · unfold Spec.word
        rw [List.takeWhile_cons_of_pos (by simp [hc])]
      · intro x hx
        have := List.mem_takeWhile_imp hx
        simpa using this
    generalize Spec.word (c :: s) = w at *
    rw [e1, acceptName_eq hname e2] at h
    cases h
    exact ⟨w, e1, hname, e2, rfl⟩

theorem punct_plus {rest : Bytes} {p : Punct} (hp : p = .add ∨ p = .sub) :
    (sign (Spec.bytes (Spec.text p) ++ rest)).1 ≠ [] ∧ sign (Spec.bytes (Spec.text p) ++ rest) = (Spec.bytes (Spec.text p), rest) := by
  have e1 : Spec.bytes (Spec.text .add) = [43] := by decide +kernel
  have e2 : Spec.bytes (Spec.text .sub) = [45] := by decide +kernel
  rcases hp with rfl | rfl
  · rw [e1]; exact ⟨by simp [sign], rfl⟩
  · rw [e2]; exact ⟨by simp [sign], rfl⟩

/-- What is taken as a token is one. -/
theorem token_sound (hsat : Saturates castD) {prev : List (Tok R)} {s : Bytes} (hl : s.length ≤ 2 ^ 57)
    (hc1 : ¬ [47, 47] <+: s) (hc2 : ¬ [47, 42] <+: s) {t : Tok R} {rest : Bytes}
    (h : token castD prev.head? s = .ok (some (t, rest))) : ∃ w, s = w ++ rest ∧ Token castD prev t w rest := by
  obtain ⟨sgn, s', neg, hs, hsig, hg, hneg⟩ := sign_total s
  by_cases hnum : Unary prev sgn ∧ Spec.NumStart s'
  · obtain ⟨k1, k2⟩ := acceptNumeric_some hsat hl hs hg hnum.1 hnum.2
    unfold token at h
    cases hx : acceptNumeric castD prev.head? s with
    | throw => rw [hx] at h; cases h
    | ub => rw [hx] at h; cases h
    | ok o =>
      cases o with
      | none => exact absurd hx k1
      | some r =>
        rw [hx] at h
        cases h
        exact k2 t rest hx
  · have hnone : acceptNumeric castD prev.head? s = .ok none := by
      apply acceptNumeric_none
      rw [hsig]
      by_cases hu : Unary prev sgn
      · right; exact fun hh => hnum ⟨hu, hh⟩
      · left
        rw [unary_iff] at hu
        simpa using hu
    unfold token at h
    rw [hnone] at h
    simp only [Res.bind] at h
    cases hp : acceptPunct s with
    | some r =>
      rw [hp] at h
      cases h
      obtain ⟨e1, e2⟩ := acceptPunct_some (p := r.1) (rest := r.2) (by rw [hp])
      refine ⟨_, e1, .punct (by unfold Spec.Longest; rw [← e1]; exact e2) ?_ ?_⟩
      · intro hd
        rw [hd, show Spec.bytes (Spec.text .div) = [47] by decide +kernel] at e1
        constructor
        · rintro ⟨x, hx⟩; exact hc1 ⟨x, by rw [e1, ← hx]; rfl⟩
        · rintro ⟨x, hx⟩; exact hc2 ⟨x, by rw [e1, ← hx]; rfl⟩
      · intro hpp hns
        obtain ⟨q1, q2⟩ := punct_plus (rest := r.2) hpp
        rw [← e1, hsig] at q1 q2
        cases q2
        have hu : ¬ Unary prev (Spec.bytes (Spec.text r.1)) := fun hu => hnum ⟨hu, hns⟩
        rw [unary_iff, not_not] at hu
        cases hh : prev.head? with
        | none => rw [hh] at hu; cases hu.2
        | some x =>
          refine ⟨x, rfl, ?_, ?_⟩
          · by_contra hx
            rw [hh, mayInfix_false x (by simpa using hx)] at hu
            cases hu.2
          · rintro rfl
            rw [hh] at hu
            cases hu.2
    | none =>
      rw [hp] at h
      simp only at h
      cases s with
      | nil =>
        simp only [acceptString] at h
        obtain ⟨w, e, hw, _⟩ := acceptName_some (Res.ok.inj h)
        obtain ⟨c, t', rfl, _⟩ := hw.shape
        simp at e
      | cons c s =>
        by_cases h34 : c = 34
        · subst h34
          simp only [acceptString] at h
          rw [if_neg (by simp)] at h
          cases hq : strLoop 34 (s.length + 1) [] s with
          | throw => rw [hq] at h; cases h
          | ub => rw [hq] at h; cases h
          | ok r =>
            rw [hq] at h
            simp only [Res.map, Res.ok.injEq, Option.some.injEq, Prod.mk.injEq] at h
            obtain ⟨rfl, rfl⟩ := h
            obtain ⟨src, w, e1, e2, e3⟩ := strLoop_quoted_some _ _ _ r.1 r.2 hq
            rw [e2, List.nil_append]
            exact ⟨34 :: (src ++ [34]), by rw [List.cons_append, List.append_assoc]; congr 1, .quoted e3⟩
        · rw [acceptString_none (head := 34) (s := c :: s) h34] at h
          simp only at h
          by_cases h39 : c = 39
          · subst h39
            simp only [acceptString] at h
            rw [if_neg (by simp)] at h
            cases hq : strLoop 39 (s.length + 1) [] s with
            | throw => rw [hq] at h; cases h
            | ub => rw [hq] at h; cases h
            | ok r =>
              rw [hq] at h
              simp only [Res.map, Res.ok.injEq, Option.some.injEq, Prod.mk.injEq] at h
              obtain ⟨rfl, rfl⟩ := h
              obtain ⟨src, e1, e2, e3⟩ := strLoop_raw_some _ _ _ r.1 r.2 hq
              rw [e2, List.nil_append]
              exact ⟨39 :: (src ++ [39]), by rw [List.cons_append, List.append_assoc]; congr 1, .raw e3⟩
          · rw [acceptString_none (head := 39) (s := c :: s) h39] at h
            obtain ⟨w, e, hw, hr, ht⟩ := acceptName_some (Res.ok.inj h)
            refine ⟨w, e, ?_⟩
            rw [ht]
            split
            · rename_i hk; exact .kw hk hr
            · rename_i hk
              refine .ident hw hk ?_ hr
              intro hnan
              have hsg : sgn = [] := by
                obtain ⟨c', t', rfl, hc', _⟩ := hw.shape
                obtain ⟨_, d2, d3, _⟩ := name_facts c' hc'
                rw [List.cons_append] at e
                cases e
                have := sign_none (s := _ :: (t' ++ rest)) d2 d3
                rw [this] at hsig
                cases hsig
                rfl
              subst hsg
              rw [List.nil_append] at hs
              refine hnum ⟨.inl rfl, .inr ?_⟩
              rw [← hs, e, word_append hw hr]
              exact hnan

/-! ### Lines -/

theorem closeAt_none_iff (s : Bytes) : closeAt s = none ↔ ∀ x y, s = x ++ 0x2A :: y → (∀ c ∈ x, c ≠ 0x2A) → ¬ [0x2F] <+: y := by
  constructor
  · rintro h x y rfl hx ⟨z, rfl⟩
    rw [show x ++ 42 :: ([47] ++ z) = x ++ 42 :: 47 :: z from rfl, closeAt_eq x z hx] at h
    cases h
  · intro h
    cases hc : closeAt s with
    | none => rfl
    | some k =>
      obtain ⟨pre, t, rfl, _, hp⟩ := closeAt_some hc
      exact absurd ⟨t, rfl⟩ (h pre (47 :: t) rfl hp)

/-- A line that follows the grammar is lexed as it says. -/
theorem splits_lex (hsat : Saturates castD) {c : Bool} {toks : List (Tok R)} {s : Bytes} {c' : Bool} {toks' : List (Tok R)}
    (h : Splits castD c toks s c' toks') : WellFormed s → s.length ≤ 2 ^ 57 → lexFrom castD c toks s = .ok (c', toks') := by
  have e1 : Spec.bytes "//" = [47, 47] := by decide +kernel
  have e2 : Spec.bytes "/*" = [47, 42] := by decide +kernel
  have e3 : Spec.bytes "*/" = [42, 47] := by decide +kernel
  induction h with
  | nil => intro _ _; exact lexFrom_nil _ _
  | @blank c toks s c' toks' hb _ ih =>
    intro hw hl
    obtain ⟨b1, b2⟩ := blank_space c hb
    rw [lexFrom_space toks c s b1]
    exact ih (wf_split hw [] c s rfl b2).2 (by rw [List.length_cons] at hl; omega)
  | @token toks t w s c' toks' ht _ ih =>
    intro hw hl
    rw [List.length_append] at hl
    obtain ⟨h1, h2⟩ := token_complete hsat ht (by omega)
    obtain ⟨w1, w2⟩ := starts_wf h2 hw
    rw [lexFrom_token w1 h2.space h2.line h2.block h1]
    exact ih w2 (by omega)
  | @lineComment toks s =>
    intro _ _
    rw [e1]
    exact lexFrom_lineComment toks s
  | @openComment toks s c' toks' _ ih =>
    intro hw hl
    rw [List.length_append] at hl
    rw [e2] at hw ⊢
    rw [show ([47, 42] : Bytes) ++ s = 47 :: 42 :: s from rfl, lexFrom_open]
    exact ih (wf_split hw [47] 42 s rfl (by decide)).2 (by omega)
  | @inside toks s hn =>
    intro _ _
    rw [lexFrom_succ]
    simp only [loop]
    by_cases h0 : s = []
    · rw [if_pos h0]
    · rw [if_neg h0, if_pos trivial, (closeAt_none_iff s).mpr hn]
  | @close toks x s c' toks' hn _ ih =>
    intro hw hl
    simp only [List.length_append] at hl
    rw [e3] at hw ⊢
    have hx : WellFormed x := by
      have := (wf_split hw x 42 (47 :: s) rfl (by decide)).1
      exact wf_init this x 42 rfl (by decide)
    rw [show x ++ ([42, 47] ++ s) = x ++ 42 :: 47 :: s from rfl, lexFrom_close toks x s hn hx]
    exact ih (wf_split hw (x ++ [42]) 47 s (by simp) (by decide)).2 (by omega)

/-- A line that is lexed follows the grammar. -/
theorem lex_splits (hsat : Saturates castD) : ∀ (n : Nat) (c : Bool) (toks : List (Tok R)) (s : Bytes) (c' : Bool) (toks' : List (Tok R)),
    s.length ≤ n → WellFormed s → s.length ≤ 2 ^ 57 → 10 ∉ s → lexFrom castD c toks s = .ok (c', toks') → Splits castD c toks s c' toks' := by
  have e1 : Spec.bytes "//" = [47, 47] := by decide +kernel
  have e2 : Spec.bytes "/*" = [47, 42] := by decide +kernel
  have e3 : Spec.bytes "*/" = [42, 47] := by decide +kernel
  intro n
  induction n with
  | zero =>
    intro c toks s c' toks' hn _ _ _ h
    have : s = [] := List.length_eq_zero_iff.mp (by omega)
    subst this
    rw [lexFrom_nil] at h
    cases h
    exact .nil
  | succ n ih =>
    intro c toks s c' toks' hn hw hl h10 h
    cases c with
    | true =>
      cases hc : closeAt s with
      | none =>
        rw [lexFrom_succ] at h
        simp only [loop] at h
        have : (Res.ok (true, toks) : Res (Bool × List (Tok R))) = .ok (c', toks') := by
          by_cases h0 : s = []
          · rw [if_pos h0] at h; exact h
          · rw [if_neg h0, if_pos trivial, hc] at h; exact h
        cases this
        exact .inside ((closeAt_none_iff s).mp hc)
      | some k =>
        obtain ⟨pre, t, rfl, _, hp⟩ := closeAt_some hc
        have hx : WellFormed pre := by
          have := (wf_split hw pre 42 (47 :: t) rfl (by decide)).1
          exact wf_init this pre 42 rfl (by decide)
        rw [lexFrom_close toks pre t hp hx] at h
        simp only [List.length_append, List.length_cons] at hn hl
        have := ih false toks t c' toks' (by omega) (wf_split hw (pre ++ [42]) 47 t (by simp) (by decide)).2 (by omega)
          (fun hm => h10 (by simp [hm])) h
        have r := Splits.close (x := pre) hp this
        rw [e3] at r
        exact r
    | false =>
      cases s with
      | nil => rw [lexFrom_nil] at h; cases h; exact .nil
      | cons a s =>
        by_cases hsp : isCmask 0x01 a = true
        · rw [lexFrom_space toks a s hsp] at h
          have ha : Spec.blank a = true := by
            rw [cmask_space] at hsp
            simp only [Bool.or_eq_true, decide_eq_true_eq] at hsp
            rcases hsp with h | rfl
            · exact h
            · simp at h10
          simp only [List.length_cons] at hn hl
          exact .blank ha (ih false toks s c' toks' (by omega) (wf_split hw [] a s rfl (blank_space a ha).2).2 (by omega)
            (fun hm => h10 (by simp [hm])) h)
        · by_cases h1 : [47, 47] <+: a :: s
          · obtain ⟨t, ht⟩ := h1
            rw [← ht, show ([47, 47] : Bytes) ++ t = 47 :: 47 :: t from rfl, lexFrom_lineComment] at h
            cases h
            rw [← ht, ← e1]
            exact .lineComment
          · by_cases h2 : [47, 42] <+: a :: s
            · obtain ⟨t, ht⟩ := h2
              rw [← ht] at hw hl hn h10 ⊢
              rw [← ht, show ([47, 42] : Bytes) ++ t = 47 :: 42 :: t from rfl, lexFrom_open] at h
              simp only [List.length_append, List.length_cons] at hn hl
              have := ih true toks t c' toks' (by omega) (wf_split hw [47] 42 t rfl (by decide)).2 (by omega)
                (fun hm => h10 (by simp [hm])) h
              rw [← e2]
              exact .openComment this
            · -- a token
              have hb : lexFrom castD false toks (a :: s) =
                  (token castD toks.head? (a :: s)).bind fun
                    | none => .throw
                    | some r => (consume ((a :: s).length - r.2.length) (a :: s)).bind fun s' => loop castD (a :: s).length false (r.1 :: toks) s' := by
                rw [lexFrom_succ]
                simp only [loop]
                rw [if_neg (by simp), if_neg (by simp), if_neg (by simpa using hsp),
                  if_neg (by rwa [List.isPrefixOf_iff_prefix]), if_neg (by rwa [List.isPrefixOf_iff_prefix])]
                congr 1
              cases ht : token castD toks.head? (a :: s) with
              | throw => rw [hb, ht] at h; cases h
              | ub => rw [hb, ht] at h; cases h
              | ok o =>
                cases o with
                | none => rw [hb, ht] at h; cases h
                | some r =>
                  obtain ⟨t, rest⟩ := r
                  obtain ⟨w, hwr, htok⟩ := token_sound hsat hl h1 h2 ht
                  have hlen := (token_ends ht).length
                  rw [hwr] at hw hl hn h10 h hlen ⊢
                  rw [List.length_append] at hl hn hlen
                  obtain ⟨q1, q2⟩ := token_complete hsat htok (by omega)
                  obtain ⟨w1, w2⟩ := starts_wf q2 hw
                  rw [lexFrom_token w1 q2.space q2.line q2.block q1] at h
                  exact .token htok (ih false (t :: toks) rest c' toks' (by dsimp only at hlen; omega) w2 (by omega) (fun hm => h10 (by simp [hm])) h)

/-! ### Files -/

theorem marks : ∀ l : Bytes, (∀ m ∈ ["<<<<<<<", ">>>>>>>", "=======", "|||||||"], ¬ Spec.bytes m <+: l) ↔
    ∀ c ∈ ([60, 62, 61, 124] : Bytes), ¬ List.replicate 7 c <+: l := by
  intro l
  have a1 : Spec.bytes "<<<<<<<" = List.replicate 7 60 := by decide +kernel
  have a2 : Spec.bytes ">>>>>>>" = List.replicate 7 62 := by decide +kernel
  have a3 : Spec.bytes "=======" = List.replicate 7 61 := by decide +kernel
  have a4 : Spec.bytes "|||||||" = List.replicate 7 124 := by decide +kernel
  simp only [List.forall_mem_cons, List.not_mem_nil, false_implies, implies_true, and_true, a1, a2, a3, a4]

theorem checked_exact (hsat : Saturates castD) {c : Bool} {toks : List (Tok R)} {l : Bytes} {c' : Bool} {toks' : List (Tok R)}
    (hw : WellFormed l) (hl : l.length ≤ 2 ^ 57) (h10 : 10 ∉ l) :
    checked castD c toks l = .ok (c', toks') ↔ Fine l ∧ Splits castD c toks l c' toks' := by
  constructor
  · intro h
    have hf : Fine l := by
      unfold checked at h
      rw [Utf.C08_accepts_well_formed l hw] at h
      simp only [Res.bind] at h
      rw [if_neg (by simp)] at h
      by_cases h0 : 0 ∈ l
      · rw [if_pos h0] at h; cases h
      · rw [if_neg h0] at h
        refine ⟨h0, (marks l).mpr ?_⟩
        intro c hc hp
        rw [if_pos (List.any_eq_true.mpr ⟨c, hc, List.isPrefixOf_iff_prefix.mpr hp⟩)] at h
        cases h
    refine ⟨hf, ?_⟩
    rw [checked_plain ⟨hw, hf.nul, (marks l).mp hf.mark⟩] at h
    exact lex_splits hsat _ _ _ _ _ _ (Nat.le_refl _) hw hl h10 h
  · rintro ⟨hf, h⟩
    rw [checked_plain ⟨hw, hf.nul, (marks l).mp hf.mark⟩]
    exact splits_lex hsat h hw hl

theorem bind_ok {α β : Type} {x : Res α} {f : α → Res β} {b : β} : x.bind f = .ok b ↔ ∃ a, x = .ok a ∧ f a = .ok b := by
  cases x with
  | ok a => simp [Res.bind]
  | throw => simp [Res.bind]
  | ub => simp [Res.bind]

theorem allLines_exact (hsat : Saturates castD) : ∀ (ls : List Bytes) (c : Bool) (toks : List (Tok R)) (c' : Bool) (toks' : List (Tok R)),
    (∀ l ∈ ls, WellFormed l ∧ l.length ≤ 2 ^ 57 ∧ 10 ∉ l) →
    (allLines castD false c toks ls = .ok (c', toks') ↔ SplitsAll castD c toks ls c' toks') := by
  intro ls
  induction ls with
  | nil =>
    intro c toks c' toks' _
    simp only [allLines]
    constructor
    · intro h; cases h; exact .nil
    · intro h; cases h; rfl
  | cons l ls ih =>
    intro c toks c' toks' hp
    obtain ⟨p1, p2, p3⟩ := hp l (by simp)
    simp only [allLines, line]
    rw [if_neg (by simp), bind_ok]
    constructor
    · rintro ⟨⟨c1, toks1⟩, h1, h2⟩
      obtain ⟨f1, f2⟩ := (checked_exact hsat p1 p2 p3).mp h1
      exact .cons f1 f2 ((ih _ _ _ _ fun x hx => hp x (by simp [hx])).mp h2)
    · intro h
      cases h with
      | @cons _ _ _ _ c1 toks1 _ _ f1 f2 f3 =>
        exact ⟨(c1, toks1), (checked_exact hsat p1 p2 p3).mpr ⟨f1, f2⟩, (ih _ _ _ _ fun x hx => hp x (by simp [hx])).mpr f3⟩

theorem getlines_feed : ∀ (s cur : Bytes), 10 ∉ cur → ∀ l ∈ getlines cur s, 10 ∉ l := by
  intro s
  induction s with
  | nil =>
    intro cur h l hl
    simp only [getlines] at hl
    split at hl
    · simp at hl
    · simp only [List.mem_singleton] at hl
      subst hl
      exact h
  | cons c s ih =>
    intro cur h l hl
    simp only [getlines] at hl
    split at hl
    · rcases List.mem_cons.1 hl with rfl | hl
      · exact h
      · exact ih [] (by simp) l hl
    · rename_i hc
      exact ih (cur ++ [c]) (by simp [h, Ne.symm hc]) l hl

theorem getlines_length : ∀ (s cur : Bytes), ∀ l ∈ getlines cur s, l.length ≤ cur.length + s.length := by
  intro s
  induction s with
  | nil =>
    intro cur l hl
    simp only [getlines] at hl
    split at hl
    · simp at hl
    · simp only [List.mem_singleton] at hl
      subst hl
      simp
  | cons c s ih =>
    intro cur l hl
    simp only [getlines] at hl
    split at hl
    · rcases List.mem_cons.1 hl with rfl | hl
      · omega
      · have := ih [] l hl
        simp only [List.length_nil, List.length_cons] at this ⊢
        omega
    · have := ih (cur ++ [c]) l hl
      simp only [List.length_append, List.length_cons, List.length_nil] at this ⊢
      omega

theorem getlines_total : ∀ (s cur : Bytes), 10 ∉ cur → Lines (cur ++ s) (getlines cur s) := by
  intro s
  induction s with
  | nil =>
    intro cur h
    simp only [getlines]
    split
    · rename_i h0; subst h0; exact ⟨by simp, .inl rfl⟩
    · rename_i h0
      refine ⟨by simpa using h, .inr ⟨[], cur, rfl, h0, by simp⟩⟩
  | cons c s ih =>
    intro cur h
    simp only [getlines]
    split
    · rename_i hc
      subst hc
      have := ih [] (by simp)
      rw [List.nil_append] at this
      refine ⟨?_, ?_⟩
      · intro l hl
        rcases List.mem_cons.1 hl with rfl | hl
        · exact h
        · exact this.feed l hl
      · rcases this.eq with h1 | ⟨ini, last, h1, h2, h3⟩
        · left
          rw [List.flatMap_cons, ← h1]
          simp
        · right
          refine ⟨cur :: ini, last, by rw [h1]; rfl, h2, ?_⟩
          rw [List.flatMap_cons]
          rw [h3]
          simp
    · rename_i hc
      have := ih (cur ++ [c]) (by simp [h, Ne.symm hc])
      rwa [List.append_assoc, List.cons_append, List.nil_append] at this

theorem getlines_append (ls : List Bytes) (h : ∀ l ∈ ls, 10 ∉ l) (rest : Bytes) :
    getlines [] (ls.flatMap (· ++ [10]) ++ rest) = ls ++ getlines [] rest := by
  induction ls with
  | nil => rfl
  | cons l ls ih =>
    simp only [List.flatMap_cons, List.append_assoc, List.cons_append, List.nil_append]
    rw [getlines_line l _ (h l (by simp)), ih fun x hx => h x (by simp [hx])]
    rfl

theorem lines_unique {src : Bytes} {ls : List Bytes} (h : Lines src ls) : getlines [] src = ls := by
  rcases h.eq with rfl | ⟨ini, last, rfl, h2, rfl⟩
  · exact getlines_lines ls h.feed
  · rw [getlines_append ini (fun l hl => h.feed l (by simp [hl])), getlines_last last (h.feed last (by simp)) h2]
    rfl

theorem head_unique {l b b' : Bytes} (h : Head l b) (h' : Head l b') : b = b' := by
  cases h with
  | bom =>
    generalize hx : ([0xEF, 0xBB, 0xBF] ++ b : Bytes) = x at h'
    cases h' with
    | bom => exact List.append_cancel_left hx
    | none h => exact absurd ⟨b, hx⟩ h
  | none h =>
    cases h' with
    | bom => exact absurd ⟨b', rfl⟩ h
    | none _ => rfl

/-- The first line. -/
theorem line_exact {c : Bool} {toks : List (Tok R)} {l b : Bytes} (h : Head l b) :
    line castD true c toks l = if Spec.bytes "#!" <+: b then .ok (c, toks) else checked castD c toks b := by
  have e : Spec.bytes "#!" = [35, 33] := by decide +kernel
  unfold line
  rw [if_pos rfl, e]
  cases h with
  | bom =>
    rw [if_pos (List.isPrefixOf_iff_prefix.mpr ⟨b, rfl⟩)]
    have : consume 3 ([0xEF, 0xBB, 0xBF] ++ b) = .ok b := consume_wf wf_bom b
    rw [this]
    simp only [Res.bind, List.isPrefixOf_iff_prefix]
  | none h =>
    rw [if_neg (by rwa [List.isPrefixOf_iff_prefix])]
    simp only [Res.bind, List.isPrefixOf_iff_prefix]

theorem head_total (l : Bytes) : ∃ b, Head l b := by
  by_cases h : [0xEF, 0xBB, 0xBF] <+: l
  · obtain ⟨b, rfl⟩ := h; exact ⟨b, .bom⟩
  · exact ⟨l, .none h⟩

theorem head_wf {l b : Bytes} (h : Head l b) (hw : WellFormed l) : WellFormed b := by
  cases h with
  | bom => exact wf_drop_bom hw
  | none _ => exact hw

theorem head_suffix {l b : Bytes} (h : Head l b) : ∃ x, l = x ++ b := by
  cases h with
  | bom => exact ⟨_, rfl⟩
  | none _ => exact ⟨[], rfl⟩

/-- The lexer divides a text into tokens exactly as the grammar says. -/
theorem reload_exact (hsat : Saturates castD) (src : Bytes) (hw : WellFormed src) (hl : src.length ≤ 2 ^ 57) (toks : List (Tok R)) :
    reload castD src = .ok toks ↔ Source castD src toks := by
  have hlines := getlines_total src [] (by simp)
  rw [List.nil_append] at hlines
  have hwf := wf_getlines src [] (by simpa using hw)
  have hfeed := getlines_feed src [] (by simp)
  have hlen := getlines_length src []
  simp only [List.length_nil, Nat.zero_add] at hlen
  have hrev : ∀ r : Bool × List (Tok R), (if r.1 = true then Res.throw else Res.ok r.2.reverse) = .ok toks ↔ r = (false, toks.reverse) := by
    rintro ⟨b, ts⟩
    cases b with
    | true => simp
    | false =>
      simp only [Bool.false_eq_true, if_false, Res.ok.injEq, Prod.mk.injEq, true_and]
      constructor
      · rintro rfl; simp
      · rintro rfl; simp
  unfold reload
  cases hg : getlines [] src with
  | nil =>
    rw [hg] at hlines
    simp only [allLines, Res.bind]
    constructor
    · intro h
      cases h
      exact .empty hlines
    · intro h
      cases h with
      | empty _ => rfl
      | shebang h1 _ _ _ => have := lines_unique h1; rw [hg] at this; cases this
      | plain h1 _ _ _ => have := lines_unique h1; rw [hg] at this; cases this
  | cons l ls =>
    rw [hg] at hlines hwf hfeed hlen
    have hp : ∀ x ∈ ls, WellFormed x ∧ x.length ≤ 2 ^ 57 ∧ 10 ∉ x := fun x hx =>
      ⟨hwf x (by simp [hx]), Nat.le_trans (hlen x (by simp [hx])) hl, hfeed x (by simp [hx])⟩
    obtain ⟨b, hb⟩ := head_total l
    have hbw := head_wf hb (hwf l (by simp))
    have hbl : b.length ≤ 2 ^ 57 ∧ 10 ∉ b := by
      obtain ⟨x, hx⟩ := head_suffix hb
      have h1 := hlen l (by simp)
      have h2 := hfeed l (by simp)
      rw [hx, List.length_append] at h1
      exact ⟨by omega, fun hm => h2 (by rw [hx]; simp [hm])⟩
    simp only [allLines]
    rw [bind_ok]
    constructor
    · rintro ⟨r, h1, h2⟩
      rw [hrev] at h2
      subst h2
      rw [bind_ok] at h1
      obtain ⟨⟨c1, t1⟩, h3, h4⟩ := h1
      rw [line_exact hb] at h3
      by_cases hs : Spec.bytes "#!" <+: b
      · rw [if_pos hs] at h3
        cases h3
        have := Source.shebang hlines hb hs ((allLines_exact hsat ls _ _ _ _ hp).mp h4)
        rwa [List.reverse_reverse] at this
      · rw [if_neg hs] at h3
        obtain ⟨f1, f2⟩ := (checked_exact hsat hbw hbl.1 hbl.2).mp h3
        have := Source.plain hlines hb hs (.cons f1 f2 ((allLines_exact hsat ls _ _ _ _ hp).mp h4))
        rwa [List.reverse_reverse] at this
    · intro h
      refine ⟨(false, toks.reverse), ?_, (hrev _).mpr rfl⟩
      rw [bind_ok]
      cases h with
      | empty h1 => have := lines_unique h1; rw [hg] at this; cases this
      | @shebang l' b' ls' toks' h1 h2 h3 h4 =>
        have := lines_unique h1
        rw [hg] at this
        cases this
        cases head_unique hb h2
        refine ⟨(false, []), by rw [line_exact hb, if_pos h3], ?_⟩
        rw [List.reverse_reverse]
        exact (allLines_exact hsat ls _ _ _ _ hp).mpr h4
      | @plain l' b' ls' toks' h1 h2 h3 h4 =>
        have := lines_unique h1
        rw [hg] at this
        cases this
        cases head_unique hb h2
        cases h4 with
        | @cons _ _ _ _ c1 t1 _ _ f1 f2 f3 =>
          refine ⟨(c1, t1), by rw [line_exact hb, if_neg h3]; exact (checked_exact hsat hbw hbl.1 hbl.2).mpr ⟨f1, f2⟩, ?_⟩
          rw [List.reverse_reverse]
          exact (allLines_exact hsat ls _ _ _ _ hp).mpr f3

end Asteria.Lexer
