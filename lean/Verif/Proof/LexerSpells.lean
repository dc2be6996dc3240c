import Verif.Proof.LexerNum

/-!
# Texts that follow the lexical grammar are lexed as it says
-/

namespace Asteria.Lexer

open Spec (IsPrefix IsSign IsDigits NumEnd MaySign SignOk Lexeme Spells SpellsAll)
open NumText (NumGet)
open Asteria.Parser (Punct)
open Utf (WellFormed)

variable {R : Type} {castD : NumGet → Option R}

theorem mayInfix_true (t : Tok R) (h : Spec.endsExpr t = true) (h' : t ≠ .punct .random) : mayInfixFollow (some t) = true := by
  cases t with
  | punct p =>
    have key : ∀ p : Punct, p ∈ ([.parCl, .brackCl, .braceCl, .inc, .dec, .head, .tail, .random] : List Punct) → p ≠ .random →
      (p = .inc || p = .dec || p = .head || p = .tail || p = .parCl || p = .brackCl || p = .braceCl) = true := by
      intro p; cases p <;> decide
    exact key p (by simpa only [Spec.endsExpr, decide_eq_true_eq] using h) (fun e => h' (by rw [e]))
  | kw w =>
    simp only [Spec.endsExpr, List.mem_cons, List.not_mem_nil, or_false, decide_eq_true_eq] at h
    rcases h with rfl | rfl | rfl | rfl <;> simp only [mayInfixFollow] <;> decide +kernel
  | _ => rfl

theorem mayInfix_false (t : Tok R) (h : Spec.endsExpr t = false) : mayInfixFollow (some t) = false := by
  cases t with
  | punct p =>
    have key : ∀ p : Punct, p ∉ ([.parCl, .brackCl, .braceCl, .inc, .dec, .head, .tail, .random] : List Punct) →
      (p = .inc || p = .dec || p = .head || p = .tail || p = .parCl || p = .brackCl || p = .braceCl) = false := by
      intro p; cases p <;> decide
    exact key p (by simpa only [Spec.endsExpr, decide_eq_false_iff_not] using h)
  | kw w =>
    simp only [Spec.endsExpr, List.mem_cons, List.not_mem_nil, or_false, decide_eq_false_iff_not] at h
    have e1 : Spec.bytes "null" = [110, 117, 108, 108] := by decide +kernel
    have e2 : Spec.bytes "true" = [116, 114, 117, 101] := by decide +kernel
    have e3 : Spec.bytes "false" = [102, 97, 108, 115, 101] := by decide +kernel
    have e4 : Spec.bytes "this" = [116, 104, 105, 115] := by decide +kernel
    rw [e1, e2, e3, e4] at h
    simp only [mayInfixFollow]
    simp only [not_or] at h
    simp [h]
  | _ => exact absurd h (by simp [Spec.endsExpr])

theorem maySign_infix {prev : List (Tok R)} (h : MaySign prev) : mayInfixFollow prev.head? = false := by
  cases hp : prev.head? with
  | none => rfl
  | some t => exact mayInfix_false t (h t hp)

theorem sign_append {sgn : Bytes} {neg : Bool} (h : IsSign sgn neg) {s : Bytes} (h1 : s.headD 0 ≠ 43) (h2 : s.headD 0 ≠ 45) :
    sign (sgn ++ s) = (sgn, s) ∧ decide (sgn = [45]) = neg := by
  rcases h.prop with ⟨rfl, rfl⟩ | ⟨rfl, rfl⟩ | ⟨rfl, rfl⟩
  · exact ⟨sign_none h1 h2, rfl⟩
  · exact ⟨rfl, rfl⟩
  · exact ⟨rfl, rfl⟩

theorem sign_ok {prev : List (Tok R)} {sgn : Bytes} (h : SignOk prev sgn) : ¬ (sgn ≠ [] ∧ mayInfixFollow prev.head? = true) := by
  rintro ⟨h1, h2⟩
  rcases h with h | h
  · exact h1 h
  · rw [maySign_infix h] at h2; cases h2

theorem token_numeric {prev : Option (Tok R)} {s : Bytes} {r : Tok R × Bytes} (h : acceptNumeric castD prev s = .ok (some r)) :
    token castD prev s = .ok (some r) := by
  simp only [token, h, Res.bind]

/-- An integer literal. -/
theorem acceptNumeric_int {prev : List (Tok R)} {sgn pre u rest : Bytes} {neg : Bool} {base : Nat} {ds : List Nat}
    (hs : IsSign sgn neg) (ho : SignOk prev sgn) (hp : IsPrefix base pre) (hu : IsDigits base u ds) (he : NumEnd rest) :
    acceptNumeric castD prev.head? (sgn ++ (pre ++ (u ++ rest))) =
      if Spec.InRange (if neg then -(Spec.number base ds : Int) else Spec.number base ds) then
        .ok (some (.int (if neg then -(Spec.number base ds : Int) else Spec.number base ds), rest))
      else .throw := by
  have hd : ∃ c t, pre ++ (u ++ rest) = c :: t ∧ Spec.digit c = true := by
    rcases hp.prop with ⟨rfl, rfl⟩ | ⟨rfl, rfl | rfl⟩ | ⟨rfl, rfl | rfl⟩
    · cases u with
      | nil =>
        have := hu.eq
        have hne := hu.ne
        cases ds with
        | nil => exact absurd rfl hne
        | cons d ds => simp at this
      | cons c u =>
        refine ⟨c, u ++ rest, rfl, ?_⟩
        have h96 : c ≠ 96 := by simpa using hu.first rfl
        rcases hu.mem c (by simp) with h | ⟨d, hd, e⟩
        · exact absurd h h96
        · exact ((hexDigit_facts c d e).2.2.2.2.2.2.2.2.2.2 (hu.lt d hd)).2.2
    all_goals exact ⟨48, _, rfl, by decide⟩
  obtain ⟨c, t, ht, hdig⟩ := hd
  have hc : ∀ c, Spec.digit c = true → c ≠ 43 ∧ c ≠ 45 ∧ c ≠ 110 ∧ c ≠ 78 ∧ c ≠ 105 ∧ c ≠ 73 ∧ 48 ≤ c ∧ c ≤ 57 :=
    forall_byte (by decide +kernel)
  obtain ⟨c1, c2, c3, c4, c5, c6, c7⟩ := hc c hdig
  obtain ⟨g1, g2⟩ := sign_append hs (s := pre ++ (u ++ rest)) (by rw [ht]; exact c1) (by rw [ht]; exact c2)
  have hn := numericText_int hp hu he
  have hcv := convert_int (castD := castD) hs hp hu.eq hu.lt hu.ne
  unfold acceptNumeric
  simp only [g1]
  rw [if_neg (sign_ok ho), hn, ht]
  simp only [c3, c4, c5, c6, c7, or_self, and_self, if_false, if_true, hcv]
  have hval : NumText.valueOf base 0 ds = Spec.number base ds := rfl
  rw [hval]
  have : (Spec.number base ds ≤ (if neg = true then 2 ^ 63 else 2 ^ 63 - 1)) ↔
      Spec.InRange (if neg = true then -(Spec.number base ds : Int) else Spec.number base ds) := by
    unfold Spec.InRange
    cases neg
    · simp only [Bool.false_eq_true, if_false]; omega
    · simp only [if_true]; omega
  by_cases h : Spec.InRange (if neg = true then -(Spec.number base ds : Int) else Spec.number base ds)
  · rw [if_pos h, if_pos (this.2 h)]; rfl
  · rw [if_neg h, if_neg (fun x => h (this.1 x))]; rfl

theorem wordTake {w rest : Bytes} (h : Spec.isName w = true) (hr : Spec.WordEnd rest) :
    (w ++ rest).takeWhile (isCmask 0x14) = w := by
  rw [takeWhile_word]
  exact word_append ((isName_iff w).1 h) hr

theorem acceptNumeric_nan {prev : List (Tok R)} {sgn w rest : Bytes} {neg : Bool}
    (hs : IsSign sgn neg) (ho : ¬ (sgn ≠ [] ∧ mayInfixFollow prev.head? = true)) (hw : w = Spec.bytes "nan" ∨ w = Spec.bytes "NaN") (hr : Spec.WordEnd rest) :
    acceptNumeric castD prev.head? (sgn ++ (w ++ rest)) = .ok (some (.nan neg, rest)) := by
  have e1 : Spec.bytes "nan" = [110, 97, 110] := by decide +kernel
  have e2 : Spec.bytes "NaN" = [78, 97, 78] := by decide +kernel
  rw [e1, e2] at hw
  have ht : (w ++ rest).takeWhile (isCmask 0x14) = w := by
    refine wordTake ?_ hr
    rcases hw with rfl | rfl <;> decide
  obtain ⟨g1, g2⟩ := sign_append hs (s := w ++ rest) (by rcases hw with rfl | rfl <;> simp)
    (by rcases hw with rfl | rfl <;> simp)
  unfold acceptNumeric
  simp only [g1]
  rw [if_neg ho]
  rcases hw with rfl | rfl
  · simp only [List.cons_append, List.nil_append] at ht ⊢
    simp only [true_or, if_true, acceptNan, ht, g2]
    rfl
  · simp only [List.cons_append, List.nil_append] at ht ⊢
    simp only [or_true, if_true, acceptNan, ht, g2]
    rfl

theorem acceptNumeric_inf {prev : List (Tok R)} {sgn w rest : Bytes} {neg : Bool}
    (hs : IsSign sgn neg) (ho : ¬ (sgn ≠ [] ∧ mayInfixFollow prev.head? = true)) (hw : w = Spec.bytes "infinity" ∨ w = Spec.bytes "Infinity")
    (hr : Spec.WordEnd rest) :
    acceptNumeric castD prev.head? (sgn ++ (w ++ rest)) = .ok (some (.inf neg, rest)) := by
  have e1 : Spec.bytes "infinity" = [105, 110, 102, 105, 110, 105, 116, 121] := by decide +kernel
  have e2 : Spec.bytes "Infinity" = [73, 110, 102, 105, 110, 105, 116, 121] := by decide +kernel
  rw [e1, e2] at hw
  have ht : (w ++ rest).takeWhile (isCmask 0x14) = w := by
    refine wordTake ?_ hr
    rcases hw with rfl | rfl <;> decide
  obtain ⟨g1, g2⟩ := sign_append hs (s := w ++ rest) (by rcases hw with rfl | rfl <;> simp)
    (by rcases hw with rfl | rfl <;> simp)
  unfold acceptNumeric
  simp only [g1]
  rw [if_neg ho]
  rcases hw with rfl | rfl
  · simp only [List.cons_append, List.nil_append] at ht ⊢
    simp only [acceptInf, ht, g2]
    rfl
  · simp only [List.cons_append, List.nil_append] at ht ⊢
    simp only [acceptInf, ht, g2]
    rfl

theorem numStart_word {s : Bytes} (h : ∀ c t, s = c :: t → Spec.digit c = false)
    (hw : Spec.word s ∉ [Spec.bytes "nan", Spec.bytes "NaN", Spec.bytes "infinity", Spec.bytes "Infinity"]) :
    ¬ Spec.NumStart s := by
  rintro (⟨c, t, e, hd⟩ | h')
  · rw [h c t e] at hd; cases hd
  · exact hw h'

theorem sign_head {s : Bytes} (h : (sign s).1 ≠ []) : s.headD 0 = 43 ∨ s.headD 0 = 45 := by
  by_cases h1 : s.headD 0 = 43
  · exact .inl h1
  by_cases h2 : s.headD 0 = 45
  · exact .inr h2
  rw [sign_none h1 h2] at h
  exact absurd rfl h

theorem name_facts : ∀ c, Spec.letter c = true → Spec.digit c = false ∧ c ≠ 43 ∧ c ≠ 45 ∧ c ≠ 34 ∧ c ≠ 39 ∧ c ≠ 47 ∧
    isCmask 0x01 c = false ∧ c.toNat < 128 := forall_byte (by decide +kernel)

theorem digit_facts : ∀ c, Spec.digit c = true → c ≠ 47 ∧ isCmask 0x01 c = false ∧ c.toNat < 128 := forall_byte (by decide +kernel)

theorem token_word {prev : Option (Tok R)} {w rest : Bytes} (h : Spec.Name w)
    (hn : w ∉ [Spec.bytes "nan", Spec.bytes "NaN", Spec.bytes "infinity", Spec.bytes "Infinity"]) (hr : Spec.WordEnd rest) :
    token castD prev (w ++ rest) =
      .ok (some (if w ∈ Spec.keywords.map Spec.bytes then Tok.kw w else .ident w, rest)) := by
  obtain ⟨c, t, rfl, h1, h2⟩ := h.shape
  obtain ⟨d1, d2, d3, d4, d5, _⟩ := name_facts c h1
  have hsg : sign (c :: t ++ rest) = ([], c :: t ++ rest) := sign_none d2 d3
  refine token_name (acceptNumeric_none (.inr ?_)) (punct_head c (t ++ rest) (letter_not_punct c h1)) d4 d5
    (acceptName_eq h hr)
  rw [hsg]
  refine numStart_word ?_ ?_
  · intro c' t' e; cases e; exact d1
  · rw [word_append h hr]; exact hn

theorem punct_text_facts : ∀ p : Punct, (Spec.bytes (Spec.text p)).headD 0 ≠ 0 ∧
    isCmask 0x01 ((Spec.bytes (Spec.text p)).headD 0) = false := by
  intro p
  cases p <;> decide +kernel

theorem punct_sign : ∀ p : Punct, (sign (Spec.bytes (Spec.text p))).1 ≠ [] → p ≠ .add → p ≠ .sub →
    Spec.digit ((Spec.bytes (Spec.text p)).getD 1 0) = false ∧ Spec.letter ((Spec.bytes (Spec.text p)).getD 1 0) = false ∧
      2 ≤ (Spec.bytes (Spec.text p)).length := by
  intro p
  cases p <;> decide +kernel

theorem punct_slash : ∀ p : Punct, p ≠ .div → ∃ a b, ([a, b] <+: Spec.bytes (Spec.text p) ∧ [a, b] ≠ [47, 47] ∧ [a, b] ≠ [47, 42]) ∨
    [a] <+: Spec.bytes (Spec.text p) ∧ a ≠ 47 := by
  have h : ∀ p : Punct, p = .div ∨ (Spec.bytes (Spec.text p)).headD 0 ≠ 47 ∨ p = .divEq := by
    intro p; cases p <;> decide +kernel
  intro p hp
  rcases h p with h | h | h
  · exact absurd h hp
  · refine ⟨(Spec.bytes (Spec.text p)).headD 0, 0, .inr ⟨?_, h⟩⟩
    have := text_ne p
    cases hb : Spec.bytes (Spec.text p) with
    | nil => exact absurd hb this
    | cons x t => simp
  · subst h
    refine ⟨47, 61, .inl ⟨?_, by decide, by decide⟩⟩
    decide +kernel

theorem no_comment {a : UInt8} {w rest : Bytes} (h : [a] <+: w) (ha : a ≠ 47) (b : UInt8) : ¬ [47, b] <+: w ++ rest := by
  obtain ⟨t, rfl⟩ := h
  rintro ⟨u, e⟩
  simp only [List.cons_append, List.nil_append, List.cons.injEq] at e
  exact ha e.1.symm

/-- What the loop needs to know about a token. -/
structure Starts (w rest : Bytes) : Prop where
  space : isCmask 0x01 ((w ++ rest).headD 0) = false
  line : ¬ [47, 47] <+: w ++ rest
  block : ¬ [47, 42] <+: w ++ rest
  last : ∃ x a, w = x ++ [a] ∧ a.toNat < 128

theorem starts_of {w rest : Bytes} {c : UInt8} {t : Bytes} (hw : w = c :: t) (h1 : c ≠ 47) (h2 : isCmask 0x01 c = false)
    (hl : ∃ x a, w = x ++ [a] ∧ a.toNat < 128) : Starts w rest := by
  subst hw
  exact ⟨h2, no_comment ⟨t, rfl⟩ h1 47, no_comment ⟨t, rfl⟩ h1 42, hl⟩

theorem last_ascii {w : Bytes} (hne : w ≠ []) (h : ∀ c ∈ w, c.toNat < 128) : ∃ x a, w = x ++ [a] ∧ a.toNat < 128 :=
  ⟨w.dropLast, w.getLast hne, (List.dropLast_concat_getLast hne).symm, h _ (List.getLast_mem hne)⟩

theorem name_ascii {w : Bytes} (h : Spec.Name w) : ∀ c ∈ w, c.toNat < 128 := by
  obtain ⟨c, t, rfl, h1, h2⟩ := h.shape
  intro x hx
  rcases List.mem_cons.1 hx with rfl | hx
  · exact (name_facts _ h1).2.2.2.2.2.2.2
  · rcases h2 x hx with h | h
    · exact (name_facts _ h).2.2.2.2.2.2.2
    · exact (digit_facts _ h).2.2

theorem name_starts {w rest : Bytes} (h : Spec.Name w) : Starts w rest := by
  obtain ⟨c, t, rfl, h1, h2⟩ := h.shape
  obtain ⟨_, _, _, _, _, f1, f2, _⟩ := name_facts c h1
  exact starts_of rfl f1 f2 (last_ascii (by simp) (name_ascii h))

theorem sign_starts {sgn w rest : Bytes} {neg : Bool} (hs : IsSign sgn neg) (h : Starts w rest) : Starts (sgn ++ w) rest := by
  obtain ⟨x, a, e, ha⟩ := h.last
  rcases hs.prop with ⟨rfl, _⟩ | ⟨rfl, _⟩ | ⟨rfl, _⟩
  · exact h
  · exact starts_of rfl (by decide) (by decide +kernel) ⟨43 :: x, a, by rw [e]; rfl, ha⟩
  · exact starts_of rfl (by decide) (by decide +kernel) ⟨45 :: x, a, by rw [e]; rfl, ha⟩

theorem hexDigit_ascii : ∀ c d, Spec.hexDigit c = some d → c.toNat < 128 := by
  have : ∀ c, (Spec.hexDigit c).isSome = true → c.toNat < 128 := forall_byte (by decide +kernel)
  intro c d h
  exact this c (by rw [h]; rfl)

theorem int_starts {base : Nat} {pre u rest : Bytes} {ds : List Nat} (hp : IsPrefix base pre) (hu : IsDigits base u ds) :
    Starts (pre ++ u) rest := by
  have hasc : ∀ c ∈ u, c.toNat < 128 := by
    intro c hc
    rcases hu.mem c hc with rfl | ⟨d, hd, e⟩
    · decide
    · exact hexDigit_ascii c d e
  have hne : u ≠ [] := by
    rintro rfl
    have h1 := hu.eq
    have h2 := hu.ne
    cases ds with
    | nil => exact h2 rfl
    | cons d ds => simp at h1
  obtain ⟨x, a, e, ha⟩ := last_ascii hne hasc
  have hl : ∃ x a, pre ++ u = x ++ [a] ∧ a.toNat < 128 := ⟨pre ++ x, a, by rw [e, List.append_assoc], ha⟩
  rcases hp.prop with ⟨rfl, rfl⟩ | ⟨rfl, rfl | rfl⟩ | ⟨rfl, rfl | rfl⟩
  · cases u with
    | nil => exact absurd rfl hne
    | cons c u =>
      have h96 : c ≠ 96 := by simpa using hu.first rfl
      rcases hu.mem c (by simp) with h | ⟨d, hd, e'⟩
      · exact absurd h h96
      · have := ((hexDigit_facts c d e').2.2.2.2.2.2.2.2.2.2 (hu.lt d hd)).2.2
        obtain ⟨f1, f2, _⟩ := digit_facts c this
        exact starts_of rfl f1 f2 hl
  all_goals exact starts_of rfl (by decide) (by decide +kernel) hl

theorem keyword_facts {w : Bytes} (h : w ∈ Spec.keywords.map Spec.bytes) :
    Spec.Name w ∧ w ∉ [Spec.bytes "nan", Spec.bytes "NaN", Spec.bytes "infinity", Spec.bytes "Infinity"] := by
  rw [← keywords_eq] at h
  refine ⟨(isName_iff w).1 (keywords_name w h), ?_⟩
  have : ∀ k ∈ keywords, k ∉ [Spec.bytes "nan", Spec.bytes "NaN", Spec.bytes "infinity", Spec.bytes "Infinity"] := by
    decide +kernel
  exact this w h

/-- A punctuator. -/
theorem token_punctuator {prev : List (Tok R)} {p : Punct} {rest : Bytes}
    (hl : Spec.Longest p (Spec.bytes (Spec.text p) ++ rest))
    (hn : p = .add ∨ p = .sub → Spec.NumStart rest → ∃ t, prev.head? = some t ∧ Spec.endsExpr t = true ∧ t ≠ .punct .random) :
    token castD prev.head? (Spec.bytes (Spec.text p) ++ rest) = .ok (some (.punct p, rest)) := by
  have e1 : Spec.bytes (Spec.text .add) = [43] := by decide +kernel
  have e2 : Spec.bytes (Spec.text .sub) = [45] := by decide +kernel
  refine token_punct (acceptNumeric_none ?_) (acceptPunct_eq hl)
  by_cases hp : p = .add ∨ p = .sub
  · have hs : (sign (Spec.bytes (Spec.text p) ++ rest)).1 ≠ [] ∧ (sign (Spec.bytes (Spec.text p) ++ rest)).2 = rest := by
      rcases hp with rfl | rfl
      · rw [e1]; exact ⟨by simp [sign], rfl⟩
      · rw [e2]; exact ⟨by simp [sign], rfl⟩
    by_cases hns : Spec.NumStart rest
    · obtain ⟨t, h1, h2, h3⟩ := hn hp hns
      left
      refine ⟨hs.1, ?_⟩
      rw [h1]
      exact mayInfix_true t h2 h3
    · right; rw [hs.2]; exact hns
  · right
    simp only [not_or] at hp
    have hne := text_ne p
    cases hb : Spec.bytes (Spec.text p) with
    | nil => exact absurd hb hne
    | cons a t =>
      -- the head of a punctuator is neither a digit nor a letter
      have hhead : Spec.digit a = false ∧ Spec.letter a = false := by
        have : ∀ e ∈ puncts, Spec.digit (e.1.headD 0) = false ∧ Spec.letter (e.1.headD 0) = false := by decide +kernel
        have := this _ (puncts_all p)
        rw [hb] at this
        exact this
      have start_none : ∀ (c : UInt8) (s : Bytes), Spec.digit c = false → Spec.letter c = false → ¬ Spec.NumStart (c :: s) := by
        intro c s h1 h2
        refine numStart_word ?_ ?_
        · intro c' t' e; cases e; exact h1
        · unfold Spec.word
          rw [List.takeWhile_cons_of_neg (by simp [h1, h2])]
          decide +kernel
      by_cases hsg : (sign (a :: t ++ rest)).1 = []
      · have : sign (a :: t ++ rest) = ([], a :: t ++ rest) := by
          refine sign_none ?_ ?_
          · intro h
            simp only [List.cons_append, List.headD_cons] at h
            subst h
            exact absurd hsg (by simp [sign])
          · intro h
            simp only [List.cons_append, List.headD_cons] at h
            subst h
            exact absurd hsg (by simp [sign])
        rw [this]
        exact start_none _ _ hhead.1 hhead.2
      · have hsg' : (sign (Spec.bytes (Spec.text p))).1 ≠ [] := by
          rw [hb]
          rcases sign_head hsg with h | h
          · simp only [List.cons_append, List.headD_cons] at h; subst h; simp [sign]
          · simp only [List.cons_append, List.headD_cons] at h; subst h; simp [sign]
        obtain ⟨f1, f2, f3⟩ := punct_sign p hsg' hp.1 hp.2
        rw [hb] at f1 f2 f3
        cases t with
        | nil => simp at f3
        | cons b t =>
          simp only [List.getD_cons_succ, List.getD_cons_zero] at f1 f2
          have : (sign (a :: b :: t ++ rest)).2 = b :: t ++ rest := by
            rcases sign_head hsg with h | h
            · simp only [List.cons_append, List.headD_cons] at h; subst h; rfl
            · simp only [List.cons_append, List.headD_cons] at h; subst h; rfl
          rw [this]
          exact start_none _ _ f1 f2

theorem punct_starts {p : Punct} {rest : Bytes} (hd : p = .div → ¬ [0x2F] <+: rest ∧ ¬ [0x2A] <+: rest) :
    Starts (Spec.bytes (Spec.text p)) rest := by
  have hl := last_ascii (text_ne p) (puncts_ascii _ (puncts_all p)).2
  have hsp : isCmask 0x01 ((Spec.bytes (Spec.text p) ++ rest).headD 0) = false := by
    have := (punct_text_facts p).2
    cases hb : Spec.bytes (Spec.text p) with
    | nil => exact absurd hb (text_ne p)
    | cons a t => rw [hb] at this; exact this
  by_cases hp : p = .div
  · subst hp
    obtain ⟨h1, h2⟩ := hd rfl
    have e1 : Spec.bytes (Spec.text .div) = [47] := by decide +kernel
    rw [e1] at hsp hl ⊢
    refine ⟨hsp, ?_, ?_, hl⟩
    · rintro ⟨u, e⟩
      simp only [List.cons_append, List.nil_append, List.cons.injEq, true_and] at e
      exact h1 ⟨u, e⟩
    · rintro ⟨u, e⟩
      simp only [List.cons_append, List.nil_append, List.cons.injEq, true_and] at e
      exact h2 ⟨u, e⟩
  · obtain ⟨a, b, ⟨⟨t, h⟩, h1, h2⟩ | ⟨h, ha⟩⟩ := punct_slash p hp
    · refine ⟨hsp, ?_, ?_, hl⟩
      · rintro ⟨u, e⟩
        rw [← h] at e
        simp only [List.cons_append, List.nil_append, List.cons.injEq] at e
        exact h1 (by rw [← e.1, ← e.2.1])
      · rintro ⟨u, e⟩
        rw [← h] at e
        simp only [List.cons_append, List.nil_append, List.cons.injEq] at e
        exact h2 (by rw [← e.1, ← e.2.1])
    · exact ⟨hsp, no_comment h ha 47, no_comment h ha 42, hl⟩

/-- Every lexeme of the grammar is taken as a whole. -/
theorem lexeme_token {prev : List (Tok R)} {t : Tok R} {w rest : Bytes} (h : Lexeme prev t w rest) :
    token castD prev.head? (w ++ rest) = .ok (some (t, rest)) ∧ Starts w rest := by
  cases h with
  | punct h1 h2 h3 => exact ⟨token_punctuator h1 h3, punct_starts h2⟩
  | kw h1 h2 =>
    obtain ⟨f1, f2⟩ := keyword_facts h1
    have := token_word (castD := castD) (prev := prev.head?) f1 f2 h2
    rw [if_pos h1] at this
    exact ⟨this, name_starts f1⟩
  | ident h1 h2 h3 h4 =>
    have := token_word (castD := castD) (prev := prev.head?) h1 h3 h4
    rw [if_neg h2] at this
    exact ⟨this, name_starts h1⟩
  | @quoted q v _ h =>
    refine ⟨?_, starts_of rfl (by decide) (by decide +kernel) ⟨34 :: q, 34, rfl, by decide⟩⟩
    have := strLoop_quoted (q ++ [34] ++ rest).length.succ q v [] rest h (by simp; omega)
    rw [List.cons_append]
    refine token_dquote (s := q ++ [34] ++ rest) ?_
    simpa using this
  | @raw q _ h =>
    refine ⟨?_, starts_of rfl (by decide) (by decide +kernel) ⟨39 :: q, 39, rfl, by decide⟩⟩
    have := strLoop_raw (q ++ [39] ++ rest).length.succ q [] rest h (by simp; omega)
    rw [List.cons_append]
    refine token_squote (s := q ++ [39] ++ rest) ?_
    simpa using this
  | nan h1 h2 h3 h4 =>
    rw [List.append_assoc]
    refine ⟨token_numeric (acceptNumeric_nan h1 (sign_ok h2) h3 h4), sign_starts h1 (name_starts ?_)⟩
    rcases h3 with rfl | rfl <;> exact (isName_iff _).1 (by decide +kernel)
  | inf h1 h2 h3 h4 =>
    rw [List.append_assoc]
    refine ⟨token_numeric (acceptNumeric_inf h1 (sign_ok h2) h3 h4), sign_starts h1 (name_starts ?_)⟩
    rcases h3 with rfl | rfl <;> exact (isName_iff _).1 (by decide +kernel)
  | int h1 h2 h3 h4 h5 h6 h7 =>
    subst h5
    refine ⟨token_numeric ?_, sign_starts h1 (int_starts h3 h4)⟩
    rw [List.append_assoc, List.append_assoc, acceptNumeric_int h1 h2 h3 h4 h7, if_pos h6]

theorem starts_wf {w rest : Bytes} (h : Starts w rest) (hw : WellFormed (w ++ rest)) : WellFormed w ∧ WellFormed rest := by
  obtain ⟨x, a, rfl, ha⟩ := h.last
  exact wf_split hw x a rest (by simp) ha

theorem wf_init {s : Bytes} (h : WellFormed s) : ∀ (x : Bytes) (a : UInt8), s = x ++ [a] → a.toNat < 128 → WellFormed x := by
  induction h with
  | nil => intro x a e; simp at e
  | cons c t hc ht ih =>
    intro x a e ha
    rw [List.append_eq_append_iff] at e
    rcases e with ⟨d, e1, e2⟩ | ⟨d, e1, e2⟩
    · rw [e1]
      exact .cons c _ hc (ih d a e2 ha)
    · cases d with
      | nil =>
        simp at e1 e2
        rw [← e1]
        have := ih [] a (by simp [e2]) ha
        have := WellFormed.cons c [] hc .nil
        simpa using this
      | cons y d =>
        simp at e2
        obtain ⟨rfl, rfl, rfl⟩ := e2
        rcases wfChar_cases hc with ⟨b, rfl, hb⟩ | hbig
        · cases x with
          | nil => exact .nil
          | cons z x => simp at e1
        · have := hbig a (by rw [e1]; simp)
          omega

theorem blank_space : ∀ c, Spec.blank c = true → isCmask 0x01 c = true ∧ c.toNat < 128 := forall_byte (by decide +kernel)

theorem spells_lex {c : Bool} {toks : List (Tok R)} {s : Bytes} {c' : Bool} {toks' : List (Tok R)}
    (h : Spells c toks s c' toks') : WellFormed s → lexFrom castD c toks s = .ok (c', toks') := by
  have e1 : Spec.bytes "//" = [47, 47] := by decide +kernel
  have e2 : Spec.bytes "/*" = [47, 42] := by decide +kernel
  have e3 : Spec.bytes "*/" = [42, 47] := by decide +kernel
  induction h with
  | nil => intro _; exact lexFrom_nil _ _
  | @blank c toks s c' toks' hb _ ih =>
    intro hw
    obtain ⟨b1, b2⟩ := blank_space c hb
    rw [lexFrom_space toks c s b1]
    exact ih (wf_split hw [] c s rfl b2).2
  | @token toks t w s c' toks' hl _ ih =>
    intro hw
    obtain ⟨h1, h2⟩ := lexeme_token (castD := castD) hl
    obtain ⟨w1, w2⟩ := starts_wf h2 hw
    rw [lexFrom_token w1 h2.space h2.line h2.block h1]
    exact ih w2
  | @lineComment toks s =>
    intro _
    rw [e1]
    exact lexFrom_lineComment toks s
  | @openComment toks s c' toks' _ ih =>
    intro hw
    rw [e2] at hw ⊢
    rw [show ([47, 42] : Bytes) ++ s = 47 :: 42 :: s from rfl, lexFrom_open]
    exact ih (wf_split hw [47] 42 s rfl (by decide)).2
  | inside hn => intro _; exact lexFrom_inside _ _ hn
  | @close toks x s c' toks' hn _ ih =>
    intro hw
    rw [e3] at hw ⊢
    have hx : WellFormed x := by
      have := (wf_split hw x 42 (47 :: s) rfl (by decide)).1
      exact wf_init this x 42 rfl (by decide)
    rw [show x ++ ([42, 47] ++ s) = x ++ 42 :: 47 :: s from rfl, lexFrom_close toks x s hn hx]
    exact ih (wf_split hw (x ++ [42]) 47 s (by simp) (by decide)).2

end Asteria.Lexer
