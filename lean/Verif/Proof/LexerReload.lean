import Verif.Proof.LexerSpells

/-!
# Lemmas about whole texts
-/

namespace Asteria.Lexer

open Spec (SpellsAll)
open NumText (NumGet)
open Utf (WellFormed)

variable {R : Type} {castD : NumGet → Option R}

theorem getlines_line (l rest : Bytes) (h : 10 ∉ l) : ∀ cur, getlines cur (l ++ 10 :: rest) = (cur ++ l) :: getlines [] rest := by
  induction l with
  | nil => intro cur; simp [getlines]
  | cons c l ih =>
    intro cur
    simp only [List.mem_cons, not_or] at h
    simp only [List.cons_append, getlines]
    rw [if_neg (fun e => h.1 e.symm), ih h.2]
    simp

theorem getlines_lines (lines : List Bytes) (h : ∀ l ∈ lines, 10 ∉ l) : getlines [] (lines.flatMap (· ++ [10])) = lines := by
  induction lines with
  | nil => rfl
  | cons l ls ih =>
    simp only [List.flatMap_cons, List.append_assoc, List.cons_append, List.nil_append]
    rw [getlines_line l _ (h l (by simp))]
    simp only [List.nil_append]
    rw [ih fun x hx => h x (List.mem_cons_of_mem _ hx)]

theorem getlines_last (l : Bytes) (h : 10 ∉ l) (hne : l ≠ []) : ∀ cur, getlines cur l = [cur ++ l] := by
  induction l with
  | nil => exact absurd rfl hne
  | cons c l ih =>
    intro cur
    simp only [List.mem_cons, not_or] at h
    simp only [getlines]
    rw [if_neg (fun e => h.1 e.symm)]
    by_cases hl : l = []
    · subst hl; simp [getlines]
    · rw [ih h.2 hl]; simp

/-- Lines that pass the checks before the loop. -/
structure Plain (l : Bytes) : Prop where
  wf : WellFormed l
  noNull : 0 ∉ l
  noConflict : ∀ c ∈ ([60, 62, 61, 124] : Bytes), ¬ List.replicate 7 c <+: l

theorem checked_plain {l : Bytes} (h : Plain l) (b : Bool) (toks : List (Tok R)) :
    checked castD b toks l = lexFrom castD b toks l := by
  unfold checked
  rw [Utf.C08_accepts_well_formed l h.wf]
  simp only [Res.bind]
  rw [if_neg (by simp), if_neg h.noNull, if_neg]
  · rfl
  · rw [List.any_eq_true]
    rintro ⟨c, hc, hp⟩
    exact h.noConflict c hc (List.isPrefixOf_iff_prefix.1 hp)

theorem allLines_spells {c : Bool} {toks : List (Tok R)} {ls : List Bytes} {c' : Bool} {toks' : List (Tok R)}
    (h : SpellsAll c toks ls c' toks') (hp : ∀ l ∈ ls, Plain l) : allLines castD false c toks ls = .ok (c', toks') := by
  induction h with
  | nil => rfl
  | cons h1 _ ih =>
    simp only [allLines, line]
    rw [if_neg (by simp), checked_plain (hp _ (by simp)), spells_lex h1 (hp _ (by simp)).wf]
    exact ih fun l hl => hp l (List.mem_cons_of_mem _ hl)

/-- The first line has neither a byte order mark nor a `#!`. -/
structure FirstOk (l : Bytes) : Prop where
  bom : ¬ [0xEF, 0xBB, 0xBF] <+: l
  shebang : ¬ [35, 33] <+: l

theorem line_first {l : Bytes} (h : FirstOk l) (b : Bool) (toks : List (Tok R)) :
    line castD true b toks l = line castD false b toks l := by
  unfold line
  rw [if_pos rfl, if_neg (by rw [List.isPrefixOf_iff_prefix]; exact h.bom)]
  simp only [Res.bind]
  rw [if_neg (by rw [List.isPrefixOf_iff_prefix]; exact h.shebang), if_neg (by simp)]

theorem allLines_first {ls : List Bytes} (h : ∀ l, ls.head? = some l → FirstOk l) (b : Bool) (toks : List (Tok R)) :
    allLines castD true b toks ls = allLines castD false b toks ls := by
  cases ls with
  | nil => rfl
  | cons l ls => simp only [allLines, line_first (h l rfl)]

theorem lexFrom_throw {toks : List (Tok R)} {s : Bytes} (hne : s ≠ [])
    (hs : isCmask 0x01 (s.headD 0) = false) (h1 : ¬ [47, 47] <+: s) (h2 : ¬ [47, 42] <+: s)
    (ht : token castD toks.head? s = .throw) : lexFrom castD false toks s = .throw := by
  rw [lexFrom_succ]
  simp only [loop]
  rw [if_neg hne, if_neg (by simp), if_neg (by rw [hs]; simp),
    if_neg (by rwa [List.isPrefixOf_iff_prefix]), if_neg (by rwa [List.isPrefixOf_iff_prefix]), ht]
  rfl

theorem wf_getlines : ∀ (s cur : Bytes), WellFormed (cur ++ s) → ∀ l ∈ getlines cur s, WellFormed l := by
  intro s
  induction s with
  | nil =>
    intro cur h l hl
    simp only [getlines] at hl
    split at hl
    · simp at hl
    · simp only [List.mem_singleton] at hl
      subst hl
      simpa using h
  | cons c s ih =>
    intro cur h l hl
    simp only [getlines] at hl
    split at hl
    · rename_i hc
      subst hc
      obtain ⟨h1, h2⟩ := wf_split h cur 10 s rfl (by decide)
      rcases List.mem_cons.1 hl with rfl | hl
      · exact wf_init h1 _ 10 rfl (by decide)
      · exact ih [] h2 l hl
    · exact ih (cur ++ [c]) (by simpa using h) l hl

theorem checked_no_ub (b : Bool) (toks : List (Tok R)) (l : Bytes) (h : WellFormed l) : checked castD b toks l ≠ .ub := by
  unfold checked
  rw [Utf.C08_accepts_well_formed l h]
  simp only [Res.bind]
  rw [if_neg (by simp)]
  split
  · simp
  · split
    · simp
    · exact loop_no_ub _ _ _ _ (le_refl _) h

theorem wf_bom : WellFormed [0xEF, 0xBB, 0xBF] := by
  have := WellFormed.cons [0xEF, 0xBB, 0xBF] [] (.r6 _ _ _ (by unfold Utf.inR; decide) (by unfold Utf.inR; decide)
    (by unfold Utf.inR; decide)) .nil
  simpa using this

theorem wf_drop_bom {l : Bytes} (h : WellFormed ([0xEF, 0xBB, 0xBF] ++ l)) : WellFormed l := by
  generalize hs : ([0xEF, 0xBB, 0xBF] : Bytes) ++ l = s at h
  cases h with
  | nil => simp at hs
  | cons c r hc hr =>
    have : c.length = 3 → r = l := by
      intro h3
      have := congrArg (List.drop 3) hs
      rw [List.drop_append_of_le_length (by simp), List.drop_append_of_le_length (by omega)] at this
      simp [List.drop_eq_nil_of_le (show c.length ≤ 3 by omega)] at this
      exact this.symm
    cases hc with
    | r6 => rw [← this rfl]; exact hr
    | r3 => rw [← this rfl]; exact hr
    | r4 => rw [← this rfl]; exact hr
    | r5 => rw [← this rfl]; exact hr
    | r1 a h =>
      simp only [List.cons_append, List.nil_append, List.cons.injEq] at hs
      rw [← hs.1] at h; unfold Utf.inR at h; simp at h
    | r2 a b h =>
      simp only [List.cons_append, List.nil_append, List.cons.injEq] at hs
      rw [← hs.1] at h; unfold Utf.inR at h; simp at h
    | r7 a b c d h =>
      simp only [List.cons_append, List.nil_append, List.cons.injEq] at hs
      rw [← hs.1] at h; unfold Utf.inR at h; simp at h
    | r8 a b c d h =>
      simp only [List.cons_append, List.nil_append, List.cons.injEq] at hs
      rw [← hs.1] at h; unfold Utf.inR at h; simp at h
    | r9 a b c d h =>
      simp only [List.cons_append, List.nil_append, List.cons.injEq] at hs
      rw [← hs.1] at h; unfold Utf.inR at h; simp at h

theorem line_no_ub (f b : Bool) (toks : List (Tok R)) (l : Bytes) (h : WellFormed l) : line castD f b toks l ≠ .ub := by
  unfold line
  split
  · by_cases hb : [0xEF, 0xBB, 0xBF].isPrefixOf l = true
    · rw [if_pos hb]
      obtain ⟨t, rfl⟩ := List.isPrefixOf_iff_prefix.1 hb
      have : consume 3 ([0xEF, 0xBB, 0xBF] ++ t) = .ok t := consume_wf wf_bom t
      rw [this]
      simp only [Res.bind]
      split
      · simp
      · exact checked_no_ub _ _ _ (wf_drop_bom h)
    · rw [if_neg hb]
      simp only [Res.bind]
      split
      · simp
      · exact checked_no_ub _ _ _ h
  · exact checked_no_ub _ _ _ h

theorem allLines_no_ub : ∀ (ls : List Bytes) (f b : Bool) (toks : List (Tok R)), (∀ l ∈ ls, WellFormed l) →
    allLines castD f b toks ls ≠ .ub := by
  intro ls
  induction ls with
  | nil => intro f b toks _; simp [allLines]
  | cons l ls ih =>
    intro f b toks h
    simp only [allLines]
    refine bind_no_ub (line_no_ub f b toks l (h l (by simp))) ?_
    intro r _
    exact ih _ _ _ fun x hx => h x (List.mem_cons_of_mem _ hx)

/-! ### Quoting -/

theorem charEscapes_facts : ∀ c : UInt8, (charEscapes.getD c.toNat [] = [c] ∧ c ≠ 0 ∧ c ≠ 34 ∧ c ≠ 92) ∨
    (∃ x, charEscapes.getD c.toNat [] = [92, x] ∧ (x, c) ∈ Spec.simpleEscapes) ∨
    ∃ a b, charEscapes.getD c.toNat [] = [92, 120, a, b] ∧ Spec.hexNumber 0 [a, b] = some c.toNat := by
  have : ∀ c : UInt8, (charEscapes.getD c.toNat [] = [c] ∧ c ≠ 0 ∧ c ≠ 34 ∧ c ≠ 92) ∨
      (charEscapes.getD c.toNat [] = [92, (charEscapes.getD c.toNat []).getD 1 0] ∧
        ((charEscapes.getD c.toNat []).getD 1 0, c) ∈ Spec.simpleEscapes) ∨
      (charEscapes.getD c.toNat [] = [92, 120, (charEscapes.getD c.toNat []).getD 2 0, (charEscapes.getD c.toNat []).getD 3 0] ∧
        Spec.hexNumber 0 [(charEscapes.getD c.toNat []).getD 2 0, (charEscapes.getD c.toNat []).getD 3 0] = some c.toNat) :=
    forall_byte (by decide +kernel)
  intro c
  rcases this c with h | h | h
  · exact .inl h
  · exact .inr (.inl ⟨_, h⟩)
  · exact .inr (.inr ⟨_, _, h⟩)

theorem cQuote_quoted (s : Bytes) : Spec.Quoted (cQuote s) s := by
  induction s with
  | nil => exact .nil
  | cons c s ih =>
    have e : cQuote (c :: s) = charEscapes.getD c.toNat [] ++ cQuote s := rfl
    rw [e]
    rcases charEscapes_facts c with ⟨h, h1, h2, h3⟩ | ⟨x, h, h1⟩ | ⟨a, b, h, h1⟩
    · rw [h]; exact .plain h1 h2 h3 ih
    · rw [h]; exact .simple h1 ih
    · rw [h]
      have := Spec.Quoted.byte (h := [a, b]) (n := c.toNat) rfl h1 ih
      simpa using this

theorem cQuote_printable (s : Bytes) : ∀ c ∈ cQuote s, 0x20 ≤ c.toNat ∧ c.toNat ≤ 0x7E := by
  have : ∀ c : UInt8, ∀ x ∈ charEscapes.getD c.toNat [], 0x20 ≤ x.toNat ∧ x.toNat ≤ 0x7E := forall_byte (by decide +kernel)
  intro c hc
  obtain ⟨a, _, ha⟩ := List.mem_flatMap.1 hc
  exact this a c ha

end Asteria.Lexer
