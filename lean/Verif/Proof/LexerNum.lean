import Verif.Proof.LexerTokens

/-!
# Lemmas about integer literals
-/

namespace Asteria.Lexer

open Spec (IsPrefix IsSign IsDigits NumEnd)
open NumText (NumGet castI parseD parseBase numText valueOf digitChar digitValue collectLoop collectDigits prefixBase
  getSign getSpecial skipPrefix)

variable {R : Type} {castD : NumGet → Option R}

theorem hexDigit_facts : ∀ c d, Spec.hexDigit c = some d → d < 16 ∧ digitValue c = d ∧ c ≠ 46 ∧ c ≠ 43 ∧ c ≠ 45 ∧
    c ≠ 110 ∧ c ≠ 78 ∧ c ≠ 105 ∧ c ≠ 73 ∧ c ≠ 96 ∧ (d < 10 → (c ||| 0x20) ≠ 98 ∧ (c ||| 0x20) ≠ 120 ∧ Spec.digit c = true) := by
  have : ∀ c, Spec.hexDigit c = none ∨ (digitValue c < 16 ∧ Spec.hexDigit c = some (digitValue c) ∧ c ≠ 46 ∧ c ≠ 43 ∧ c ≠ 45 ∧
    c ≠ 110 ∧ c ≠ 78 ∧ c ≠ 105 ∧ c ≠ 73 ∧ c ≠ 96 ∧
    (digitValue c < 10 → (c ||| 0x20) ≠ 98 ∧ (c ||| 0x20) ≠ 120 ∧ Spec.digit c = true)) := forall_byte (by decide +kernel)
  intro c d h
  rcases this c with h' | ⟨h0, h', hr⟩
  · rw [h] at h'; cases h'
  · rw [h] at h'
    cases h'
    exact ⟨h0, rfl, hr⟩

theorem collectLoop_congr (base : Nat) (v : Bytes) (ds : List Nat) (hv : v.map Spec.hexDigit = ds.map some) :
    ∀ xu, collectLoop base (some 46) v xu = collectLoop base (some 46) (ds.map digitChar) xu ∨
      ∃ d ∈ ds, base ≤ d := by
  induction v generalizing ds with
  | nil =>
    intro xu
    cases ds with
    | nil => left; rfl
    | cons d ds => simp at hv
  | cons c v ih =>
    intro xu
    cases ds with
    | nil => simp at hv
    | cons d ds =>
      simp only [List.map_cons, List.cons.injEq] at hv
      by_cases hdb : base ≤ d
      · right; exact ⟨d, by simp, hdb⟩
      obtain ⟨h1, h2, h3, _⟩ := hexDigit_facts c d hv.1
      obtain ⟨g1, g2, _⟩ := NumText.digitChar_spec d h1
      simp only [List.map_cons]
      rw [collectLoop, collectLoop]
      simp only [h2, g1, Option.some.injEq, h3, g2, and_false, if_false, ge_iff_le, hdb]
      rcases ih ds hv.2 _ with h | ⟨d', hd', hb⟩
      · left; exact h
      · right; exact ⟨d', by simp [hd'], hb⟩

theorem Spec.IsPrefix.base {base : Nat} {pre : Bytes} (h : IsPrefix base pre) : base = 2 ∨ base = 10 ∨ base = 16 := by
  obtain ⟨h, _⟩ | ⟨h, _⟩ | ⟨h, _⟩ := h.prop <;> omega

theorem parseD_literal {base : Nat} {sgn pre v : Bytes} {neg : Bool} {ds : List Nat} (hs : IsSign sgn neg)
    (hp : IsPrefix base pre) (hv : v.map Spec.hexDigit = ds.map some) (hd : ∀ d ∈ ds, d < base) (hne : ds ≠ []) :
    parseD (sgn ++ (pre ++ v)) = parseD (numText base neg ds none) := by
  rw [NumText.parseD_base base hp.base neg ds hd hne none]
  obtain ⟨d, ds', rfl⟩ := List.exists_cons_of_ne_nil hne
  cases v with
  | nil => simp at hv
  | cons c v =>
    have hv1 := hv
    simp only [List.map_cons, List.cons.injEq] at hv1
    obtain ⟨_, _, _, a1, a2, a3, a4, a5, a6, _, a7⟩ := hexDigit_facts c d hv1.1
    have hd0 : d < base := hd d (by simp)
    obtain ⟨_, _, _, b1, b2, b3, b4, b5, b6, _⟩ := NumText.digitChar_spec d (by have := hp.base; omega)
    have hcol : collectDigits base (some 46) (c :: v) = collectDigits base (some 46) ((d :: ds').map digitChar) := by
      unfold collectDigits
      rcases collectLoop_congr base (c :: v) (d :: ds') hv ⟨0, 0, false, false, false, false⟩ with h | ⟨x, hx, hb⟩
      · rw [h]
      · have := hd x hx; omega
    -- the base
    have e1 : parseD (sgn ++ (pre ++ c :: v)) = parseBase base (sgn ++ (pre ++ c :: v)) := by
      have dec : base = 10 → prefixBase (c :: v) = none := by
        intro hb
        cases v with
        | nil => rfl
        | cons c' v' =>
          cases ds' with
          | nil => simp at hv1
          | cons d' ds'' =>
            have h2 := hv1.2
            simp only [List.map_cons, List.cons.injEq] at h2
            obtain ⟨_, _, _, _, _, _, _, _, _, _, q⟩ := hexDigit_facts c' d' h2.1
            obtain ⟨q1, q2, _⟩ := q (by have := hd d' (by simp); omega)
            simp [prefixBase, q1, q2]
      have deco : ∀ x : UInt8, x = 43 ∨ x = 45 → prefixBase (x :: c :: v) = none := by
        intro x hx
        simp only [prefixBase]
        rw [if_neg (by rcases hx with rfl | rfl <;> decide)]
      rcases hs.prop with ⟨rfl, rfl⟩ | ⟨rfl, rfl⟩ | ⟨rfl, rfl⟩ <;>
      rcases hp.prop with ⟨hb, rfl⟩ | ⟨rfl, rfl | rfl⟩ | ⟨rfl, rfl | rfl⟩
      all_goals first | rfl | skip
      · simp only [List.nil_append, parseD, dec hb, a1, a2, or_false, if_false, hb]
      · simp only [List.nil_append, List.cons_append, parseD, deco 43 (.inl rfl), dec hb, true_or, if_true, hb]
      · simp only [List.nil_append, List.cons_append, parseD, deco 45 (.inr rfl), dec hb, or_true, if_true, hb]
    rw [e1]
    have g1 : getSign (sgn ++ (pre ++ c :: v)) = (neg, pre ++ c :: v) := by
      rcases hs.prop with ⟨rfl, rfl⟩ | ⟨rfl, rfl⟩ | ⟨rfl, rfl⟩
      · rcases hp.prop with ⟨hb, rfl⟩ | ⟨rfl, rfl | rfl⟩ | ⟨rfl, rfl | rfl⟩
        · simp [getSign, a1, a2]
        all_goals rfl
      · rfl
      · rfl
    have s1 : getSpecial (pre ++ c :: v) = none := by
      rcases hp.prop with ⟨hb, rfl⟩ | ⟨rfl, rfl | rfl⟩ | ⟨rfl, rfl | rfl⟩
      · exact NumText.getSpecial_none c v a3 a4 a5 a6
      all_goals exact NumText.getSpecial_none 48 _ (by decide) (by decide) (by decide) (by decide)
    have k1 : (if base = 2 then skipPrefix 98 (pre ++ c :: v) else if base = 16 then skipPrefix 120 (pre ++ c :: v)
        else pre ++ c :: v) = c :: v := by
      rcases hp.prop with ⟨rfl, rfl⟩ | ⟨rfl, rfl | rfl⟩ | ⟨rfl, rfl | rfl⟩ <;> rfl
    have hx : ∃ x, collectDigits base (some 46) ((d :: ds').map digitChar) = x := ⟨_, rfl⟩
    obtain ⟨x, hx⟩ := hx
    have g2 : getSign (numText base neg (d :: ds') none) = (neg, NumText.prefixText base ++ (d :: ds').map digitChar) := by
      unfold NumText.numText
      simp only [NumText.expText, List.append_nil]
      cases neg with
      | true => rfl
      | false =>
        rcases hp.base with rfl | rfl | rfl
        · rfl
        · simp only [NumText.prefixText, List.map_cons]
          simp [getSign, b1, b2]
        · rfl
    have s2 : getSpecial (NumText.prefixText base ++ (d :: ds').map digitChar) = none := by
      rcases hp.base with rfl | rfl | rfl
      · exact NumText.getSpecial_none 48 _ (by decide) (by decide) (by decide) (by decide)
      · exact NumText.getSpecial_none (digitChar d) _ b3 b4 b5 b6
      · exact NumText.getSpecial_none 48 _ (by decide) (by decide) (by decide) (by decide)
    have k2 : (if base = 2 then skipPrefix 98 (NumText.prefixText base ++ (d :: ds').map digitChar)
        else if base = 16 then skipPrefix 120 (NumText.prefixText base ++ (d :: ds').map digitChar)
        else NumText.prefixText base ++ (d :: ds').map digitChar) = (d :: ds').map digitChar := by
      rcases hp.base with rfl | rfl | rfl <;> rfl
    unfold parseBase
    simp only [g1, g2, s1, s2, k1, k2, hcol]

theorem convert_int {base : Nat} {sgn pre v : Bytes} {neg : Bool} {ds : List Nat} (hs : IsSign sgn neg)
    (hp : IsPrefix base pre) (hv : v.map Spec.hexDigit = ds.map some) (hd : ∀ d ∈ ds, d < base) (hne : ds ≠ []) :
    convert castD false (sgn ++ (pre ++ v)) =
      if valueOf base 0 ds ≤ (if neg then 2 ^ 63 else 2 ^ 63 - 1) then
        .ok (.int (if neg then -((valueOf base 0 ds : Nat) : Int) else (valueOf base 0 ds : Nat)))
      else .throw := by
  unfold convert
  rw [parseD_literal hs hp hv hd hne]
  by_cases h : valueOf base 0 ds ≤ (if neg then 2 ^ 63 else 2 ^ 63 - 1)
  · rw [if_pos h, NumText.parseD_text base hp.base neg ds hd hne (by split at h <;> omega) none (fun es hes => by cases hes)]
    simp only [Bool.false_eq_true, if_false, NumText.expValue, Nat.cast_zero]
    have := NumText.castI_spec neg (if base = 10 then 10 else 2) (valueOf base 0 ds) 0 (by split <;> omega) (by omega)
      (by simpa using h)
    simp only [Nat.cast_zero, Nat.pow_zero, Nat.mul_one] at this
    rw [this]
    simp
  · rw [if_neg h]
    obtain ⟨g, r, h1, h2, h3⟩ := NumText.parseD_large base hp.base neg ds hd hne (by omega)
    rw [h1]
    simp [h2, h3]

/-! ### The text of the literal -/

theorem collect_append (mask : UInt8) (u rest : Bytes) (hu : ∀ c ∈ u, c = 96 ∨ isCmask mask c = true)
    (hr : ∀ c t, rest = c :: t → c ≠ 96 ∧ isCmask mask c = false) :
    collect mask (u ++ rest) = (u.filter (· ≠ 96), rest) := by
  induction u with
  | nil =>
    cases rest with
    | nil => rfl
    | cons c t =>
      obtain ⟨h1, h2⟩ := hr c t rfl
      simp only [List.nil_append, collect]
      rw [if_neg h1, if_neg (by simp [h2])]
      simp
  | cons c u ih =>
    have ih := ih fun x hx => hu x (List.mem_cons_of_mem _ hx)
    simp only [List.cons_append, collect]
    by_cases hc : c = 96
    · rw [if_pos hc, ih]; simp [hc]
    · have h2 := (hu c (List.mem_cons_self ..)).resolve_left hc
      rw [if_neg hc, if_pos h2, ih]; simp [hc]

theorem numEnd_mask {rest : Bytes} (h : NumEnd rest) (mask : UInt8) (hm : mask = 4 ∨ mask = 8 ∨ mask = 6) :
    ∀ c t, rest = c :: t → c ≠ 96 ∧ isCmask mask c = false := by
  intro c t e
  obtain ⟨h1, h2, _, h4⟩ := h.prop c t e
  refine ⟨h4, ?_⟩
  have : ∀ c, Spec.letter c = false → Spec.digit c = false → isCmask 4 c = false ∧ isCmask 8 c = false ∧
      isCmask 6 c = false := forall_byte (by decide +kernel)
  obtain ⟨a, b, d⟩ := this c h1 h2
  rcases hm with rfl | rfl | rfl
  · exact a
  · exact b
  · exact d

theorem fraction_end {rest : Bytes} (h : NumEnd rest) (mask : UInt8) : fraction mask rest = ([], false, rest) := by
  unfold fraction
  split
  · rename_i s
    exact absurd rfl (h.prop _ _ rfl).2.2.1
  · rfl

theorem exponent_end {rest : Bytes} (h : NumEnd rest) (e : UInt8) (he : e = 101 ∨ e = 112) :
    exponent e rest = ([], rest) := by
  cases rest with
  | nil => rfl
  | cons c t =>
    obtain ⟨h1, _⟩ := h.prop c t rfl
    have : ∀ c, Spec.letter c = false → (c ||| 0x20) ≠ 101 ∧ (c ||| 0x20) ≠ 112 := forall_byte (by decide +kernel)
    obtain ⟨a, b⟩ := this c h1
    simp only [exponent]
    rw [if_neg (by rcases he with rfl | rfl <;> assumption)]

theorem numericText_end {s text rest : Bytes} {mask e : UInt8} {u : Bytes} (hr : radix s = (text, mask, e, u ++ rest))
    (hm : mask = 4 ∨ mask = 8) (he : e = 101 ∨ e = 112) (hu : ∀ c ∈ u, c = 96 ∨ isCmask mask c = true) (h : NumEnd rest) :
    numericText s = (text ++ u.filter (· ≠ 96), false, rest) := by
  have h0 := collect_append 0x06 [] rest (by simp) (numEnd_mask h 6 (by simp))
  simp only [List.nil_append, List.filter_nil] at h0
  unfold numericText
  simp only [hr, collect_append mask u rest hu (numEnd_mask h mask (by tauto)), fraction_end h, exponent_end h e he, h0,
    List.append_nil]

theorem Spec.IsDigits.mem {base : Nat} {u : Bytes} {ds : List Nat} (h : IsDigits base u ds) :
    ∀ c ∈ u, c = 96 ∨ ∃ d ∈ ds, Spec.hexDigit c = some d := by
  intro c hc
  by_cases h96 : c = 96
  · exact .inl h96
  · right
    have : Spec.hexDigit c ∈ (u.filter (· ≠ 96)).map Spec.hexDigit :=
      List.mem_map.2 ⟨c, List.mem_filter.2 ⟨hc, by simp [h96]⟩, rfl⟩
    rw [h.eq, List.mem_map] at this
    obtain ⟨d, hd, e⟩ := this
    exact ⟨d, hd, e.symm⟩

theorem numericText_int {base : Nat} {pre u rest : Bytes} {ds : List Nat} (hp : IsPrefix base pre) (hu : IsDigits base u ds)
    (h : NumEnd rest) : numericText (pre ++ (u ++ rest)) = (pre ++ u.filter (· ≠ 96), false, rest) := by
  have hx : ∀ c ∈ u, c = 96 ∨ isCmask 8 c = true := by
    intro c hc
    rcases hu.mem c hc with h | ⟨d, hd, e⟩
    · exact .inl h
    · right; rw [cmask_xdigit, e]; rfl
  rcases hp.prop with ⟨rfl, rfl⟩ | ⟨rfl, rfl | rfl⟩ | ⟨rfl, rfl | rfl⟩
  · have hdec : ∀ c ∈ u, c = 96 ∨ isCmask 4 c = true := by
      intro c hc
      rcases hu.mem c hc with h | ⟨d, hd, e⟩
      · exact .inl h
      · right; rw [cmask_digit]; exact ((hexDigit_facts c d e).2.2.2.2.2.2.2.2.2.2 (hu.lt d hd)).2.2
    cases u with
    | nil =>
      have := hu.eq
      have hne := hu.ne
      cases ds with
      | nil => exact absurd rfl hne
      | cons d ds => simp at this
    | cons c u =>
      have h96 : c ≠ 96 := by simpa using hu.first rfl
      by_cases h48 : c = 48
      · subst h48
        have key : radix (48 :: (u ++ rest)) = ([48], 4, 101, u ++ rest) := by
          cases hur : u ++ rest with
          | nil => rfl
          | cons x t =>
            have : (x ||| 0x20) ≠ 98 ∧ (x ||| 0x20) ≠ 120 := by
              cases u with
              | nil =>
                obtain ⟨q, _⟩ := h.prop x t hur
                have : ∀ c, Spec.letter c = false → (c ||| 0x20) ≠ 98 ∧ (c ||| 0x20) ≠ 120 := forall_byte (by decide +kernel)
                exact this x q
              | cons y u =>
                cases hur
                rcases hdec x (by simp) with rfl | hd
                · decide
                · rw [cmask_digit] at hd
                  have : ∀ c, Spec.digit c = true → (c ||| 0x20) ≠ 98 ∧ (c ||| 0x20) ≠ 120 := forall_byte (by decide +kernel)
                  exact this x hd
            unfold radix
            simp only
            rw [if_neg (by tauto)]
        have := numericText_end key (.inl rfl) (.inl rfl) (fun c hc => hdec c (by simp [hc])) h
        simpa [h96] using this
      · have key : radix (c :: u ++ rest) = ([], 4, 101, c :: u ++ rest) := by
          unfold radix
          split
          · rename_i e; exact absurd (List.cons.inj e).1 h48
          · rename_i e; exact absurd (List.cons.inj e).1 h48
          · rfl
        have := numericText_end key (.inl rfl) (.inl rfl) hdec h
        simpa using this
  all_goals
    refine numericText_end (text := [48, _]) (mask := 8) (e := 112) (u := u) ?_ (.inr rfl) (.inr rfl) hx h
    rfl

end Asteria.Lexer
