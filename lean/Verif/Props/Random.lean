import Verif.Model.Random
import Mathlib.Tactic.Linarith
import Mathlib.Tactic.Ring
import Mathlib.Tactic.NormNum
import Mathlib.Tactic.FieldSimp
import Mathlib.Tactic.Positivity
import Mathlib.Data.Set.Finite.Lemmas
import Mathlib.Data.Set.Finite.Lattice
import Mathlib.Order.Interval.Set.Defs
import Mathlib.Data.Int.Interval
import Mathlib.Order.Interval.Finset.Defs
import Mathlib.Data.Finite.Prod

/-!
# Random real numbers
-/

namespace Asteria.Random

/-- A rational number is the value of a finite `double`: 53 significant bits, and exponents of IEEE 754 binary64. -/
def IsDouble (q : ℚ) : Prop := ∃ m e : ℤ, |m| < 2 ^ 53 ∧ -1074 ≤ e ∧ e ≤ 971 ∧ q = m * (2 : ℚ) ^ e

/-- `r` is a `double` that is nearest to `q`. -/
def Nearest (q r : ℚ) : Prop := IsDouble r ∧ ∀ s, IsDouble s → |q - r| ≤ |q - s|

theorem IsDouble.neg {q : ℚ} (h : IsDouble q) : IsDouble (-q) := by
  obtain ⟨m, e, h1, h2, h3, rfl⟩ := h
  exact ⟨-m, e, by rwa [abs_neg], h2, h3, by push_cast; ring⟩

theorem isDouble_zero : IsDouble 0 := ⟨0, 0, by norm_num, by norm_num, by norm_num, by simp⟩

theorem Nearest.neg {q r : ℚ} (h : Nearest q r) : Nearest (-q) (-r) := by
  refine ⟨h.1.neg, fun s hs => ?_⟩
  have := h.2 (-s) hs.neg
  rw [show -q - -r = -(q - r) by ring, show -q - s = -(q - -s) by ring, abs_neg, abs_neg]
  exact this

/-- There are finitely many finite `double`s. -/
theorem finite_doubles : {q | IsDouble q}.Finite := by
  refine ((Set.Finite.prod (Set.finite_Icc (-2 ^ 53 : ℤ) (2 ^ 53)) (Set.finite_Icc (-1074 : ℤ) 971)).image
    fun p : ℤ × ℤ => (p.1 : ℚ) * (2 : ℚ) ^ p.2).subset ?_
  rintro q ⟨m, e, h1, h2, h3, rfl⟩
  have := abs_lt.1 h1
  exact ⟨(m, e), ⟨⟨by omega, by omega⟩, ⟨h2, h3⟩⟩, rfl⟩

/-- There is a rounding to the nearest `double`; so the hypotheses about roundings below are not vacuous. -/
theorem exists_rounding : ∃ rnd : ℚ → ℚ, ∀ q, Nearest q (rnd q) := by
  have h : ∀ q : ℚ, ∃ r, Nearest q r := by
    intro q
    obtain ⟨r, h1, h2⟩ := Set.exists_min_image _ (fun r => |q - r|) finite_doubles ⟨0, isDouble_zero⟩
    exact ⟨r, h1, fun s hs => h2 s hs⟩
  exact ⟨fun q => (h q).choose, fun q => (h q).choose_spec⟩

theorem ireg_lt (hi lo : BitVec 32) : ireg hi lo < 2 ^ 53 := by
  unfold ireg
  rw [BitVec.toNat_xor]
  apply Nat.xor_lt_two_pow
  · rw [BitVec.toNat_shiftLeft, BitVec.toNat_setWidth, Nat.shiftLeft_eq]
    have := hi.isLt
    omega
  · rw [BitVec.toNat_setWidth]
    have := lo.isLt
    omega

theorem ratio_nonneg (hi lo : BitVec 32) : 0 ≤ ratio hi lo := by
  unfold ratio
  positivity

theorem ratio_le (hi lo : BitVec 32) : ratio hi lo ≤ 1 - (2 : ℚ) ^ (-53 : ℤ) := by
  have h : (ireg hi lo : ℚ) ≤ 2 ^ 53 - 1 := by
    have := ireg_lt hi lo
    have h2 : ireg hi lo ≤ 2 ^ 53 - 1 := by omega
    have : ((ireg hi lo : ℕ) : ℚ) ≤ ((2 ^ 53 - 1 : ℕ) : ℚ) := by exact_mod_cast h2
    norm_num at this ⊢
    linarith
  unfold ratio
  have : (2 : ℚ) ^ (-53 : ℤ) = 1 / 2 ^ 53 := by norm_num
  rw [this]
  linarith

theorem two_zpow_pos (e : ℤ) : (0 : ℚ) < (2 : ℚ) ^ e := zpow_pos (by norm_num) e

/-- A `double` that is not subnormal has a mantissa of 53 bits. -/
theorem normal_form (n : Nat) : ∀ m e : ℤ, 0 < m → m < 2 ^ 53 → 2 ^ 53 - m < n → -1074 ≤ e → e ≤ 971 →
    (2 : ℚ) ^ (-1022 : ℤ) ≤ m * (2 : ℚ) ^ e →
    ∃ m' e' : ℤ, 2 ^ 52 ≤ m' ∧ m' < 2 ^ 53 ∧ -1074 ≤ e' ∧ e' ≤ 971 ∧ (m : ℚ) * (2 : ℚ) ^ e = m' * (2 : ℚ) ^ e' := by
  induction n with
  | zero => intro m e h1 h2 h3; omega
  | succ n ih =>
    intro m e h1 h2 h3 h4 h5 h6
    by_cases hm : 2 ^ 52 ≤ m
    · exact ⟨m, e, hm, h2, h4, h5, rfl⟩
    · have he : -1074 < e := by
        by_contra hc
        have : e = -1074 := by omega
        subst this
        have e1 : (2 : ℚ) ^ (-1022 : ℤ) = 2 ^ 52 * (2 : ℚ) ^ (-1074 : ℤ) := by
          rw [show (-1022 : ℤ) = 52 + -1074 by norm_num, zpow_add₀ (by norm_num)]
          norm_num
        rw [e1] at h6
        have h7 := le_of_mul_le_mul_right h6 (two_zpow_pos _)
        have : (2 : ℤ) ^ 52 ≤ m := by exact_mod_cast h7
        exact hm this
      have e2 : (m : ℚ) * (2 : ℚ) ^ e = ((2 * m : ℤ) : ℚ) * (2 : ℚ) ^ (e - 1) := by
        rw [zpow_sub_one₀ (by norm_num)]
        push_cast
        ring
      rw [e2] at h6 ⊢
      exact ih (2 * m) (e - 1) (by omega) (by omega) (by omega) (by omega) (by omega) h6

/-- The `double` just below a positive one that is not subnormal nor the least normal one is closer to it
than 2^-52 of it. -/
theorem exists_below {l : ℚ} (hl : IsDouble l) (h : (2 : ℚ) ^ (-1022 : ℤ) < l) :
    ∃ s, IsDouble s ∧ s < l ∧ l - s < l * (2 : ℚ) ^ (-52 : ℤ) := by
  obtain ⟨m, e, h1, h2, h3, rfl⟩ := hl
  have hpos : (0 : ℚ) < m := by
    have := lt_trans (two_zpow_pos _) h
    exact (pos_iff_pos_of_mul_pos this).2 (two_zpow_pos e)
  have hm : 0 < m := by exact_mod_cast hpos
  rw [abs_of_pos hm] at h1
  obtain ⟨m', e', g1, g2, g3, g4, ge⟩ := normal_form (2 ^ 53 + 1) m e hm h1 (by push_cast; omega) h2 h3 h.le
  rw [ge] at h ⊢
  have hz : (2 : ℚ) ^ (-52 : ℤ) = 1 / 2 ^ 52 := by norm_num
  have hp := two_zpow_pos e'
  by_cases hm' : m' = 2 ^ 52
  · subst hm'
    have he : -1074 < e' := by
      by_contra hc
      have : e' = -1074 := by omega
      subst this
      rw [show (-1022 : ℤ) = 52 + -1074 by norm_num, zpow_add₀ (by norm_num)] at h
      norm_num at h
    have e3 : (2 : ℚ) ^ e' = 2 * (2 : ℚ) ^ (e' - 1) := by rw [zpow_sub_one₀ (by norm_num)]; ring
    have hp' := two_zpow_pos (e' - 1)
    refine ⟨((2 ^ 53 - 1 : ℤ) : ℚ) * (2 : ℚ) ^ (e' - 1), ⟨2 ^ 53 - 1, e' - 1, by norm_num, by omega, by omega, rfl⟩, ?_, ?_⟩
    · rw [e3]
      push_cast
      linarith
    · rw [e3, hz]
      push_cast
      linarith
  · have hgt : (2 ^ 52 : ℚ) < m' := by
      have : (2 : ℤ) ^ 52 < m' := lt_of_le_of_ne g1 (Ne.symm hm')
      exact_mod_cast this
    refine ⟨((m' - 1 : ℤ) : ℚ) * (2 : ℚ) ^ e', ⟨m' - 1, e', by rw [abs_of_pos (by omega)]; omega, g3, g4, rfl⟩, ?_, ?_⟩
    · push_cast
      nlinarith
    · rw [hz]
      push_cast
      have := mul_lt_mul_of_pos_right hgt hp
      linarith

theorem below_of_pos {l q r : ℚ} (hl : IsDouble l) (h : (2 : ℚ) ^ (-1022 : ℤ) < l) (hq : q ≤ (1 - (2 : ℚ) ^ (-53 : ℤ)) * l)
    (hr : Nearest q r) : r < l := by
  by_contra hc
  have hc : l ≤ r := not_lt.1 hc
  obtain ⟨s, hs, hsl, hd⟩ := exists_below hl h
  have hn := hr.2 s hs
  have hlp := lt_trans (two_zpow_pos _) h
  have hz : (2 : ℚ) ^ (-52 : ℤ) = 1 / 2 ^ 52 := by norm_num
  have hz' : (2 : ℚ) ^ (-53 : ℤ) = 1 / 2 ^ 53 := by norm_num
  rw [hz] at hd
  rw [hz'] at hq
  have hqr : q - r ≤ 0 := by linarith
  rw [abs_of_nonpos hqr] at hn
  rcases le_total q s with hqs | hqs
  · rw [abs_of_nonpos (by linarith)] at hn
    linarith
  · rw [abs_of_nonneg (by linarith)] at hn
    linarith

theorem nonneg_of_nonneg {q r : ℚ} (hq : 0 ≤ q) (hr : Nearest q r) : 0 ≤ r := by
  have := hr.2 0 isDouble_zero
  rw [sub_zero, abs_of_nonneg hq] at this
  by_contra hc
  have hc : r < 0 := not_le.1 hc
  rw [abs_of_nonneg (by linarith)] at this
  linarith

/-- **C76**, as stated: whatever the outputs of the random engine, the result has a magnitude less than the limit. -/
def C76_claim : Prop := ∀ rnd : ℚ → ℚ, (∀ q, Nearest q (rnd q)) → ∀ hi lo l, IsDouble l → l ≠ 0 →
  ∃ r, random rnd hi lo (some (.fin l)) = .ok r ∧ |r| < |l|

/-- **C76**, the default limit: the result is in [0,1), exactly. -/
theorem C76_default (rnd : ℚ → ℚ) (hi lo : BitVec 32) : ∃ r, random rnd hi lo none = .ok r ∧ 0 ≤ r ∧ r < 1 ∧ IsDouble r := by
  refine ⟨_, rfl, ratio_nonneg hi lo, ?_, ⟨ireg hi lo, -53, ?_, by norm_num, by norm_num, ?_⟩⟩
  · have := ratio_le hi lo
    have := two_zpow_pos (-53)
    linarith
  · have := ireg_lt hi lo
    rw [abs_of_nonneg (by omega)]
    exact_mod_cast this
  · unfold ratio
    push_cast
    rfl

/-- **C76**, errors: limits that are zero or not finite are errors. -/
theorem C76_throw (rnd : ℚ → ℚ) (hi lo : BitVec 32) (l : Num) :
    random rnd hi lo (some l) = .throw ↔ l = .fin 0 ∨ ∀ q, l ≠ .fin q := by
  cases l with
  | nan => simp [random]
  | inf b => simp [random]
  | fin q =>
    by_cases h : q = 0
    · simp [random, h]
    · simp [random, h]

/-- **C76**, partial: for every limit whose magnitude is greater than 2^-1022, the least normal number, and any outputs of the random
engine, the result does not have the opposite sign, and its magnitude is less than that of the limit.  Missing: the other limits, for
which this is false (`C76_false`, `C76_subnormal`). -/
theorem C76_partial (rnd : ℚ → ℚ) (hrnd : ∀ q, Nearest q (rnd q)) (hi lo : BitVec 32) (l : ℚ) (hl : IsDouble l)
    (h : (2 : ℚ) ^ (-1022 : ℤ) < |l|) :
    ∃ r, random rnd hi lo (some (.fin l)) = .ok r ∧ |r| < |l| ∧ 0 ≤ r * l ∧ IsDouble r := by
  have hne : l ≠ 0 := by
    rintro rfl
    rw [abs_zero] at h
    exact absurd h (not_lt.2 (two_zpow_pos _).le)
  have e : random rnd hi lo (some (.fin l)) = .ok (rnd (ratio hi lo * l)) := by
    show (if l = 0 then _ else _) = _
    rw [if_neg hne]
  refine ⟨_, e, ?_⟩
  have hn := hrnd (ratio hi lo * l)
  generalize rnd (ratio hi lo * l) = r at hn
  have h0 := ratio_nonneg hi lo
  have h1 := ratio_le hi lo
  refine ⟨?_, ?_, hn.1⟩
  · rcases lt_or_gt_of_ne hne with hlt | hgt
    · rw [abs_of_neg hlt] at h ⊢
      have hn := hn.neg
      have a := below_of_pos hl.neg h (q := -(ratio hi lo * l)) (by nlinarith) hn
      have b := nonneg_of_nonneg (by nlinarith) hn
      rw [abs_of_nonpos (by linarith)]
      exact a
    · rw [abs_of_pos hgt] at h ⊢
      have a := below_of_pos hl h (q := ratio hi lo * l) (by nlinarith) hn
      have b := nonneg_of_nonneg (by nlinarith) hn
      rw [abs_of_nonneg b]
      exact a
  · rcases lt_or_gt_of_ne hne with hlt | hgt
    · have b := nonneg_of_nonneg (q := -(ratio hi lo * l)) (by nlinarith) hn.neg
      nlinarith
    · have b := nonneg_of_nonneg (by nlinarith) hn
      nlinarith

/-- **C76** is false of every subnormal limit: if the outputs of the random engine have all bits set (the upper ones of the second
output are clear), the result is the limit itself. -/
theorem C76_subnormal (rnd : ℚ → ℚ) (hrnd : ∀ q, Nearest q (rnd q)) (l : ℚ) (hl : IsDouble l) (hne : l ≠ 0)
    (h : |l| < (2 : ℚ) ^ (-1022 : ℤ)) : random rnd 0xFFFFFFFF 0x1FFFFF (some (.fin l)) = .ok l := by
  have e : random rnd 0xFFFFFFFF 0x1FFFFF (some (.fin l)) = .ok (rnd (ratio 0xFFFFFFFF 0x1FFFFF * l)) := by
    show (if l = 0 then _ else _) = _
    rw [if_neg hne]
  rw [e]
  have hn := hrnd (ratio 0xFFFFFFFF 0x1FFFFF * l)
  generalize rnd (ratio 0xFFFFFFFF 0x1FFFFF * l) = r at hn
  have hx : ratio 0xFFFFFFFF 0x1FFFFF = 1 - 1 / 2 ^ 53 := by
    unfold ratio
    rw [show ireg 0xFFFFFFFF 0x1FFFFF = 2 ^ 53 - 1 by decide]
    norm_num
  rw [hx] at hn
  obtain ⟨⟨m, e, h1, h2, h3, hr⟩, hmin⟩ := hn
  obtain ⟨m', e', h1', h2', h3', hl'⟩ := hl
  -- both are multiples of the least subnormal number
  have mult : ∀ (a b : ℤ), -1074 ≤ b → ∃ k : ℤ, (a : ℚ) * (2 : ℚ) ^ b = k * (2 : ℚ) ^ (-1074 : ℤ) := by
    intro a b hb
    refine ⟨a * 2 ^ (b + 1074).toNat, ?_⟩
    push_cast
    rw [mul_assoc, ← zpow_natCast, ← zpow_add₀ (by norm_num)]
    congr 2
    omega
  obtain ⟨k, hk⟩ := mult m e h2
  obtain ⟨k', hk'⟩ := mult m' e' h2'
  rw [hk] at hr
  rw [hk'] at hl'
  have hu := two_zpow_pos (-1074)
  have hb : (2 : ℚ) ^ (-1022 : ℤ) = 2 ^ 52 * (2 : ℚ) ^ (-1074 : ℤ) := by
    rw [show (-1022 : ℤ) = 52 + -1074 by norm_num, zpow_add₀ (by norm_num)]
    norm_num
  have h5 := hmin l ⟨m', e', h1', h2', h3', by rw [hl', hk']⟩
  rw [hb] at h
  generalize (2 : ℚ) ^ (-1074 : ℤ) = u at *
  have e6 : (1 - 1 / 2 ^ 53) * l - l = -(l / 2 ^ 53) := by ring
  rw [e6, abs_neg, abs_div, abs_of_pos (show (0 : ℚ) < 2 ^ 53 by norm_num)] at h5
  have h7 : |l - r| < u := by
    have t : |l - r| ≤ |l - (1 - 1 / 2 ^ 53) * l| + |(1 - 1 / 2 ^ 53) * l - r| := abs_sub_le _ _ _
    rw [show l - (1 - 1 / 2 ^ 53) * l = l / 2 ^ 53 by ring, abs_div, abs_of_pos (show (0 : ℚ) < 2 ^ 53 by norm_num)] at t
    have : |l| / 2 ^ 53 < u / 2 := by
      rw [div_lt_iff₀ (by norm_num)]
      linarith
    linarith
  rw [hr, hl', ← sub_mul, abs_mul, abs_of_pos hu] at h7
  have h8 : |(k' : ℚ) - k| < 1 := by
    by_contra hc
    have := mul_le_mul_of_nonneg_right (not_lt.1 hc) hu.le
    linarith
  have h9 : |k' - k| < 1 := by exact_mod_cast h8
  have : k' = k := by
    have := abs_lt.1 h9
    omega
  rw [hr, hl', this]

/-- **C76** is false: the least subnormal number as the limit. -/
theorem C76_false : ¬ C76_claim := by
  intro h
  obtain ⟨rnd, hrnd⟩ := exists_rounding
  have hd : IsDouble ((2 : ℚ) ^ (-1074 : ℤ)) := ⟨1, -1074, by norm_num, by norm_num, by norm_num, by push_cast; ring⟩
  have hne : (2 : ℚ) ^ (-1074 : ℤ) ≠ 0 := (two_zpow_pos _).ne'
  obtain ⟨r, h1, h2⟩ := h rnd hrnd 0xFFFFFFFF 0x1FFFFF _ hd hne
  rw [C76_subnormal rnd hrnd _ hd hne ?_] at h1
  · cases h1
    exact lt_irrefl _ h2
  · rw [abs_of_pos (two_zpow_pos _)]
    exact zpow_lt_zpow_right₀ (by norm_num) (by norm_num)

/-- A limit to which `C76_partial` applies. -/
example : IsDouble (-5 / 2) ∧ (2 : ℚ) ^ (-1022 : ℤ) < |-5 / 2| := by
  refine ⟨⟨-5, -1, by norm_num, by norm_num, by norm_num, by norm_num⟩, ?_⟩
  refine lt_trans (zpow_lt_one_of_neg₀ (by norm_num) (by norm_num)) ?_
  rw [abs_of_neg (by norm_num)]
  norm_num

end Asteria.Random
