import Verif.Proof.RealDecimal
import Verif.Proof.RealDigits
import Mathlib.Tactic.LinearCombination

/-! The decimal digits that are printed are those of a number between the midpoints to the neighbours. -/

namespace Asteria.RealText

/-! ### The decimal number -/

theorem mul_wrap (x : ℤ) (n : Nat) (hx : x = n) (hn : n < 2098) : (x * 0x134413 % 2 ^ 32).toNat = n * 0x134413 := by
  subst hx
  omega

theorem quot_le (k : Nat) (hk : k < 2098) : k * 0x134413 / 0x400000 ≤ 632 ∧ (2097 - k) * 0x134413 / 0x400000 ≤ 632 ∧
    k * 0x134413 / 0x400000 + (2097 - k) * 0x134413 / 0x400000 ≤ 632 := by omega

theorem search_start' (b k u w : Nat) (v1 : (2 : ℚ) ^ ((k : ℤ) - 1074) ≤ value b)
    (v2 : value b < (2 : ℚ) ^ ((k : ℤ) - 1073)) (q3 : u + w ≤ 632) :
    (10 ^ u * 2 ^ 1074 ≤ 2 ^ k * 10 ^ 324 ∧ 2 ^ k * 10 ^ w ≤ 10 ^ 309 * 2 ^ 1073) →
    ∃ m, search b 633 (1 + u) ((633 + 2 ^ 32 - w) % 2 ^ 32) = .ok m ∧
      1 ≤ m ∧ m ≤ 633 ∧ (10 : ℚ) ^ ((m : ℤ) - 325) ≤ value b ∧ value b < (10 : ℚ) ^ ((m : ℤ) - 324) := by
  rw [show (633 + 2 ^ 32 - w) % 2 ^ 32 = 633 - w by omega]
  have o1 : 633 - w - (1 + u) ≤ 633 := by omega
  have o2 : 1 ≤ 1 + u := by omega
  have o3 : 1 + u ≤ 633 - w := by omega
  have o4 : 633 - w ≤ 633 := by omega
  have o5 : ((633 - w : Nat) : ℤ) - 324 = ((309 : Nat) : ℤ) - (w : ℤ) := by omega
  intro br
  refine search_spec b 633 (1 + u) (633 - w) o1 o2 o3 o4 (le_trans ?_ v1) (lt_of_lt_of_le v2 ?_)
  · rw [show ((1 + u : Nat) : ℤ) - 325 = (u : ℤ) - ((324 : Nat) : ℤ) by push_cast; ring,
      show (k : ℤ) - 1074 = (k : ℤ) - ((1074 : Nat) : ℤ) by push_cast; ring,
      zpow_sub₀ (by norm_num), zpow_sub₀ (by norm_num), zpow_natCast, zpow_natCast, zpow_natCast, zpow_natCast,
      div_le_div_iff₀ (by positivity) (by positivity)]
    exact_mod_cast br.1
  · rw [o5, show (k : ℤ) - 1073 = (k : ℤ) - ((1073 : Nat) : ℤ) by push_cast; ring,
      zpow_sub₀ (by norm_num), zpow_sub₀ (by norm_num), zpow_natCast, zpow_natCast, zpow_natCast, zpow_natCast,
      div_le_div_iff₀ (by positivity) (by positivity)]
    exact_mod_cast br.2

theorem search_start (b k : Nat) (hk : k < 2098) (v1 : (2 : ℚ) ^ ((k : ℤ) - 1074) ≤ value b)
    (v2 : value b < (2 : ℚ) ^ ((k : ℤ) - 1073)) :
    ∃ m, search b 633 (1 + k * 0x134413 / 0x400000) ((633 + 2 ^ 32 - (2097 - k) * 0x134413 / 0x400000) % 2 ^ 32) = .ok m ∧
      1 ≤ m ∧ m ≤ 633 ∧ (10 : ℚ) ^ ((m : ℤ) - 325) ≤ value b ∧ value b < (10 : ℚ) ^ ((m : ℤ) - 324) :=
  search_start' b k _ _ v1 v2 (quot_le k hk).2.2 (bracket k hk)

theorem decimal_spec (b : Nat) (exp : ℤ) (mant : Nat) (he1 : -51 ≤ exp) (he2 : exp ≤ 2046) (hm : mant < 2 ^ 52)
    (hv : value b = ((2 ^ 52 + mant : Nat) : ℚ) * (2 : ℚ) ^ (exp - 1075)) : ∃ D x, decimal b exp mant = .ok (D, x) ∧
      10 ^ 17 ≤ D ∧ D < 10 ^ 18 ∧ -341 ≤ x ∧ x ≤ 292 ∧
      ((2 * (2 ^ 52 + mant) - 1 : Nat) : ℚ) * (2 : ℚ) ^ (exp - 1076) ≤ D * (10 : ℚ) ^ x ∧
      (D : ℚ) * (10 : ℚ) ^ x ≤ ((2 * (2 ^ 52 + mant) + 1 : Nat) : ℚ) * (2 : ℚ) ^ (exp - 1076) := by
  obtain ⟨k, hk⟩ : ∃ k : Nat, k = (51 + exp).toNat := ⟨_, rfl⟩
  have hk2 : k < 2098 := by omega
  have hexp : exp = (k : ℤ) - 51 := by omega
  unfold decimal
  simp only
  have m1 : ((51 + exp) * 0x134413 % 2 ^ 32).toNat = k * 0x134413 := mul_wrap _ _ (by omega) hk2
  have m2 : ((2046 - exp) * 0x134413 % 2 ^ 32).toNat = (2097 - k) * 0x134413 := mul_wrap _ _ (by omega) (by omega)
  rw [m1, m2]
  have hA1 : (2 : ℚ) ^ 52 ≤ ((2 ^ 52 + mant : Nat) : ℚ) := by push_cast; linarith [show (0 : ℚ) ≤ mant from Nat.cast_nonneg _]
  have hA2 : ((2 ^ 52 + mant : Nat) : ℚ) ≤ 2 ^ 53 - 1 := by
    have : 2 ^ 52 + mant + 1 ≤ 2 ^ 53 := by omega
    have : ((2 ^ 52 + mant + 1 : Nat) : ℚ) ≤ ((2 ^ 53 : Nat) : ℚ) := by exact_mod_cast this
    push_cast at this ⊢
    linarith
  have v1 : (2 : ℚ) ^ (exp - 1023) ≤ value b := by
    rw [hv, show exp - 1023 = exp - 1075 + (52 : Nat) by push_cast; ring, two_zpow_add]
    exact mul_le_mul_of_nonneg_right hA1 (two_zpow_pos _).le
  have v2 : value b < (2 : ℚ) ^ (exp - 1022) := by
    rw [hv, show exp - 1022 = exp - 1075 + (53 : Nat) by push_cast; ring, two_zpow_add]
    exact mul_lt_mul_of_pos_right (by linarith) (two_zpow_pos _)
  obtain ⟨m, hs, hm1, hm2, hlo, hhi⟩ := search_start b k hk2 (by rw [show (k : ℤ) - 1074 = exp - 1023 by omega]; exact v1)
    (by rw [show (k : ℤ) - 1073 = exp - 1022 by omega]; exact v2)
  rw [hs]
  simp only [Res.bind]
  obtain ⟨e, hme, g1, g2, g3, g4, _⟩ := putTable_spec (m - 1) (by omega)
  rw [hme]
  simp only
  rw [show ((m - 1 : Nat) : ℤ) - 324 = (m : ℤ) - 325 by omega] at g3 g4
  -- the exact product
  have hX : value b * (10 : ℚ) ^ (17 - ((m : ℤ) - 325)) = ((2 ^ 52 + mant : Nat) : ℚ) * (2 : ℚ) ^ (exp + e.exp2 - 1075) *
      ((10 : ℚ) ^ (17 - ((m : ℤ) - 325)) * (2 : ℚ) ^ (64 - e.exp2)) / 2 ^ 64 := by
    rw [hv, eq_div_iff (by norm_num)]
    have : (2 : ℚ) ^ (exp - 1075) * 2 ^ 64 = (2 : ℚ) ^ (exp + e.exp2 - 1075) * (2 : ℚ) ^ (64 - e.exp2) := by
      rw [← zpow_add₀ (by norm_num), ← zpow_natCast, ← zpow_add₀ (by norm_num)]
      congr 1
      push_cast
      ring
    linear_combination ((2 ^ 52 + mant : Nat) : ℚ) * (10 : ℚ) ^ (17 - ((m : ℤ) - 325)) * this
  have x1 : (10 : ℚ) ^ 17 ≤ value b * (10 : ℚ) ^ (17 - ((m : ℤ) - 325)) := by
    have := mul_le_mul_of_nonneg_right hlo (ten_zpow_pos (17 - ((m : ℤ) - 325))).le
    rw [← zpow_add₀ (by norm_num), show (m : ℤ) - 325 + (17 - ((m : ℤ) - 325)) = ((17 : Nat) : ℤ) by push_cast; ring, zpow_natCast] at this
    exact this
  have x2 : value b * (10 : ℚ) ^ (17 - ((m : ℤ) - 325)) < (10 : ℚ) ^ 18 := by
    have := mul_lt_mul_of_pos_right hhi (ten_zpow_pos (17 - ((m : ℤ) - 325)))
    rw [← zpow_add₀ (by norm_num), show (m : ℤ) - 324 + (17 - ((m : ℤ) - 325)) = ((18 : Nat) : ℤ) by push_cast; ring, zpow_natCast] at this
    exact this
  rw [hX] at x1 x2
  have hM1 : (2 : ℚ) ^ 63 ≤ e.mant := by exact_mod_cast g1
  have hM2 : (e.mant : ℚ) < 2 ^ 64 := by exact_mod_cast g2
  have hD : ∀ n : ℚ, n * (10 : ℚ) ^ ((m : ℤ) - 325 - 17) * ((10 : ℚ) ^ (17 - ((m : ℤ) - 325)) * (2 : ℚ) ^ (64 - e.exp2)) =
      n * (2 : ℚ) ^ (64 - e.exp2) := by
    intro n
    have : (10 : ℚ) ^ ((m : ℤ) - 325 - 17) * (10 : ℚ) ^ (17 - ((m : ℤ) - 325)) = 1 := by
      rw [← zpow_add₀ (by norm_num), show (m : ℤ) - 325 - 17 + (17 - ((m : ℤ) - 325)) = 0 by ring, zpow_zero]
    linear_combination n * (2 : ℚ) ^ (64 - e.exp2) * this
  have hYpos : (0 : ℚ) < (10 : ℚ) ^ (17 - ((m : ℤ) - 325)) * (2 : ℚ) ^ (64 - e.exp2) := mul_pos (ten_zpow_pos _) (two_zpow_pos _)
  generalize (10 : ℚ) ^ (17 - ((m : ℤ) - 325)) * (2 : ℚ) ^ (64 - e.exp2) = Y at *
  -- the shift count
  have s1 : 4 ≤ exp + e.exp2 - 1075 := by
    by_contra hc
    have : (2 : ℚ) ^ (exp + e.exp2 - 1075) ≤ 2 ^ ((3 : Nat) : ℤ) := zpow_le_zpow_right₀ (by norm_num) (by push_cast; omega)
    rw [zpow_natCast] at this
    have a : ((2 ^ 52 + mant : Nat) : ℚ) * (2 : ℚ) ^ (exp + e.exp2 - 1075) * Y ≤ 2 ^ 53 * 2 ^ 3 * 2 ^ 64 :=
      mul_le_mul (mul_le_mul (by linarith) this (two_zpow_pos _).le (by norm_num)) (by linarith) hYpos.le (by norm_num)
    rw [le_div_iff₀ (by norm_num)] at x1
    norm_num at a x1
    linarith
  have s2 : exp + e.exp2 - 1075 ≤ 8 := by
    by_contra hc
    have : (2 : ℚ) ^ ((9 : Nat) : ℤ) ≤ (2 : ℚ) ^ (exp + e.exp2 - 1075) := zpow_le_zpow_right₀ (by norm_num) (by push_cast; omega)
    rw [zpow_natCast] at this
    have a : 2 ^ 52 * 2 ^ 9 * (2 ^ 63 - 1) ≤ ((2 ^ 52 + mant : Nat) : ℚ) * (2 : ℚ) ^ (exp + e.exp2 - 1075) * Y :=
      mul_le_mul (mul_le_mul hA1 this (by norm_num) (by linarith)) (by linarith) (by norm_num)
        (mul_nonneg (by linarith) (two_zpow_pos _).le)
    rw [div_lt_iff₀ (by norm_num)] at x2
    norm_num at a x2
    linarith
  obtain ⟨s, hsx⟩ : ∃ s : Nat, exp + e.exp2 - 1075 = ((s + 1 : Nat) : ℤ) := ⟨(exp + e.exp2 - 1075).toNat - 1, by omega⟩
  rw [hsx] at x1 x2 ⊢
  rw [if_neg (by omega), Int.toNat_natCast, Nat.add_sub_cancel]
  rw [zpow_natCast] at x1 x2
  have hs3 : 3 ≤ s := by omega
  have hs7 : s ≤ 7 := by omega
  have p1 : 2 ^ 3 ≤ 2 ^ s := Nat.pow_le_pow_right (by norm_num) hs3
  have p2 : 2 ^ s ≤ 2 ^ 7 := Nat.pow_le_pow_right (by norm_num) hs7
  -- all in natural numbers
  obtain ⟨h, hh⟩ : ∃ h : Nat, h = 2 ^ s := ⟨_, rfl⟩
  obtain ⟨B, hB⟩ : ∃ B : Nat, B = (2 ^ 52 + mant) * 2 ^ (s + 1) := ⟨_, rfl⟩
  have hBc : ((2 ^ 52 + mant : Nat) : ℚ) * 2 ^ (s + 1) = (B : ℚ) := by rw [hB]; push_cast; ring
  have hB61 : B < 2 ^ 61 := by
    have : (2 ^ 52 + mant) * 2 ^ (s + 1) < 2 ^ 53 * 2 ^ 8 := by
      apply Nat.mul_lt_mul_of_lt_of_le (by omega) (by rw [pow_succ]; omega) (by norm_num)
    omega
  have hBh : h ≤ B := by
    rw [hB, hh]
    calc 2 ^ s = 1 * 2 ^ s := (Nat.one_mul _).symm
      _ ≤ _ := Nat.mul_le_mul (by omega) (Nat.pow_le_pow_right (by norm_num) (by omega))
  rw [hBc] at x1 x2
  rw [← hB, ← hh, Nat.mod_eq_of_lt (show B < 2 ^ 64 by omega)]
  rw [show (B + 2 ^ 64 - h) % 2 ^ 64 = B - h by omega, Nat.mod_eq_of_lt (show B + h < 2 ^ 64 by omega)]
  obtain ⟨U, hU⟩ : ∃ U : Nat, U = B * e.mant := ⟨_, rfl⟩
  obtain ⟨T, hT⟩ : ∃ T : Nat, T = h * e.mant := ⟨_, rfl⟩
  have eP : (B - h) * e.mant = U - T := by rw [Nat.sub_mul, hU, hT]
  have eQ : (B + h) * (e.mant - 1) = U + T - (B + h) := by
    rw [Nat.mul_sub, Nat.add_mul, hU, hT, Nat.mul_one]
  rw [eP, eQ]
  have hT1 : 2 ^ 66 ≤ T := by
    rw [hT, hh]
    calc 2 ^ 66 = 2 ^ 3 * 2 ^ 63 := by norm_num
      _ ≤ _ := Nat.mul_le_mul p1 g1
  have hT2 : T ≤ 2 ^ 71 := by
    rw [hT, hh]
    calc 2 ^ s * e.mant ≤ 2 ^ 7 * 2 ^ 64 := Nat.mul_le_mul p2 (by omega)
      _ = _ := by norm_num
  have hTU : T ≤ U := by rw [hT, hU]; exact Nat.mul_le_mul_right _ hBh
  have hBpos : (0 : ℚ) ≤ B := Nat.cast_nonneg _
  have hUc : (U : ℚ) = B * e.mant := by rw [hU]; push_cast; ring
  have hTc : (T : ℚ) = h * e.mant := by rw [hT]; push_cast; ring
  have hU1 : 10 ^ 17 * 2 ^ 64 ≤ U := by
    rw [le_div_iff₀ (by norm_num)] at x1
    have : (10 : ℚ) ^ 17 * 2 ^ 64 ≤ U := by
      rw [hUc]
      exact le_trans x1 (mul_le_mul_of_nonneg_left g3 hBpos)
    exact_mod_cast this
  have hU2 : U < 10 ^ 18 * 2 ^ 64 + 2 ^ 61 := by
    rw [div_lt_iff₀ (by norm_num)] at x2
    have : (U : ℚ) < 10 ^ 18 * 2 ^ 64 + 2 ^ 61 := by
      rw [hUc]
      have a := mul_le_mul_of_nonneg_left g4 hBpos
      have b : (B : ℚ) < 2 ^ 61 := by exact_mod_cast hB61
      linarith
    exact_mod_cast this
  have hmn : ((U - T) / 2 ^ 64 + 1) % 2 ^ 64 = (U - T) / 2 ^ 64 + 1 := by omega
  rw [hmn]
  obtain ⟨mn, hmnd⟩ : ∃ mn : Nat, mn = (U - T) / 2 ^ 64 + 1 := ⟨_, rfl⟩
  obtain ⟨mx, hmxd⟩ : ∃ mx : Nat, mx = (U + T - (B + h)) / 2 ^ 64 := ⟨_, rfl⟩
  have hle : mn ≤ mx := by omega
  have hmx61 : mx < 2 ^ 61 := by omega
  rw [← hmnd, ← hmxd, show (mx + 2 ^ 64 - mn) % 2 ^ 64 = mx - mn by omega,
    Nat.mod_eq_of_lt (show mn + (mx - mn) / 2 < 2 ^ 64 by omega)]
  have hc1 : 10 ^ 17 - 1 ≤ mn + (mx - mn) / 2 := by omega
  have hc2 : mn + (mx - mn) / 2 ≤ 10 ^ 18 := by omega
  generalize hr : [100000000, 10000, 100, 100, 10].foldl (removeDigits mn (mx - mn))
        (Rounded.mk (mn + (mx - mn) / 2) (mn + (mx - mn) / 2) 1) = r
  obtain ⟨hinv, hr17⟩ := rounded_spec mn mx hle hmx61 hc1 (by omega) r hr
  -- the bounds, exactly
  have hsc : (2 : ℚ) ^ (64 - e.exp2) * (2 : ℚ) ^ ((s + 1 : Nat) : ℤ) = (2 : ℚ) ^ (exp - 1075) * 2 ^ 64 := by
    rw [← zpow_natCast, ← zpow_add₀ (by norm_num), ← zpow_add₀ (by norm_num)]
    congr 1
    push_cast at hsx ⊢
    linarith
  have hcmp : ∀ (n q : Nat), ((n : ℚ) * h * Y ≤ q * 2 ^ 64 → (n : ℚ) * (2 : ℚ) ^ (exp - 1076) ≤ q * (10 : ℚ) ^ ((m : ℤ) - 325 - 17)) ∧
      ((q : ℚ) * 2 ^ 64 ≤ n * h * Y → (q : ℚ) * (10 : ℚ) ^ ((m : ℤ) - 325 - 17) ≤ n * (2 : ℚ) ^ (exp - 1076)) := by
    intro n q
    have z1 : (n : ℚ) * (2 : ℚ) ^ (exp - 1076) * Y * (2 : ℚ) ^ ((s + 1 : Nat) : ℤ) = n * h * Y * (2 : ℚ) ^ (exp - 1075) := by
      have : (2 : ℚ) ^ (exp - 1076) * (2 : ℚ) ^ ((s + 1 : Nat) : ℤ) = h * (2 : ℚ) ^ (exp - 1075) := by
        rw [hh, ← zpow_add₀ (by norm_num)]
        push_cast
        rw [← zpow_natCast, ← zpow_add₀ (by norm_num)]
        congr 1
        ring
      linear_combination (n : ℚ) * Y * this
    have z2 : (q : ℚ) * (10 : ℚ) ^ ((m : ℤ) - 325 - 17) * Y * (2 : ℚ) ^ ((s + 1 : Nat) : ℤ) = q * 2 ^ 64 * (2 : ℚ) ^ (exp - 1075) := by
      rw [hD]
      linear_combination (q : ℚ) * hsc
    have hp : (0 : ℚ) < Y * (2 : ℚ) ^ ((s + 1 : Nat) : ℤ) := mul_pos hYpos (two_zpow_pos _)
    constructor
    · intro hq
      apply le_of_mul_le_mul_right _ hp
      rw [← mul_assoc, ← mul_assoc, z1, z2]
      exact mul_le_mul_of_nonneg_right hq (two_zpow_pos _).le
    · intro hq
      apply le_of_mul_le_mul_right _ hp
      rw [← mul_assoc, ← mul_assoc, z1, z2]
      exact mul_le_mul_of_nonneg_right hq (two_zpow_pos _).le
  have hn1 : ((2 * (2 ^ 52 + mant) - 1 : Nat) : ℚ) * h = B - h := by
    rw [Nat.cast_sub (by omega), ← hBc, hh]
    push_cast
    ring
  have hn2 : ((2 * (2 ^ 52 + mant) + 1 : Nat) : ℚ) * h = B + h := by
    rw [← hBc, hh]
    push_cast
    ring
  have hhpos : (0 : ℚ) ≤ h := Nat.cast_nonneg _
  have hBhc : (h : ℚ) ≤ B := by exact_mod_cast hBh
  have hlow : ((2 * (2 ^ 52 + mant) - 1 : Nat) : ℚ) * (2 : ℚ) ^ (exp - 1076) ≤ r.bits * (10 : ℚ) ^ ((m : ℤ) - 325 - 17) := by
    apply (hcmp _ _).1
    rw [hn1]
    have a : U - T < r.bits * 2 ^ 64 := by have := hinv.lo; omega
    have b : ((U - T : Nat) : ℚ) < r.bits * 2 ^ 64 := by exact_mod_cast a
    rw [Nat.cast_sub hTU, hUc, hTc] at b
    have c := mul_le_mul_of_nonneg_left g3 (sub_nonneg.2 hBhc)
    linarith
  have hupp : (r.bits : ℚ) * (10 : ℚ) ^ ((m : ℤ) - 325 - 17) ≤ ((2 * (2 ^ 52 + mant) + 1 : Nat) : ℚ) * (2 : ℚ) ^ (exp - 1076) := by
    apply (hcmp _ _).2
    rw [hn2]
    have a : r.bits * 2 ^ 64 + (B + h) ≤ U + T := by have := hinv.hi; omega
    have b : (r.bits : ℚ) * 2 ^ 64 + (B + h) ≤ U + T := by exact_mod_cast a
    rw [hUc, hTc] at b
    have c := mul_le_mul_of_nonneg_left g4 (add_nonneg hBpos hhpos)
    linarith
  by_cases h18 : r.bits ≥ 1000000000000000000
  · rw [if_pos h18]
    have hdvd : 10 ∣ r.bits := by
      rcases hinv.same with hsame | hsame
      · have : r.bits = 10 ^ 18 := by omega
        rw [this]
        exact ⟨10 ^ 17, by norm_num⟩
      · exact hsame
    obtain ⟨z, hz⟩ := hdvd
    have hxx := hinv.hi
    have ez : (r.bits / 10 : Nat) = z := by omega
    have ev : ((r.bits / 10 : Nat) : ℚ) * (10 : ℚ) ^ (((m - 1 + 1 : Nat) : ℤ) - 341) = r.bits * (10 : ℚ) ^ ((m : ℤ) - 325 - 17) := by
      rw [ez, hz, show ((m - 1 + 1 : Nat) : ℤ) - 341 = (m : ℤ) - 325 - 17 + 1 by omega, zpow_add_one₀ (by norm_num)]
      push_cast
      ring
    refine ⟨_, _, rfl, by omega, by omega, by omega, by omega, ?_, ?_⟩
    · rw [ev]; exact hlow
    · rw [ev]; exact hupp
  · rw [if_neg h18]
    have ev : ((m - 1 : Nat) : ℤ) - 341 = (m : ℤ) - 325 - 17 := by omega
    refine ⟨_, _, rfl, hr17, by omega, by omega, by omega, ?_, ?_⟩
    · rw [ev]; exact hlow
    · rw [ev]; exact hupp

end Asteria.RealText
