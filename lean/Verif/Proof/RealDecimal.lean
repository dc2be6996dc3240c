import Verif.Proof.RealCast

/-!
# `do_frexp10_17` gives a decimal number that is between the bounds of a `double`
-/

namespace Asteria.RealText

theorem ten_zpow_pos (e : ℤ) : (0 : ℚ) < (10 : ℚ) ^ e := zpow_pos (by norm_num) e

/-! ### Order of values -/

theorem value_succ (b : Nat) : value b ≤ value (b + 1) := by
  unfold value
  by_cases h : b + 1 < 2 ^ 52
  · have e1 : ulpExp b = -1074 := by unfold ulpExp; omega
    have e2 : ulpExp (b + 1) = -1074 := by unfold ulpExp; omega
    rw [e1, e2]
    apply mul_le_mul_of_nonneg_right _ (two_zpow_pos _).le
    have : sig b ≤ sig (b + 1) := by unfold sig; rw [if_pos (by omega), if_pos h]; omega
    exact_mod_cast this
  · by_cases hc : (b + 1) % 2 ^ 52 = 0
    · by_cases h1 : b + 1 = 2 ^ 52
      · have e1 : ulpExp b = -1074 := by unfold ulpExp; omega
        have e2 : ulpExp (b + 1) = -1074 := by unfold ulpExp; omega
        rw [e1, e2]
        apply mul_le_mul_of_nonneg_right _ (two_zpow_pos _).le
        have : sig b ≤ sig (b + 1) := by unfold sig; rw [if_pos (by omega), if_neg (by omega)]; omega
        exact_mod_cast this
      · have e1 : ulpExp (b + 1) = ulpExp b + (1 : Nat) := by unfold ulpExp; push_cast; omega
        rw [e1]
        apply (scaled_le 1 rfl).2
        have : sig b < 2 ^ 53 := sig_lt b
        have : sig (b + 1) = 2 ^ 52 := by unfold sig; rw [if_neg h, hc, Nat.add_zero]
        omega
    · have e1 : ulpExp (b + 1) = ulpExp b := by unfold ulpExp; omega
      rw [e1]
      apply mul_le_mul_of_nonneg_right _ (two_zpow_pos _).le
      have : sig b ≤ sig (b + 1) := by unfold sig; rw [if_neg (by omega), if_neg h]; omega
      exact_mod_cast this

theorem value_mono : Monotone value := monotone_nat_of_le_succ value_succ

/-! ### The table -/

/-- An entry of the table: the least pattern whose value is not less than the power of ten (the first entry has none), and the least
mantissa that is not less than the multiplier (or greater than that by one). -/
def putEntryOk (e : ℤ) (m : PutEntry) : Bool :=
  let num := 10 ^ (17 - e).toNat * 2 ^ (64 - m.exp2).toNat
  let den := 10 ^ (-(17 - e)).toNat * 2 ^ (-(64 - m.exp2)).toNat
  decide (2 ^ 63 ≤ m.mant ∧ m.mant < 2 ^ 64 ∧ num ≤ m.mant * den ∧ (m.mant - 1) * den ≤ num) &&
    (decide (e = -324) ||
      decide (0 < m.bound ∧
        10 ^ e.toNat * 2 ^ (-ulpExp m.bound).toNat ≤ sig m.bound * 2 ^ (ulpExp m.bound).toNat * 10 ^ (-e).toNat ∧
        sig (m.bound - 1) * 2 ^ (ulpExp (m.bound - 1)).toNat * 10 ^ (-e).toNat <
          10 ^ e.toNat * 2 ^ (-ulpExp (m.bound - 1)).toNat))

def checkPut : ℤ → List PutEntry → Bool
  | _, [] => true
  | e, m :: l => putEntryOk e m && checkPut (e + 1) l

theorem checkPut_all : checkPut (-324) putTable = true := by decide +kernel

theorem putTable_length : putTable.length = 633 := by decide +kernel

theorem checkPut_get : ∀ (l : List PutEntry) (e : ℤ), checkPut e l = true → ∀ (i : Nat) (m : PutEntry), l[i]? = some m →
    putEntryOk (e + i) m = true := by
  intro l
  induction l with
  | nil => intro e _ i m h; simp at h
  | cons a l ih =>
    intro e hc i m h
    rw [checkPut, Bool.and_eq_true] at hc
    cases i with
    | zero =>
      simp only [List.getElem?_cons_zero, Option.some.injEq] at h
      subst h
      simpa using hc.1
    | succ i =>
      simp only [List.getElem?_cons_succ] at h
      have := ih (e + 1) hc.2 i m h
      rw [show e + 1 + (i : ℤ) = e + ((i + 1 : Nat) : ℤ) by push_cast; ring] at this
      exact this

theorem le_value {e : ℤ} {b : Nat}
    (h : 10 ^ e.toNat * 2 ^ (-ulpExp b).toNat ≤ sig b * 2 ^ (ulpExp b).toNat * 10 ^ (-e).toNat) : (10 : ℚ) ^ e ≤ value b := by
  unfold value
  rw [zpow_split 10 (by norm_num), zpow_split 2 (by norm_num), ← mul_div_assoc, div_le_div_iff₀ (by positivity) (by positivity)]
  exact_mod_cast h

theorem value_lt {e : ℤ} {b : Nat}
    (h : sig b * 2 ^ (ulpExp b).toNat * 10 ^ (-e).toNat < 10 ^ e.toNat * 2 ^ (-ulpExp b).toNat) : value b < (10 : ℚ) ^ e := by
  unfold value
  rw [zpow_split 10 (by norm_num), zpow_split 2 (by norm_num), ← mul_div_assoc, div_lt_div_iff₀ (by positivity) (by positivity)]
  exact_mod_cast h

theorem putTable_spec (i : Nat) (h : i < 633) : ∃ m, putTable[i]? = some m ∧ 2 ^ 63 ≤ m.mant ∧ m.mant < 2 ^ 64 ∧
    (10 : ℚ) ^ (17 - ((i : ℤ) - 324)) * (2 : ℚ) ^ (64 - m.exp2) ≤ m.mant ∧
    (m.mant : ℚ) - 1 ≤ (10 : ℚ) ^ (17 - ((i : ℤ) - 324)) * (2 : ℚ) ^ (64 - m.exp2) ∧
    (1 ≤ i → ∀ b, (b < m.bound → value b < (10 : ℚ) ^ ((i : ℤ) - 324)) ∧ (m.bound ≤ b → (10 : ℚ) ^ ((i : ℤ) - 324) ≤ value b)) := by
  have hl : i < putTable.length := by rw [putTable_length]; exact h
  refine ⟨putTable[i], List.getElem?_eq_getElem hl, ?_⟩
  generalize hm : putTable[i] = m
  have := checkPut_get putTable (-324) checkPut_all _ m (by rw [List.getElem?_eq_getElem hl, hm])
  rw [show (-324 + (i : ℤ)) = (i : ℤ) - 324 by ring] at this
  generalize he : (i : ℤ) - 324 = e at *
  unfold putEntryOk at this
  simp only [Bool.and_eq_true, Bool.or_eq_true, decide_eq_true_eq] at this
  obtain ⟨⟨a, b, c, d⟩, f⟩ := this
  refine ⟨a, b, ?_, ?_, ?_⟩
  · rw [zpow_split 10 (by norm_num), zpow_split 2 (by norm_num), div_mul_div_comm]
    rw [div_le_iff₀ (by positivity)]
    exact_mod_cast c
  · rw [zpow_split 10 (by norm_num), zpow_split 2 (by norm_num), div_mul_div_comm]
    rw [le_div_iff₀ (by positivity)]
    have : ((m.mant - 1 : Nat) : ℚ) = (m.mant : ℚ) - 1 := by
      rw [Nat.cast_sub (by omega)]
      norm_num
    rw [← this]
    exact_mod_cast d
  · intro h1 x
    rcases f with f | ⟨f1, f2, f3⟩
    · omega
    · constructor
      · intro hx
        exact lt_of_le_of_lt (value_mono (by omega)) (value_lt f3)
      · intro hx
        exact le_trans (le_value f2) (value_mono hx)

/-! ### The search -/

theorem search_spec (bits : Nat) : ∀ (fuel mlo mhi : Nat), mhi - mlo ≤ fuel → 1 ≤ mlo → mlo ≤ mhi → mhi ≤ 633 →
    (10 : ℚ) ^ ((mlo : ℤ) - 325) ≤ value bits → value bits < (10 : ℚ) ^ ((mhi : ℤ) - 324) →
    ∃ m : Nat, search bits fuel mlo mhi = .ok m ∧ 1 ≤ m ∧ m ≤ 633 ∧ (10 : ℚ) ^ ((m : ℤ) - 325) ≤ value bits ∧
      value bits < (10 : ℚ) ^ ((m : ℤ) - 324) := by
  intro fuel
  induction fuel with
  | zero =>
    intro mlo mhi hf h1 h2 h3 h4 h5
    have : mlo = mhi := by omega
    subst this
    exact ⟨mlo, by rw [search, if_pos rfl], h1, h3, h4, h5⟩
  | succ fuel ih =>
    intro mlo mhi hf h1 h2 h3 h4 h5
    rw [search]
    by_cases he : mlo = mhi
    · subst he
      exact ⟨mlo, by rw [if_pos rfl], h1, h3, h4, h5⟩
    · rw [if_neg he]
      simp only
      rw [Nat.mod_eq_of_lt (show mlo + mhi < 2 ^ 32 by omega)]
      generalize hmid : (mlo + mhi) / 2 = mid
      obtain ⟨m, hm, _, _, _, _, hb⟩ := putTable_spec mid (by omega)
      rw [hm]
      simp only
      by_cases hlt : bits < m.bound
      · rw [if_pos hlt]
        exact ih mlo mid (by omega) h1 (by omega) (by omega) h4 ((hb (by omega) bits).1 hlt)
      · rw [if_neg hlt]
        refine ih (mid + 1) mhi (by omega) (by omega) (by omega) h3 ?_ h5
        have := (hb (by omega) bits).2 (by omega)
        rw [show ((mid + 1 : Nat) : ℤ) - 325 = (mid : ℤ) - 324 by push_cast; ring]
        exact this

/-- The ends of the range that is searched. -/
theorem bracket : ∀ k < 2098, 10 ^ (k * 0x134413 / 0x400000) * 2 ^ 1074 ≤ 2 ^ k * 10 ^ 324 ∧
    2 ^ k * 10 ^ ((2097 - k) * 0x134413 / 0x400000) ≤ 10 ^ 309 * 2 ^ 1073 := by
  decide +kernel

end Asteria.RealText
