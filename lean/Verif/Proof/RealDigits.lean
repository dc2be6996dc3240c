import Verif.Model.RealText
import Mathlib.Tactic.Linarith
import Mathlib.Tactic.Ring
import Mathlib.Tactic.NormNum

/-! Removal of trailing digits from a decimal number in a range. -/

namespace Asteria.RealText

/-! ### Removal of trailing digits -/

/-- What is known when digits are being removed: the number is in the range, a multiple of a power of ten, and has at least
18 digits; it has been rounded to a multiple of ten, or is the original one. -/
structure Inv (mn mx c : Nat) (r : Rounded) : Prop where
  lo : mn ≤ r.bits
  hi : r.bits ≤ mx
  prod : r.bits = r.digits * r.mult
  pos : 0 < r.mult
  same : r.bits = c ∨ 10 ∣ r.bits

theorem removeDigits_eq (mn mx : Nat) (h1 : mn ≤ mx) (h2 : mx < 2 ^ 61) (r : Rounded) (div : Nat)
    (hd : 0 < div) (hdiv : r.mult * div ≤ 10 ^ 17) (hb : r.digits * r.mult < 2 ^ 61) (hm : 0 < r.mult) :
    removeDigits mn (mx - mn) r div =
      let nb := (r.digits + div / 2) / div * (r.mult * div)
      if mn ≤ nb ∧ nb ≤ mx then ⟨nb, (r.digits + div / 2) / div, r.mult * div⟩ else r := by
  have hdl : div ≤ 10 ^ 17 := le_trans (Nat.le_mul_of_pos_left div hm) hdiv
  have hr : r.digits ≤ r.digits * r.mult := Nat.le_mul_of_pos_right _ hm
  unfold removeDigits
  simp only
  rw [Nat.mod_eq_of_lt (show r.digits + div / 2 < 2 ^ 64 by omega), Nat.mod_eq_of_lt (show r.mult * div < 2 ^ 64 by omega)]
  have hn : (r.digits + div / 2) / div * (r.mult * div) ≤ r.digits * r.mult + 10 ^ 17 := by
    have a : (r.digits + div / 2) / div * div ≤ r.digits + div / 2 := Nat.div_mul_le_self _ _
    have b : (r.digits + div / 2) / div * div * r.mult ≤ (r.digits + div / 2) * r.mult := Nat.mul_le_mul_right _ a
    have e : (r.digits + div / 2) / div * (r.mult * div) = (r.digits + div / 2) / div * div * r.mult := by ring
    have f : (r.digits + div / 2) * r.mult = r.digits * r.mult + div / 2 * r.mult := by ring
    have g : div / 2 * r.mult ≤ r.mult * div := by rw [Nat.mul_comm]; exact Nat.mul_le_mul_left _ (Nat.div_le_self _ _)
    omega
  generalize (r.digits + div / 2) / div * (r.mult * div) = nb at *
  rw [Nat.mod_eq_of_lt (show nb < 2 ^ 64 by omega)]
  by_cases h : mn ≤ nb ∧ nb ≤ mx
  · rw [if_pos h, if_pos (by omega)]
  · rw [if_neg h, if_neg (by omega)]

theorem removeDigits_inv (mn mx c : Nat) (h1 : mn ≤ mx) (h2 : mx < 2 ^ 61) (r : Rounded) (w : Nat)
    (hr : Inv mn mx c r) (hw : r.mult * (10 * w) ∣ 10 ^ 17) : Inv mn mx c (removeDigits mn (mx - mn) r (10 * w)) ∧
      (removeDigits mn (mx - mn) r (10 * w)).mult ∣ r.mult * (10 * w) ∧
      (10 ^ 17 ≤ r.bits → 10 ^ 17 ≤ (removeDigits mn (mx - mn) r (10 * w)).bits) := by
  have hle : r.mult * (10 * w) ≤ 10 ^ 17 := Nat.le_of_dvd (by norm_num) hw
  have hpos : 0 < r.mult * (10 * w) := Nat.pos_of_dvd_of_pos hw (by norm_num)
  have hd : 0 < 10 * w := Nat.pos_of_ne_zero (by intro h; rw [h, Nat.mul_zero] at hpos; omega)
  rw [removeDigits_eq mn mx h1 h2 r (10 * w) hd hle (by rw [← hr.prod]; have := hr.hi; omega) hr.pos]
  simp only
  by_cases h : mn ≤ (r.digits + 10 * w / 2) / (10 * w) * (r.mult * (10 * w)) ∧
      (r.digits + 10 * w / 2) / (10 * w) * (r.mult * (10 * w)) ≤ mx
  · rw [if_pos h]
    refine ⟨⟨h.1, h.2, rfl, hpos, .inr ?_⟩, Nat.dvd_refl _, ?_⟩
    · exact ⟨(r.digits + 10 * w / 2) / (10 * w) * (r.mult * w), by ring⟩
    · intro hb
      obtain ⟨z, hz⟩ := hw
      have e1 : 10 ^ 17 = z * (r.mult * (10 * w)) := by rw [hz]; ring
      have e2 : z * (10 * w) ≤ r.digits := by
        rw [hr.prod, e1] at hb
        have : z * (10 * w) * r.mult ≤ r.digits * r.mult := by
          calc z * (10 * w) * r.mult = z * (r.mult * (10 * w)) := by ring
            _ ≤ _ := hb
        exact Nat.le_of_mul_le_mul_right this hr.pos
      have e3 : z ≤ (r.digits + 10 * w / 2) / (10 * w) := (Nat.le_div_iff_mul_le hd).2 (by omega)
      show 10 ^ 17 ≤ (r.digits + 10 * w / 2) / (10 * w) * (r.mult * (10 * w))
      rw [e1]
      exact Nat.mul_le_mul_right _ e3
  · rw [if_neg h]
    exact ⟨hr, Nat.dvd_mul_right _ _, id⟩

theorem foldl_five {α β : Type} (f : α → β → α) (a : α) (x1 x2 x3 x4 x5 : β) :
    [x1, x2, x3, x4, x5].foldl f a = f (f (f (f (f a x1) x2) x3) x4) x5 := rfl

theorem removeDigits_inv' (mn mx c : Nat) (h1 : mn ≤ mx) (h2 : mx < 2 ^ 61) (r : Rounded) (d : Nat) (hd : 10 ∣ d)
    (hr : Inv mn mx c r) (hw : r.mult * d ∣ 10 ^ 17) : Inv mn mx c (removeDigits mn (mx - mn) r d) ∧
      (removeDigits mn (mx - mn) r d).mult ∣ r.mult * d ∧
      (10 ^ 17 ≤ r.bits → 10 ^ 17 ≤ (removeDigits mn (mx - mn) r d).bits) := by
  obtain ⟨w, rfl⟩ := hd
  exact removeDigits_inv mn mx c h1 h2 r w hr hw

theorem rounded_spec (mn mx : Nat) (h1 : mn ≤ mx) (h2 : mx < 2 ^ 61) (h3 : 10 ^ 17 - 1 ≤ mn + (mx - mn) / 2) (h4 : 10 ^ 17 ≤ mx) :
    ∀ r, [100000000, 10000, 100, 100, 10].foldl (removeDigits mn (mx - mn))
        ⟨mn + (mx - mn) / 2, mn + (mx - mn) / 2, 1⟩ = r → Inv mn mx (mn + (mx - mn) / 2) r ∧ 10 ^ 17 ≤ r.bits := by
  intro r hr
  rw [foldl_five] at hr
  subst hr
  have hc1 : mn ≤ mn + (mx - mn) / 2 := by omega
  have hc2 : mn + (mx - mn) / 2 ≤ mx := by omega
  generalize mn + (mx - mn) / 2 = c at *
  have i0 : Inv mn mx c ⟨c, c, 1⟩ := ⟨hc1, hc2, by simp, by norm_num, .inl rfl⟩
  obtain ⟨i1, d1, b1⟩ := removeDigits_inv' mn mx c h1 h2 ⟨c, c, 1⟩ 100000000 (by norm_num) i0 (by norm_num)
  have b1 : 10 ^ 17 ≤ (removeDigits mn (mx - mn) ⟨c, c, 1⟩ 100000000).bits := by
    rcases Nat.lt_or_ge c (10 ^ 17) with hc | hc
    · have : c = 10 ^ 17 - 1 := by omega
      rw [removeDigits_eq mn mx h1 h2 ⟨c, c, 1⟩ 100000000 (by norm_num) (by norm_num) (by show c * 1 < _; omega) (by norm_num)]
      subst this
      simp only
      rw [if_pos ⟨by norm_num; omega, by norm_num; omega⟩]
      show 10 ^ 17 ≤ (10 ^ 17 - 1 + 100000000 / 2) / 100000000 * (1 * 100000000)
      norm_num
    · exact b1 hc
  generalize hr1 : removeDigits mn (mx - mn) ⟨c, c, 1⟩ 100000000 = r1 at *
  have s1 : r1.mult ∣ 10 ^ 8 := by
    have e : (10 : Nat) ^ 8 = 1 * 100000000 := by norm_num
    rw [e]
    exact d1
  obtain ⟨i2, d2, b2⟩ := removeDigits_inv' mn mx c h1 h2 r1 10000 (by norm_num) i1
    (Nat.dvd_trans (Nat.mul_dvd_mul_right s1 _) (by norm_num))
  have s2 : (removeDigits mn (mx - mn) r1 10000).mult ∣ 10 ^ 12 := by
    have e : (10 : Nat) ^ 12 = 10 ^ 8 * 10000 := by norm_num
    rw [e]
    exact Nat.dvd_trans d2 (Nat.mul_dvd_mul_right s1 _)
  have b2 := b2 b1
  generalize hr2 : removeDigits mn (mx - mn) r1 10000 = r2 at *
  obtain ⟨i3, d3, b3⟩ := removeDigits_inv' mn mx c h1 h2 r2 100 (by norm_num) i2
    (Nat.dvd_trans (Nat.mul_dvd_mul_right s2 _) (by norm_num))
  have s3 : (removeDigits mn (mx - mn) r2 100).mult ∣ 10 ^ 14 := by
    have e : (10 : Nat) ^ 14 = 10 ^ 12 * 100 := by norm_num
    rw [e]
    exact Nat.dvd_trans d3 (Nat.mul_dvd_mul_right s2 _)
  have b3 := b3 b2
  generalize hr3 : removeDigits mn (mx - mn) r2 100 = r3 at *
  obtain ⟨i4, d4, b4⟩ := removeDigits_inv' mn mx c h1 h2 r3 100 (by norm_num) i3
    (Nat.dvd_trans (Nat.mul_dvd_mul_right s3 _) (by norm_num))
  have s4 : (removeDigits mn (mx - mn) r3 100).mult ∣ 10 ^ 16 := by
    have e : (10 : Nat) ^ 16 = 10 ^ 14 * 100 := by norm_num
    rw [e]
    exact Nat.dvd_trans d4 (Nat.mul_dvd_mul_right s3 _)
  have b4 := b4 b3
  generalize hr4 : removeDigits mn (mx - mn) r3 100 = r4 at *
  obtain ⟨i5, d5, b5⟩ := removeDigits_inv' mn mx c h1 h2 r4 10 (by norm_num) i4
    (Nat.dvd_trans (Nat.mul_dvd_mul_right s4 _) (by norm_num))
  have b5 := b5 b4
  exact ⟨i5, b5⟩

end Asteria.RealText
