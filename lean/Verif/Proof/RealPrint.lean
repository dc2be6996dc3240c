import Verif.Proof.RealDecimal2
import Verif.Proof.RealLayout
import Verif.Spec.RfcNumber

/-! Printing a real number and reading the text. -/

namespace Asteria.RealText

open Asteria.NumText

theorem classOf_subnormal (m : Nat) (h : 0 < m) (h2 : m < 2 ^ 52) : classOf 0 m = .subnormal := by
  unfold classOf
  rw [show (m + (2 ^ 63 - 1)) % 2 ^ 64 / 2 ^ 63 = 1 by omega]
  rfl

theorem frexp10_spec (b : Nat) (hb : 0 < b) (hb' : b < 2047 * 2 ^ 52) (sign : Bool) :
    ∃ cls D x, frexp10 ((if sign then 2 ^ 63 else 0) + b) = .ok ⟨cls, sign, x, D⟩ ∧ specialText cls = none ∧
      10 ^ 17 ≤ D ∧ D < 10 ^ 18 ∧ -341 ≤ x ∧ x ≤ 292 ∧ lower b ≤ D * (10 : ℚ) ^ x ∧ (D : ℚ) * (10 : ℚ) ^ x ≤ upper b := by
  unfold frexp10
  simp only
  have s1 : decide (((if sign then 2 ^ 63 else 0) + b) / 2 ^ 63 % 2 = 1) = sign := by cases sign <;> simp <;> omega
  have s2 : ((if sign then 2 ^ 63 else 0) + b) / 2 ^ 52 % 2 ^ 11 = b / 2 ^ 52 := by cases sign <;> simp <;> omega
  have s3 : ((if sign then 2 ^ 63 else 0) + b) % 2 ^ 52 = b % 2 ^ 52 := by cases sign <;> simp <;> omega
  have s4 : ((if sign then 2 ^ 63 else 0) + b) % 2 ^ 63 = b := by cases sign <;> simp <;> omega
  rw [s1, s2, s3, s4]
  rcases Nat.lt_or_ge b (2 ^ 52) with hs | hs
  · have e0 : b / 2 ^ 52 = 0 := by omega
    have em : b % 2 ^ 52 = b := by omega
    rw [e0, em, if_pos (.inl rfl), classOf_subnormal b hb hs, if_neg (by simp)]
    obtain ⟨l1, l2⟩ := lzcnt_spec b hb (by omega)
    have hlz : 12 ≤ lzcnt b := by
      by_contra hc
      have : b * 2 ^ lzcnt b < 2 ^ 52 * 2 ^ 11 :=
        Nat.mul_lt_mul_of_lt_of_le hs (Nat.pow_le_pow_right (by norm_num) (by omega)) (by norm_num)
      omega
    have hlz' : lzcnt b ≤ 63 := by unfold lzcnt; omega
    obtain ⟨sh, hsh⟩ : ∃ sh, lzcnt b = sh + 11 := ⟨lzcnt b - 11, by omega⟩
    rw [hsh, Nat.pow_add] at l1 l2
    rw [hsh, Nat.add_sub_cancel]
    obtain ⟨A, hA⟩ : ∃ A, A = b * 2 ^ sh := ⟨_, rfl⟩
    have a1 : 2 ^ 52 ≤ A := by rw [← Nat.mul_assoc, ← hA] at l1; omega
    have a2 : A < 2 ^ 53 := by rw [← Nat.mul_assoc, ← hA] at l2; omega
    rw [← hA]
    have eA : 2 ^ 52 + A % 2 ^ 52 = A := by omega
    have hsig : sig b = b := by unfold sig; rw [if_pos hs]
    have hulp : ulpExp b = -1074 := by unfold ulpExp; rw [e0]; norm_num
    have hpow : ∀ n : ℚ, n * (2 : ℚ) ^ sh * (2 : ℚ) ^ ((((0 : Nat) : ℤ) - ((sh : ℤ) - 1)) - 1076) = n * (2 : ℚ) ^ (-1074 - 1 : ℤ) := by
      intro n
      rw [mul_assoc, ← zpow_natCast, ← zpow_add₀ (by norm_num)]
      congr 2
      push_cast
      ring
    obtain ⟨D, x, d1, d2, d3, d4, d5, d6, d7⟩ := decimal_spec b (((0 : Nat) : ℤ) - ((sh : ℤ) - 1)) (A % 2 ^ 52) (by omega) (by omega)
      (Nat.mod_lt _ (by norm_num)) (by
        rw [eA, value, hsig, hulp, hA]
        push_cast
        rw [mul_assoc, ← zpow_natCast, ← zpow_add₀ (by norm_num)]
        congr 2
        push_cast
        ring)
    rw [d1]
    rw [eA] at d6 d7
    have hp : 1 ≤ 2 ^ sh := Nat.one_le_two_pow
    refine ⟨.subnormal, D, x, rfl, rfl, d2, d3, d4, d5, le_trans ?_ d6, le_trans d7 ?_⟩
    · rw [lower, hsig, hulp, ← hpow]
      apply mul_le_mul_of_nonneg_right _ (two_zpow_pos _).le
      have : (2 * b - 1) * 2 ^ sh ≤ 2 * A - 1 := by
        rw [Nat.sub_mul, Nat.mul_assoc, ← hA]
        omega
      exact_mod_cast this
    · rw [upper, hsig, hulp, ← hpow]
      apply mul_le_mul_of_nonneg_right _ (two_zpow_pos _).le
      have : 2 * A + 1 ≤ (2 * b + 1) * 2 ^ sh := by
        rw [Nat.add_mul, Nat.mul_assoc, ← hA]
        omega
      exact_mod_cast this
  · have e1 : 1 ≤ b / 2 ^ 52 := by omega
    have e2 : b / 2 ^ 52 ≤ 2046 := by omega
    rw [if_neg (by omega)]
    have hsig : sig b = 2 ^ 52 + b % 2 ^ 52 := by unfold sig; rw [if_neg (by omega)]
    have hulp : ulpExp b = ((b / 2 ^ 52 : Nat) : ℤ) - 1075 := by unfold ulpExp; rw [max_eq_left (by omega)]
    obtain ⟨D, x, d1, d2, d3, d4, d5, d6, d7⟩ := decimal_spec b ((b / 2 ^ 52 : Nat) : ℤ) (b % 2 ^ 52) (by omega) (by omega)
      (Nat.mod_lt _ (by norm_num)) (by rw [value, hsig, hulp])
    rw [d1]
    rw [show ((b / 2 ^ 52 : Nat) : ℤ) - 1076 = ((b / 2 ^ 52 : Nat) : ℤ) - 1075 - 1 by ring] at d6 d7
    refine ⟨.normal, D, x, rfl, rfl, d2, d3, d4, d5, ?_, ?_⟩
    · rw [lower, hsig, hulp]; exact d6
    · rw [upper, hsig, hulp]; exact d7

theorem upper_lt (b : Nat) (hb' : b < 2047 * 2 ^ 52) : upper b < (10 : ℚ) ^ (309 : ℤ) := by
  have h1 : upper b ≤ (2 : ℚ) ^ 54 * (2 : ℚ) ^ (970 : ℤ) := by
    unfold upper
    apply mul_le_mul
    · have : 2 * sig b + 1 ≤ 2 ^ 54 := by have := sig_lt b; omega
      exact_mod_cast this
    · apply zpow_le_zpow_right₀ (by norm_num)
      unfold ulpExp
      omega
    · exact (two_zpow_pos _).le
    · norm_num
  refine lt_of_le_of_lt h1 ?_
  rw [← zpow_natCast, ← zpow_add₀ (by norm_num), show ((54 : Nat) : ℤ) + 970 = ((1024 : Nat) : ℤ) by norm_num,
    show (309 : ℤ) = ((309 : Nat) : ℤ) by norm_num, zpow_natCast, zpow_natCast]
  have : 2 ^ 1024 < 10 ^ 309 := by decide +kernel
  exact_mod_cast this

/-- What is printed is a decimal number that is not farther from the real number than the midpoints, and is read as
one near it. -/
theorem putDD_near (b : Nat) (hb : 0 < b) (hb' : b < 2047 * 2 ^ 52) (sign : Bool) :
    ∃ (text : Bytes) (mant : Nat) (exp : ℤ) (r : RealCast) (p : Nat), putDD ((if sign then 2 ^ 63 else 0) + b) = .ok text ∧
      parseD text = some (⟨false, sign, 10, exp, mant, false⟩, []) ∧
      parseBase 10 text = some (⟨false, sign, 10, exp, mant, false⟩, []) ∧
      lower b ≤ mant * (10 : ℚ) ^ exp ∧ mant * (10 : ℚ) ^ exp ≤ upper b ∧
      castD ⟨false, sign, 10, exp, mant, false⟩ = .ok r ∧ r.bits = (if sign then 2 ^ 63 else 0) + p ∧ Near b p := by
  obtain ⟨cls, D, x, f1, f2, f3, f4, f5, f6, f7, f8⟩ := frexp10_spec b hb hb' sign
  obtain ⟨ds, fs, e, j, g1, g2, g3, g4, g5, g6, g7, g8, g9⟩ := layout _ cls sign x D f1 f2 f3 f4 (by omega) (by omega)
  have hne : ds ≠ [] := by
    rcases g4 with rfl | ⟨d, ds', rfl, _⟩ <;> simp
  have hpos : 0 < 10 ^ j := Nat.pow_pos (by norm_num)
  have hmant : valueOf 10 0 (ds ++ fs) ≤ D := by
    rw [← g6]; exact Nat.le_mul_of_pos_right _ hpos
  have hmant0 : 0 < valueOf 10 0 (ds ++ fs) := by
    rcases Nat.eq_zero_or_pos (valueOf 10 0 (ds ++ fs)) with h | h
    · rw [h] at g6; omega
    · exact h
  obtain ⟨p1, p2⟩ := parse_realText sign ds fs e g2 g3 hne (by omega) g9 g5
  rw [g8] at p1 p2
  have hval : (valueOf 10 0 (ds ++ fs) : ℚ) * (10 : ℚ) ^ (x + (j : ℤ)) = D * (10 : ℚ) ^ x := by
    rw [← g6, zpow_add₀ (by norm_num), zpow_natCast]
    push_cast
    ring
  have hx : x + (j : ℤ) ≤ 308 := by
    by_contra hc
    have a : (10 : ℚ) ^ (309 : ℤ) ≤ (10 : ℚ) ^ (x + (j : ℤ)) := zpow_le_zpow_right₀ (by norm_num) (by omega)
    have b1 : (1 : ℚ) * (10 : ℚ) ^ (x + (j : ℤ)) ≤ valueOf 10 0 (ds ++ fs) * (10 : ℚ) ^ (x + (j : ℤ)) :=
      mul_le_mul_of_nonneg_right (by exact_mod_cast hmant0) (ten_zpow_pos _).le
    have := upper_lt b hb'
    rw [hval] at b1
    linarith
  rw [← hval] at f7 f8
  obtain ⟨r, p, c1, c2, c3⟩ := castD_near b hb hb' sign _ (x + (j : ℤ)) hmant0 (by omega) (by omega) hx f7 f8
  exact ⟨_, _, _, r, p, g1, p1, p2, f7, f8, c1, c2, c3⟩

/-! ### JSON -/

theorem digit_char (d : Nat) (h : d < 10) : 0x30 ≤ (digitChar d).toNat ∧ (digitChar d).toNat ≤ 0x39 ∧
    (d ≠ 0 → 0x31 ≤ (digitChar d).toNat) := by
  have : ∀ d : Fin 10, 0x30 ≤ (digitChar d).toNat ∧ (digitChar d).toNat ≤ 0x39 ∧ (d.val ≠ 0 → 0x31 ≤ (digitChar d).toNat) := by
    decide +kernel
  exact this ⟨d, h⟩

theorem digits_json (ds : List Nat) (h : ∀ d ∈ ds, d < 10) : RfcNumber.Digits (ds.map digitChar) := by
  intro b hb
  obtain ⟨d, hd, rfl⟩ := List.mem_map.1 hb
  have := digit_char d (h d hd)
  exact ⟨this.1, this.2.1⟩

theorem realText_json (sign : Bool) (ds fs : List Nat) (e : Option (Bool × List Nat)) (hd : ∀ d ∈ ds, d < 10)
    (hf : ∀ d ∈ fs, d < 10) (hn : ds = [0] ∨ ∃ d ds', ds = d :: ds' ∧ d ≠ 0)
    (he : ∀ neg es, e = some (neg, es) → es ≠ [] ∧ (∀ d ∈ es, d < 10)) : RfcNumber.Number (realText sign ds fs e) := by
  refine ⟨_, _, _, _, ?_, ?_, ?_, ?_, rfl⟩
  · cases sign
    · exact .inl rfl
    · exact .inr rfl
  · rcases hn with rfl | ⟨d, ds', rfl, h0⟩
    · exact .inl rfl
    · have := digit_char d (hd d (by simp))
      exact .inr ⟨_, _, rfl, this.2.2 h0, this.2.1, digits_json ds' fun x hx => hd x (by simp [hx])⟩
  · unfold fracText
    by_cases h : fs = []
    · rw [if_pos h]; exact .inl rfl
    · rw [if_neg h]; exact .inr ⟨_, by simpa using h, digits_json fs hf, rfl⟩
  · cases e with
    | none => exact .inl rfl
    | some e =>
      obtain ⟨neg, es⟩ := e
      obtain ⟨h1, h2⟩ := he neg es rfl
      refine .inr ⟨101, [if neg then 45 else 43], es.map digitChar, .inl rfl, ?_, by simpa using h1, digits_json es h2, rfl⟩
      cases neg
      · exact .inr (.inr rfl)
      · exact .inr (.inl rfl)

theorem putDD_json (b : Nat) (hb : 0 < b) (hb' : b < 2047 * 2 ^ 52) (sign : Bool) :
    ∃ t, putDD ((if sign then 2 ^ 63 else 0) + b) = .ok t ∧ RfcNumber.Number t := by
  obtain ⟨cls, D, x, f1, f2, f3, f4, f5, f6, f7, f8⟩ := frexp10_spec b hb hb' sign
  obtain ⟨ds, fs, e, j, g1, g2, g3, g4, g5, g6, g7, g8, g9⟩ := layout _ cls sign x D f1 f2 f3 f4 (by omega) (by omega)
  exact ⟨_, g1, realText_json sign ds fs e g2 g3 g4 fun neg es h => ⟨(g5 neg es h).1, (g5 neg es h).2.1⟩⟩

end Asteria.RealText
