import Verif.Model.NumExp
import Verif.Proof.NumText

/-!
# Signed arithmetic in the parser of numbers
-/

namespace Asteria.NumText

/-- The value of the decimal digits at the beginning of a text, after others whose value is `m`. -/
def leadValue (m : Nat) : Bytes → Nat
  | [] => m
  | c :: s => if 48 ≤ c ∧ c ≤ 57 then leadValue (m * 10 + (c.toNat - 48)) s else m

theorem le_leadValue (s : Bytes) : ∀ m, m ≤ leadValue m s := by
  induction s with
  | nil => intro m; exact Nat.le_refl m
  | cons c s ih =>
    intro m
    rw [leadValue]
    split
    · exact Nat.le_trans (by omega) (ih _)
    · exact Nat.le_refl m

theorem digit_iff (c : UInt8) : digitValue c < 10 ↔ 48 ≤ c ∧ c ≤ 57 := by
  unfold digitValue
  rw [UInt8.le_iff_toNat_le, UInt8.le_iff_toNat_le]
  simp only [UInt8.reduceToNat]
  split
  · omega
  · split
    · omega
    · split
      · omega
      · omega

theorem digit_val {c : UInt8} (h : digitValue c < 10) : digitValue c = c.toNat - 48 := by
  have := (digit_iff c).1 h
  rw [UInt8.le_iff_toNat_le, UInt8.le_iff_toNat_le] at this
  simp only [UInt8.reduceToNat] at this
  unfold digitValue
  rw [if_pos this]

theorem exponent_safe (neg : Bool) (orig : Int) (h1 : -2 ^ 62 ≤ orig) (h2 : orig ≤ 2 ^ 62) : ∀ (s : Bytes) (m : Nat) (ovfl : Bool),
    leadValue m s < 10 ^ 18 → exponentLoopC neg orig s (orig + if neg then -(m : Int) else m) ovfl =
      .ok (exponentLoop neg orig s (orig + if neg then -(m : Int) else m) ovfl) := by
  intro s
  induction s with
  | nil => intro m ovfl _; rfl
  | cons c s ih =>
    intro m ovfl h
    rw [exponentLoopC, exponentLoop]
    simp only
    by_cases hd : digitValue c ≥ 10
    · rw [if_pos hd, if_pos hd]
    · have hd' : digitValue c < 10 := by omega
      rw [if_neg hd, if_neg hd]
      rw [leadValue, if_pos ((digit_iff c).1 hd'), ← digit_val hd'] at h
      have hle := le_leadValue s (m * 10 + digitValue c)
      have ih := ih (m * 10 + digitValue c)
      have hm : (m : Int) * 10 + digitValue c < 10 ^ 18 := by exact_mod_cast Nat.lt_of_le_of_lt hle h
      generalize hg : (digitValue c : Int) = d at hm
      have hd0 : 0 ≤ d ∧ d < 10 := by omega
      have hf1 : fits64 (orig + (if neg then -(m : Int) else m) - orig) = true := by
        unfold fits64
        rw [decide_eq_true_iff]
        split <;> omega
      have hf2 : fits64 ((if neg then -d else d) + orig) = true := by
        unfold fits64
        rw [decide_eq_true_iff]
        split <;> omega
      rw [if_neg (by rw [hf1]; simp), if_neg (by rw [hf2]; simp)]
      have e1 : Int.bmod ((orig + (if neg then -(m : Int) else m) - orig) * 10) (2 ^ 64) =
          (orig + (if neg then -(m : Int) else m) - orig) * 10 := by
        apply bmod_small <;> split <;> omega
      rw [e1]
      have e2 : (orig + (if neg then -(m : Int) else m) - orig) * 10 + ((if neg then -d else d) + orig) =
          orig + (if neg then -((m * 10 + digitValue c : Nat) : Int) else ((m * 10 + digitValue c : Nat) : Int)) := by
        rw [Int.natCast_add, Int.natCast_mul, hg]
        split <;> omega
      rw [e2]
      have e3 : Int.bmod (orig + (if neg then -((m * 10 + digitValue c : Nat) : Int) else ((m * 10 + digitValue c : Nat) : Int)))
          (2 ^ 64) = orig + (if neg then -((m * 10 + digitValue c : Nat) : Int) else ((m * 10 + digitValue c : Nat) : Int)) := by
        apply bmod_small <;> rw [Int.natCast_add, Int.natCast_mul, hg] <;> split <;> omega
      rw [e3]
      exact ih _ h

theorem exponent_safe_zero (neg : Bool) : ∀ (s : Bytes) (x : Int) (ovfl : Bool), -2 ^ 63 ≤ x → x < 2 ^ 63 →
    exponentLoopC neg 0 s x ovfl = .ok (exponentLoop neg 0 s x ovfl) := by
  intro s
  induction s with
  | nil => intro x ovfl _ _; rfl
  | cons c s ih =>
    intro x ovfl h1 h2
    rw [exponentLoopC, exponentLoop]
    simp only
    by_cases hd : digitValue c ≥ 10
    · rw [if_pos hd, if_pos hd]
    · rw [if_neg hd, if_neg hd]
      have hf1 : fits64 (x - 0) = true := by unfold fits64; rw [decide_eq_true_iff]; omega
      have hf2 : fits64 ((if neg then -(digitValue c : Int) else digitValue c) + 0) = true := by
        unfold fits64; rw [decide_eq_true_iff]; split <;> omega
      rw [if_neg (by rw [hf1]; simp), if_neg (by rw [hf2]; simp)]
      apply ih
      · generalize Int.bmod ((x - 0) * 10) (2 ^ 64) + ((if neg then -(digitValue c : Int) else digitValue c) + 0) = y
        have := Int.le_bmod (x := y) (m := 2 ^ 64) (by decide)
        omega
      · generalize Int.bmod ((x - 0) * 10) (2 ^ 64) + ((if neg then -(digitValue c : Int) else digitValue c) + 0) = y
        have := Int.bmod_lt (x := y) (m := 2 ^ 64) (by decide)
        omega

/-- Each byte changes the exponent by at most one. -/
theorem collectLoop_exp (base : Nat) (rdxp : Option UInt8) : ∀ (s : Bytes) (xu : XUInt),
    xu.exp - s.length ≤ (collectLoop base rdxp s xu).1.exp ∧ (collectLoop base rdxp s xu).1.exp ≤ xu.exp + s.length := by
  intro s
  induction s with
  | nil => intro xu; rw [collectLoop]; simp
  | cons c s ih =>
    intro xu
    rw [collectLoop]
    simp only [List.length_cons, Int.natCast_add, Int.cast_ofNat_Int]
    by_cases h1 : ¬ xu.hasPoint = true ∧ some c = rdxp
    · rw [if_pos h1]
      have := ih { xu with hasPoint := true }
      simp only at this
      omega
    · rw [if_neg h1]
      by_cases h2 : digitValue c ≥ base
      · rw [if_pos h2]
        simp only
        omega
      · rw [if_neg h2]
        generalize hx : (if (xu.ovfl || decide (xu.mant * base ≥ 2 ^ 64) || decide (xu.mant * base % 2 ^ 64 + digitValue c ≥ 2 ^ 64)) = true then
          _ else _ : XUInt) = xu'
        have e : xu'.exp = xu.exp ∨ xu'.exp = xu.exp + 1 := by
          rw [← hx]
          split
          · exact .inr rfl
          · exact .inl rfl
        have hz : ∀ z : XUInt, (xu.exp - 1 ≤ z.exp ∧ z.exp ≤ xu.exp + 1) →
            xu.exp - (s.length + 1) ≤ (collectLoop base rdxp s z).1.exp ∧ (collectLoop base rdxp s z).1.exp ≤ xu.exp + (s.length + 1) := by
          intro z hz
          have := ih z
          omega
        apply hz
        split
        · simp only; omega
        · omega

/-- What follows the significant figures of a number, `e` with its sign left out: the digits of the exponent. -/
def exponentDigits (s : Bytes) : Bytes :=
  match (collectLoop 10 (some 46) s ⟨0, 0, false, false, false, false⟩).2 with
  | _ :: 43 :: t => t
  | _ :: 45 :: t => t
  | _ :: t => t
  | [] => []

/-- **C88**, as stated: parsing a decimal number does not run into undefined behaviour, whatever the text. -/
def C88_claim : Prop := ∀ s : Bytes, parseDecC s ≠ .ub

/-- **C88** is false: the exponent wraps around, and then its difference from the one of the significant figures overflows. -/
theorem C88_false : ¬ C88_claim := by
  intro h
  have := h "18446744073709551616e92233720368547758070".toUTF8.toList
  revert this
  decide +kernel

/-- Another text, with a negative exponent. -/
theorem C88_false_neg : parseDecC "0.1e-92233720368547758080".toUTF8.toList = .ub := by decide +kernel

theorem digit_isDec {c : UInt8} (h : isDec c = true) : 48 ≤ c ∧ c ≤ 57 := by
  simpa [isDec] using h

theorem collectDigits_safe (s : Bytes) (hlen : s.length < 2 ^ 62) (h : leadValue 0 (exponentDigits s) < 10 ^ 18 ∨
    (collectLoop 10 (some 46) s ⟨0, 0, false, false, false, false⟩).1.exp = 0) :
    collectDigitsC 10 (some 46) s = .ok (collectDigits 10 (some 46) s) := by
  have hexp := collectLoop_exp 10 (some 46) s ⟨0, 0, false, false, false, false⟩
  unfold exponentDigits at h
  unfold collectDigitsC collectDigits
  generalize collectLoop 10 (some 46) s ⟨0, 0, false, false, false, false⟩ = r at *
  obtain ⟨xu, rest⟩ := r
  simp only [show ¬ (10 = 16) by decide, if_false, if_true] at *
  have go : ∀ (neg : Bool) (t : Bytes), (leadValue 0 t < 10 ^ 18 ∨ xu.exp = 0) →
      exponentLoopC neg xu.exp t xu.exp false = .ok (exponentLoop neg xu.exp t xu.exp false) := by
    intro neg t ht
    rcases ht with ht | ht
    · have := exponent_safe neg xu.exp (by omega) (by omega) t 0 false ht
      have e : (xu.exp + if neg = true then -((0 : Nat) : Int) else ((0 : Nat) : Int)) = xu.exp := by split <;> omega
      rw [e] at this
      exact this
    · rw [ht]
      exact exponent_safe_zero neg t 0 false (by decide) (by decide)
  match rest with
  | [] => rfl
  | [_] => rfl
  | c₀ :: c₁ :: rest =>
    simp only at h ⊢
    by_cases h1 : (c₀ ||| 0x20) = 101 ∧ isDec c₁ = true
    · rw [if_pos h1, if_pos h1]
      have hd := digit_isDec h1.2
      have n1 : c₁ ≠ 43 := by rintro rfl; exact absurd hd.1 (by decide)
      have n2 : c₁ ≠ 45 := by rintro rfl; exact absurd hd.1 (by decide)
      rw [go false (c₁ :: rest) ?_]
      · rfl
      · rcases h with h | h
        · left
          split at h
          · rename_i e; cases e; exact absurd rfl n1
          · rename_i e; cases e; exact absurd rfl n2
          · rename_i e; cases e; exact h
          · rename_i e; cases e
        · exact .inr h
    · rw [if_neg h1, if_neg h1]
      match rest with
      | [] => rfl
      | c₂ :: rest =>
        simp only
        by_cases h2 : (c₀ ||| 0x20) = 101 ∧ (c₁ = 43 ∨ c₁ = 45) ∧ isDec c₂ = true
        · rw [if_pos h2, if_pos h2]
          rw [go _ (c₂ :: rest) ?_]
          · rfl
          · rcases h with h | h
            · left
              rcases h2.2.1 with rfl | rfl
              · exact h
              · exact h
            · exact .inr h
        · rw [if_neg h2, if_neg h2]

/-- **C88**, partial: if the exponent is less than 10^18, or if the significant figures are a 64-bit integer without a fraction,
then parsing a decimal number does not run into undefined behaviour, and the result is that of the model of the parser.
Missing: other exponents, for which this may be false (`C88_false`). -/
theorem C88_partial (s : Bytes) (hlen : s.length < 2 ^ 62) (h : leadValue 0 (exponentDigits (getSign s).2) < 10 ^ 18 ∨
    (collectLoop 10 (some 46) (getSign s).2 ⟨0, 0, false, false, false, false⟩).1.exp = 0) :
    parseDecC s = .ok (parseBase 10 s) := by
  unfold parseDecC parseBase
  simp only
  cases getSpecial (getSign s).2 with
  | some rest => rfl
  | none =>
    have hl : (getSign s).2.length ≤ s.length := by
      unfold getSign
      split <;> simp
    simp only [show ¬ (10 = 2) by decide, show ¬ (10 = 16) by decide, if_false, if_true]
    rw [collectDigits_safe (getSign s).2 (by omega) h]
    rfl

example : leadValue 0 (exponentDigits (getSign "-12.5e+0000000000000000000000308".toUTF8.toList).2) = 308 := by decide +kernel
example : (collectLoop 10 (some 46) (getSign "7e99999999999999999999".toUTF8.toList).2 ⟨0, 0, false, false, false, false⟩).1.exp = 0 := by
  decide +kernel

end Asteria.NumText
