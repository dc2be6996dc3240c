import Verif.Proof.JsonToken
import Verif.Proof.NumText

/-!
# The number parser consumes JSON numbers
-/

namespace Asteria.Json

open JsonSpec (Digits Sign Fraction Exponent Number)
open NumText (NumGet parseBase XUInt collectLoop exponentLoop collectDigits digitValue isDec)

theorem digit_facts {b : UInt8} (h : 0x30 ≤ b.toNat ∧ b.toNat ≤ 0x39) : digitValue b < 10 ∧ isDec b = true ∧ b ≠ 46 := by
  refine ⟨?_, ?_, ?_⟩
  · unfold digitValue; simp only; rw [if_pos h]; omega
  · unfold isDec
    simp only [Bool.and_eq_true, decide_eq_true_eq, UInt8.le_iff_toNat_le]
    exact h
  · rintro rfl; revert h; decide +kernel

theorem collectLoop_run : ∀ (d r : Bytes) (xu : XUInt), (∀ b ∈ d, 0x30 ≤ b.toNat ∧ b.toNat ≤ 0x39) →
    ∃ xu', collectLoop 10 (some 46) (d ++ r) xu = collectLoop 10 (some 46) r xu' ∧ xu'.hasPoint = xu.hasPoint ∧
      (xu'.valid = true ↔ xu.valid = true ∨ d ≠ [])
  | [], r, xu, _ => ⟨xu, rfl, rfl, by simp⟩
  | b :: d, r, xu, h => by
    obtain ⟨h1, h2, h3⟩ := digit_facts (h b (by simp))
    rw [List.cons_append, collectLoop]
    rw [if_neg (by simp [h3])]
    simp only
    rw [if_neg (by omega)]
    obtain ⟨xu', e, hp, hv⟩ := collectLoop_run d r _ fun b hb => h b (by simp [hb])
    refine ⟨xu', e, ?_, ?_⟩
    · rw [hp]; split <;> split <;> rfl
    · rw [hv]
      constructor
      · intro _; exact .inr (by simp)
      · intro _; refine .inl ?_; split <;> split <;> rfl

theorem exponentLoop_run (neg : Bool) (orig : Int) : ∀ (d : Bytes) (exp : Int) (ovfl : Bool),
    (∀ b ∈ d, 0x30 ≤ b.toNat ∧ b.toNat ≤ 0x39) → (exponentLoop neg orig d exp ovfl).2.2 = []
  | [], _, _, _ => rfl
  | b :: d, exp, ovfl, h => by
    obtain ⟨h1, h2, h3⟩ := digit_facts (h b (by simp))
    rw [exponentLoop]
    simp only
    rw [if_neg (by omega)]
    exact exponentLoop_run neg orig d _ _ fun b hb => h b (by simp [hb])

theorem collectLoop_exp {e : Bytes} (h : Exponent e) (xu : XUInt) : collectLoop 10 (some 46) e xu = (xu, e) := by
  rcases h with rfl | ⟨c, s, d, hc, _, _, rfl⟩
  · rfl
  · rw [collectLoop]
    rw [if_neg]
    · simp only
      rw [if_pos]
      rcases hc with rfl | rfl <;> decide +kernel
    · rcases hc with rfl | rfl <;> simp

theorem collectDigits_ok {i f e : Bytes} (hi : Digits i) (hf : Fraction f) (he : Exponent e) :
    (collectDigits 10 (some 46) (i ++ (f ++ e))).2 = [] ∧ (collectDigits 10 (some 46) (i ++ (f ++ e))).1.valid = true := by
  have hloop : ∃ xu, collectLoop 10 (some 46) (i ++ (f ++ e)) ⟨0, 0, false, false, false, false⟩ = (xu, e) ∧
      xu.valid = true := by
    obtain ⟨xu, h1, h2, h3⟩ := collectLoop_run i (f ++ e) ⟨0, 0, false, false, false, false⟩ hi.2
    have hv : xu.valid = true := h3.2 (.inr hi.1)
    rcases hf with rfl | ⟨d, hd, rfl⟩
    · exact ⟨xu, by rw [h1, List.nil_append, collectLoop_exp he], hv⟩
    · rw [h1, List.cons_append, collectLoop, if_pos (by simp [h2])]
      obtain ⟨xu', k1, k2, k3⟩ := collectLoop_run d e { xu with hasPoint := true } hd.2
      exact ⟨xu', by rw [k1, collectLoop_exp he], k3.2 (.inr hd.1)⟩
  obtain ⟨xu, h1, hv⟩ := hloop
  unfold collectDigits
  rw [h1]
  simp only [show ¬ (10 = 16) by decide, if_false, if_true]
  rcases he with rfl | ⟨c, s, d, hc, hs, hd, rfl⟩
  · exact ⟨rfl, hv⟩
  · have hc' : c ||| 0x20 = 101 := by rcases hc with rfl | rfl <;> decide
    rcases sign_cases hs with rfl | ⟨b, rfl, hb⟩
    · cases d with
      | nil => exact absurd rfl hd.1
      | cons a d =>
        rw [List.nil_append]
        simp only
        rw [if_pos ⟨hc', (digit_facts (hd.2 a (by simp))).2.1⟩]
        exact ⟨exponentLoop_run _ _ _ _ _ hd.2, hv⟩
    · cases d with
      | nil => exact absurd rfl hd.1
      | cons a d =>
        rw [List.singleton_append]
        simp only
        have hb' : b = 43 ∨ b = 45 := by
          rcases hb with h | h
          · exact .inl (UInt8.toNat_inj.1 h)
          · exact .inr (UInt8.toNat_inj.1 h)
        rw [if_neg, if_pos ⟨hc', hb', (digit_facts (hd.2 a (by simp))).2.1⟩]
        · exact ⟨exponentLoop_run _ _ _ _ _ hd.2, hv⟩
        · rcases hb' with rfl | rfl <;> simp [isDec]

/-- `n == token.size()` holds for every number token, json.cpp:632-633. -/
theorem parse_number {t : Bytes} (h : Number t) : ∃ g, parseBase 10 t = some (g, []) := by
  obtain ⟨s, i, f, e, hs, hi, hf, he, rfl⟩ := h
  obtain ⟨h1, h2⟩ := collectDigits_ok hi hf he
  have hsign : (NumText.getSign (s ++ (i ++ (f ++ e)))).2 = i ++ (f ++ e) := by
    cases i with
    | nil => exact absurd rfl hi.1
    | cons a i =>
      have ha := hi.2 a (by simp)
      rcases hs with rfl | rfl | rfl
      · rw [List.nil_append, List.cons_append]
        unfold NumText.getSign
        split
        · rename_i x heq; rw [(List.cons.inj heq).1] at ha; exact absurd ha (by decide +kernel)
        · rename_i x heq; rw [(List.cons.inj heq).1] at ha; exact absurd ha (by decide +kernel)
        · rfl
      · rfl
      · rfl
  have hspec : NumText.getSpecial (i ++ (f ++ e)) = none := by
    cases i with
    | nil => exact absurd rfl hi.1
    | cons a i =>
      have ha := hi.2 a (by simp)
      rw [List.cons_append]
      apply NumText.getSpecial_none <;> (rintro rfl; revert ha; decide +kernel)
  unfold parseBase
  simp only
  rw [hsign, hspec]
  simp only [show ¬ (10 = 2) by decide, show ¬ (10 = 16) by decide, if_false, if_true]
  rw [if_pos h2, h1]
  exact ⟨_, rfl⟩

end Asteria.Json
