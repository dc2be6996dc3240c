import Verif.Proof.RealNearest
import Verif.Proof.RealDecimal
import Verif.Proof.LexExact
import Verif.Spec.RealLiteral
import Verif.Model.Source

/-!
# The accuracy of literals
-/

namespace Asteria.Lexer

open Spec (IsPrefix IsSign Parts DigitText FracText ExpoText Numeral Kept Meaning number Reads ReadsNearest)
open NumText (NumGet)
open RealText (value Nearly Nearest Given Accurate Correct castD_accurate castD_rounded maximum minimum)

theorem number_add (base : Nat) (a b : List Nat) : number base (a ++ b) = number base a * base ^ b.length + number base b := by
  induction b using List.reverseRecOn with
  | nil => simp [number]
  | append_singleton b d ih =>
    have key : ∀ l : List Nat, number base (l ++ [d]) = number base l * base + d := by
      intro l; unfold number; rw [List.foldl_append]; rfl
    rw [← List.append_assoc, key, ih, key, List.length_append, List.length_singleton, pow_succ]
    ring

theorem number_lt (base : Nat) (ds : List Nat) (h : ∀ d ∈ ds, d < base) : number base ds < base ^ ds.length ∨ ds = [] := by
  induction ds using List.reverseRecOn with
  | nil => exact .inr rfl
  | append_singleton b d ih =>
    left
    rw [number_add, List.length_append, List.length_singleton, pow_one, pow_succ]
    have hd : d < base := h d (by simp)
    have : number base [d] = d := by simp [number]
    rw [this]
    rcases ih (fun x hx => h x (by simp [hx])) with h1 | h1
    · calc number base b * base + d < number base b * base + base := by omega
        _ = (number base b + 1) * base := by ring
        _ ≤ base ^ b.length * base := Nat.mul_le_mul_right _ h1
    · subst h1
      simpa [number] using hd

theorem number_zero (base : Nat) (hb : 1 ≤ base) (ds : List Nat) : number base ds = 0 ↔ ds.any (· ≠ 0) = false := by
  induction ds using List.reverseRecOn with
  | nil => simp [number]
  | append_singleton b d ih =>
    rw [number_add, List.any_append, Bool.or_eq_false_iff, ← ih]
    simp [number]
    intro _
    omega

theorem kept_exists (base : Nat) (ds : List Nat) : ∃ m rest, Kept base ds m rest := by
  suffices h : ∀ (ds lead : List Nat), number base lead < 2 ^ 64 → ∃ m rest, Kept base (lead ++ ds) m rest from h ds [] (by simp [number])
  intro ds
  induction ds with
  | nil => intro lead h; exact ⟨_, [], ⟨lead, rfl, rfl⟩, h, nofun⟩
  | cons d ds ih =>
    intro lead h
    by_cases hd : number base (lead ++ [d]) < 2 ^ 64
    · have := ih (lead ++ [d]) hd
      rwa [List.append_assoc, List.singleton_append] at this
    · refine ⟨_, d :: ds, ⟨lead, rfl, rfl⟩, h, ?_⟩
      rintro d' t hh
      cases hh
      rw [number_add] at hd
      simp [number] at hd ⊢
      exact hd

theorem meaning_exists (neg : Bool) (p : Parts) : ∃ g, Meaning neg p g := by
  obtain ⟨m, rest, h⟩ := kept_exists p.base p.digits
  exact ⟨_, m, rest, h, rfl⟩

/-- The bases of numerals. -/
theorem numeral_digits {t : Bytes} {p : Parts} (h : Numeral t p) : (p.base = 10 ∨ p.base = 2 ∨ p.base = 16) ∧ ∀ d ∈ p.digits, d < p.base := by
  cases h with
  | mk h1 h2 h3 h4 h5 =>
    refine ⟨?_, ?_⟩
    · rcases h1.prop with ⟨h, _⟩ | ⟨h, _⟩ | ⟨h, _⟩ <;> simp [h]
    · intro d hd
      unfold Parts.digits at hd
      rcases List.mem_append.1 hd with hd | hd
      · exact h2.lt d hd
      · cases h3 with
        | none => simp at hd
        | some h3 => exact h3.lt d hd

theorem radix_pow {p : Parts} (h : p.base = 10 ∨ p.base = 2 ∨ p.base = 16) (n : Nat) :
    (p.base : ℚ) ^ n = (p.radix : ℚ) ^ (p.step * (n : ℤ)) := by
  unfold Parts.radix Parts.step
  rcases h with h | h | h <;> rw [h]
  · simp
  · simp
  · simp only [if_true]
    rw [if_neg (by decide), zpow_mul, zpow_natCast]
    norm_num

/-- What `cast_D` is given. -/
theorem meaning_given {t : Bytes} {p : Parts} {neg : Bool} {g : NumGet} (hn : Numeral t p) (hm : Meaning neg p g) :
    g.sign = neg ∧ g.base = p.radix ∧ Given g p.exact ∧ (g.mant = 0 ↔ p.exact = 0) ∧
      (g.more = true → (g.mant : ℚ) * (g.base : ℚ) ^ g.exp < p.exact ∧ p.exact < ((g.mant : ℚ) + 1) * (g.base : ℚ) ^ g.exp) := by
  obtain ⟨hb, hd⟩ := numeral_digits hn
  obtain ⟨m, rest, hk, rfl⟩ := hm
  obtain ⟨lead, hs, hm⟩ := hk.split
  have hrad : 2 ≤ p.radix := by unfold Parts.radix; split <;> decide
  have hradq : (0 : ℚ) < p.radix := by exact_mod_cast (show 0 < p.radix by omega)
  have hb1 : 1 ≤ p.base := by omega
  -- the exact value
  have hex : p.exact = ((m : ℚ) + (number p.base rest : ℚ) / (p.base : ℚ) ^ rest.length) *
      (p.radix : ℚ) ^ (p.step * ((rest.length : Int) - ((p.frac.getD []).length : Int)) + p.written) := by
    unfold Parts.exact
    rw [hs, number_add, ← hm]
    have hbp : (p.base : ℚ) ^ rest.length ≠ 0 := by positivity
    have e1 : (p.radix : ℚ) ^ (p.step * ((rest.length : Int) - ((p.frac.getD []).length : Int)) + p.written) =
        (p.base : ℚ) ^ rest.length * (p.radix : ℚ) ^ (p.written - p.step * ((p.frac.getD []).length : ℤ)) := by
      rw [radix_pow hb, ← zpow_add₀ hradq.ne']
      congr 1
      ring
    rw [e1, ← mul_assoc, add_mul, div_mul_cancel₀ _ hbp]
    push_cast
    ring
  have hpos : (0 : ℚ) < (p.radix : ℚ) ^ (p.step * ((rest.length : Int) - ((p.frac.getD []).length : Int)) + p.written) := zpow_pos hradq _
  have hbq : (0 : ℚ) < (p.base : ℚ) ^ rest.length := by
    have : (0 : ℚ) < p.base := by exact_mod_cast hb1
    positivity
  have hfrac1 : (number p.base rest : ℚ) / (p.base : ℚ) ^ rest.length < 1 := by
    rw [div_lt_one hbq]
    rcases number_lt p.base rest (fun d h => hd d (by rw [hs]; simp [h])) with h | h
    · exact_mod_cast h
    · subst h; simp [number]
  have hfrac0 : 0 ≤ (number p.base rest : ℚ) / (p.base : ℚ) ^ rest.length := by positivity
  have hfrac2 : rest.any (· ≠ 0) = true → 0 < (number p.base rest : ℚ) / (p.base : ℚ) ^ rest.length := by
    intro h
    refine div_pos ?_ hbq
    have : number p.base rest ≠ 0 := by rw [Ne, number_zero _ hb1, h]; decide
    exact_mod_cast Nat.pos_of_ne_zero this
  have hfrac3 : rest.any (· ≠ 0) = false → (number p.base rest : ℚ) / (p.base : ℚ) ^ rest.length = 0 := by
    intro h
    rw [(number_zero _ hb1 _).2 h]
    simp
  have hlong : rest ≠ [] → 2 ^ 64 ≤ m * 10 + 9 ∧ p.base = 10 ∨ p.radix = 2 ∧ 2 ^ 60 ≤ m := by
    intro h
    obtain ⟨d, t, rfl⟩ := List.exists_cons_of_ne_nil h
    have h1 := hk.longest d t rfl
    have h2 := hd d (by rw [hs]; simp)
    rcases hb with hb | hb | hb
    · left; rw [hb] at h1 h2; exact ⟨by omega, hb⟩
    · right; rw [hb] at h1 h2; exact ⟨by simp [Parts.radix, hb], by omega⟩
    · right; rw [hb] at h1 h2; exact ⟨by simp [Parts.radix, hb], by omega⟩
  refine ⟨rfl, rfl, ⟨?_, hk.lt, ?_, ?_, ?_, ?_⟩, ?_, ?_⟩
  · unfold Parts.radix; split <;> simp
  · simp only; rw [hex]; exact mul_le_mul_of_nonneg_right (by linarith) hpos.le
  · simp only; rw [hex]; exact mul_le_mul_of_nonneg_right (by linarith) hpos.le
  · intro h; simp only at h ⊢; rw [hex, hfrac3 h, add_zero]
  · intro h
    simp only at h ⊢
    have : rest ≠ [] := by rintro rfl; simp at h
    rcases hlong this with ⟨h, _⟩ | h
    · exact .inl h
    · exact .inr h
  · simp only
    constructor
    · intro h
      have : rest = [] := by
        by_contra hne
        rcases hlong hne with ⟨h1, _⟩ | ⟨_, h1⟩ <;> omega
      rw [hex, this, h]
      simp [number]
    · intro h
      rw [hex] at h
      rcases mul_eq_zero.1 h with h | h
      · have : (m : ℚ) ≤ 0 := by linarith
        have : m ≤ 0 := by exact_mod_cast this
        omega
      · exact absurd h hpos.ne'
  · intro h
    simp only at h ⊢
    rw [hex]
    exact ⟨mul_lt_mul_of_pos_right (by have := hfrac2 h; linarith) hpos, mul_lt_mul_of_pos_right (by linarith) hpos⟩

/-! ### Results -/

theorem exact_nonneg {t : Bytes} {p : Parts} (_ : Numeral t p) : 0 ≤ p.exact := by
  unfold Parts.exact
  positivity

theorem castD_meaning {t : Bytes} {p : Parts} {neg : Bool} {g : NumGet} (hn : Numeral t p) (hm : Meaning neg p g) :
    (p.exact = 0 ∧ ∃ i, RealText.castD g = .ok ⟨if neg then 2 ^ 63 else 0, false, false, i⟩) ∨
    (0 < p.exact ∧ ∃ r, RealText.castD g = .ok r ∧ Accurate (if neg then 2 ^ 63 else 0) p.exact r ∧
      (p.base ≠ 10 → Correct (if neg then 2 ^ 63 else 0) g.more p.exact r)) := by
  obtain ⟨h1, h2, h3, h4, h5⟩ := meaning_given hn hm
  by_cases h0 : g.mant = 0
  · left
    refine ⟨h4.1 h0, g.more, ?_⟩
    unfold RealText.castD
    simp only
    rw [if_pos h0, h1]
  · right
    refine ⟨lt_of_le_of_ne (exact_nonneg hn) (fun h => h0 (h4.2 h.symm)), ?_⟩
    obtain ⟨r, hr, ha⟩ := castD_accurate g p.exact h3 (Nat.pos_of_ne_zero h0)
    refine ⟨r, hr, h1 ▸ ha, fun hb => ?_⟩
    obtain ⟨r', hr', ha'⟩ := castD_rounded g p.exact h3 (Nat.pos_of_ne_zero h0) (by rw [h2]; simp [Parts.radix, hb]) h5
    rw [hr] at hr'
    cases hr'
    exact h1 ▸ ha'

theorem realOf_some {g : NumGet} {bits : Nat} : Source.realOf g = some bits ↔
    ∃ r, RealText.castD g = .ok r ∧ r.ovfl = false ∧ r.udfl = false ∧ r.bits = bits := by
  unfold Source.realOf
  cases h : RealText.castD g with
  | ok r =>
    obtain ⟨b, o, u, i⟩ := r
    cases o <;> cases u <;> simp
  | throw => simp
  | ub => simp

theorem realOf_reads {t : Bytes} {p : Parts} {neg : Bool} {g : NumGet} {bits : Nat} (hn : Numeral t p) (hm : Meaning neg p g)
    (h : Source.realOf g = some bits) : Reads neg p.exact bits := by
  obtain ⟨r, h1, h2, h3, h4⟩ := realOf_some.1 h
  rcases castD_meaning hn hm with ⟨h5, i, h6⟩ | ⟨_, r', h6, h7, _⟩
  · rw [h6] at h1; cases h1; exact .inl ⟨h5, h4.symm⟩
  · rw [h6] at h1; cases h1
    obtain ⟨b, c1, c2, c3, c4⟩ := h7.near h2 h3
    exact .inr ⟨b, c1, c2, h4 ▸ c3, c4⟩

theorem realOf_nearest {t : Bytes} {p : Parts} {neg : Bool} {g : NumGet} {bits : Nat} (hn : Numeral t p) (hm : Meaning neg p g)
    (hb : p.base ≠ 10) (h : Source.realOf g = some bits) : ReadsNearest neg p.exact bits := by
  obtain ⟨r, h1, h2, h3, h4⟩ := realOf_some.1 h
  rcases castD_meaning hn hm with ⟨h5, i, h6⟩ | ⟨_, r', h6, _, h7⟩
  · rw [h6] at h1; cases h1; exact .inl ⟨h5, h4.symm⟩
  · rw [h6] at h1; cases h1
    obtain ⟨b, c1, c2, c3, c4⟩ := (h7 hb).near h2 h3
    exact .inr ⟨b, c1, c2, h4 ▸ c3, c4⟩

theorem realOf_range {t : Bytes} {p : Parts} {neg : Bool} {g : NumGet} (hn : Numeral t p) (hm : Meaning neg p g)
    (h : p.exact = 0 ∨ minimum ≤ p.exact ∧ p.exact ≤ maximum) : ∃ bits, Source.realOf g = some bits := by
  rcases castD_meaning hn hm with ⟨_, i, h6⟩ | ⟨h5, r', h6, h7, _⟩
  · exact ⟨_, realOf_some.2 ⟨_, h6, rfl, rfl, rfl⟩⟩
  · rcases h with h | ⟨ha, hb⟩
    · rw [h] at h5; exact absurd h5 (lt_irrefl _)
    · refine ⟨_, realOf_some.2 ⟨_, h6, ?_, ?_, rfl⟩⟩
      · cases ho : r'.ovfl with
        | false => rfl
        | true => exact absurd (h7.over ho) (not_lt.2 hb)
      · cases ho : r'.udfl with
        | false => rfl
        | true => exact absurd (h7.under ho) (not_lt.2 ha)

/-- Two numbers are not both as near as that. -/
theorem nearly_exact {b c : Nat} (h : Nearly (value c) b) (hb : 0 < b) : b = c := by
  have mono : ∀ {x y : Nat}, x ≤ y → value x ≤ value y := fun h => RealText.value_mono h
  have strict : ∀ x : Nat, value x < value (x + 1) := fun x => RealText.value_lt_next x
  by_contra hne
  rcases Nat.lt_or_ge c b with h1 | h1
  · have a := mono (show c ≤ b - 1 by omega)
    have b' := strict (b - 1)
    rw [Nat.sub_add_cancel hb] at b'
    have := h.lower
    linarith
  · have a := mono (show b + 1 ≤ c by omega)
    have b' := strict b
    have := h.upper
    linarith

end Asteria.Lexer
