import Verif.Model.RealText
import Verif.Spec.RealText
import Mathlib.Tactic.Linarith
import Mathlib.Tactic.Ring
import Mathlib.Tactic.NormNum
import Mathlib.Tactic.FieldSimp
import Mathlib.Tactic.Positivity
import Mathlib.Tactic.ByContra

/-!
# `cast_D` rounds to a nearest number, or to one next to it
-/

namespace Asteria.RealText

/-! ### Powers of two -/

theorem two_zpow_pos (e : ℤ) : (0 : ℚ) < (2 : ℚ) ^ e := zpow_pos (by norm_num) e

theorem two_zpow_add (e : ℤ) (k : Nat) : (2 : ℚ) ^ (e + k) = 2 ^ k * (2 : ℚ) ^ e := by
  rw [zpow_add₀ (by norm_num), zpow_natCast, mul_comm]

/-- Comparison of multiples of two powers of two, if the left hand side has the lesser exponent. -/
theorem scaled_le {a c : Nat} {i j : ℤ} (k : Nat) (hk : j = i + k) :
    ((a : ℚ) * 2 ^ i ≤ c * 2 ^ j) ↔ a ≤ c * 2 ^ k := by
  rw [hk, two_zpow_add, ← mul_assoc, mul_le_mul_iff_left₀ (two_zpow_pos i)]
  exact_mod_cast Iff.rfl

theorem scaled_ge {a c : Nat} {i j : ℤ} (k : Nat) (hk : j = i + k) :
    ((c : ℚ) * 2 ^ j ≤ a * 2 ^ i) ↔ c * 2 ^ k ≤ a := by
  rw [hk, two_zpow_add, ← mul_assoc, mul_le_mul_iff_left₀ (two_zpow_pos i)]
  exact_mod_cast Iff.rfl

/-! ### Rounding -/

/-- Rounding to the nearest, and if there are two, to the even one. -/
def rhe (n s : Nat) : Nat :=
  n / 2 ^ s + if 2 * (n % 2 ^ s) > 2 ^ s ∨ (2 * (n % 2 ^ s) = 2 ^ s ∧ n / 2 ^ s % 2 = 1) then 1 else 0

theorem carry_eq (ulp out bits : Nat) (h1 : 1 ≤ ulp) (h2 : ulp ≤ 2 ^ 63) (h3 : out < 2 * ulp) :
    carry ulp out bits = if out > ulp ∨ (out = ulp ∧ bits % 2 = 1) then 1 else 0 := by
  unfold carry
  have one : ∀ z, (1 &&& z) &&& 1 = z % 2 := by
    intro z
    rw [Nat.and_comm 1 z, Nat.and_one_is_mod, Nat.and_one_is_mod]
    omega
  by_cases h : out < ulp
  · have e : (ulp + 2 ^ 64 - 1 - out) % 2 ^ 64 / 2 ^ 63 = 0 := by omega
    rw [e, if_neg (by omega), Nat.zero_and, Nat.zero_and]
  · have e : (ulp + 2 ^ 64 - 1 - out) % 2 ^ 64 / 2 ^ 63 = 1 := by omega
    rw [e, one]
    by_cases h' : out = ulp
    · have e' : (ulp + 2 ^ 64 - out) % 2 ^ 64 / 2 ^ 63 = 0 := by omega
      rw [e', Nat.zero_or]
      split <;> omega
    · have e' : (ulp + 2 ^ 64 - out) % 2 ^ 64 / 2 ^ 63 = 1 := by omega
      rw [e', if_pos (by omega)]
      rw [Nat.or_mod_two_eq_one]
      exact .inl rfl

theorem rhe_carry (n s : Nat) (hs' : s ≤ 63) :
    n / 2 ^ s + carry (2 ^ s) (2 * (n % 2 ^ s)) (n / 2 ^ s) = rhe n s := by
  have h1 : 2 ^ s ≤ 2 ^ 63 := Nat.pow_le_pow_right (by omega) hs'
  have h2 : 0 < 2 ^ s := Nat.two_pow_pos s
  have h3 := Nat.mod_lt n h2
  rw [carry_eq _ _ _ h2 h1 (by omega)]
  rfl

/-- The place where a mantissa is rounded. -/
def place (exp : ℤ) : Nat := if exp ≥ 1 then 11 else (12 - exp).toNat

/-- The bit pattern that results from rounding. -/
def pattern (exp : ℤ) (bits : Nat) : Nat := (exp - 1).toNat * 2 ^ 52 + rhe bits (place exp)

theorem rhe_le (n s c : Nat) (h : n ≤ c * 2 ^ s) : rhe n s ≤ c := by
  have hp : 0 < 2 ^ s := Nat.two_pow_pos s
  unfold rhe
  rcases Nat.lt_or_ge (n / 2 ^ s) c with h1 | h1
  · split <;> omega
  · have h2 : c * 2 ^ s ≤ n := (Nat.le_div_iff_mul_le hp).1 h1
    have h3 : n = c * 2 ^ s := by omega
    rw [h3, Nat.mul_div_cancel _ hp, Nat.mul_mod_left, if_neg (by omega)]
    omega

theorem le_rhe (n s c : Nat) (h : c * 2 ^ s ≤ n) : c ≤ rhe n s := by
  have hp : 0 < 2 ^ s := Nat.two_pow_pos s
  have := (Nat.le_div_iff_mul_le hp).2 h
  unfold rhe
  omega

/-- A number within half a unit of an integer is rounded to it, unless it is odd and the number is in the middle. -/
theorem rhe_near (n s c : Nat) (h1 : 2 * c * 2 ^ s ≤ 2 * n + 2 ^ s) (h2 : 2 * n ≤ 2 * c * 2 ^ s + 2 ^ s) :
    (c ≤ rhe n s + 1 ∧ rhe n s ≤ c + 1) ∧ (c % 2 = 0 → rhe n s = c) := by
  have hp : 0 < 2 ^ s := Nat.two_pow_pos s
  have hd := Nat.div_add_mod n (2 ^ s)
  have hm := Nat.mod_lt n hp
  unfold rhe
  generalize n / 2 ^ s = q at *
  generalize n % 2 ^ s = r at *
  generalize 2 ^ s = p at *
  have hq1 : q ≤ c := by
    by_contra hc
    have : p * (c + 1) ≤ p * q := Nat.mul_le_mul_left p (by omega)
    have e : p * (c + 1) = c * p + p := by ring
    have e2 : 2 * c * p = 2 * (c * p) := by ring
    omega
  have hq2 : c ≤ q + 1 := by
    by_contra hc
    have : p * (q + 2) ≤ p * c := Nat.mul_le_mul_left p (by omega)
    have e : p * (q + 2) = p * q + 2 * p := by ring
    have e2 : 2 * c * p = 2 * (p * c) := by ring
    omega
  rcases Nat.lt_or_ge q c with h | h
  · have e : c = q + 1 := by omega
    subst e
    have e2 : 2 * (q + 1) * p = 2 * (p * q) + 2 * p := by ring
    refine ⟨by split <;> omega, fun hev => ?_⟩
    rw [if_pos (by omega)]
  · have e : c = q := by omega
    subst e
    have e2 : 2 * c * p = 2 * (p * c) := by ring
    refine ⟨by split <;> omega, fun hev => ?_⟩
    rw [if_neg (by omega)]
    omega

theorem finish_eq (sign : Nat) (hsign : sign = 0 ∨ sign = 2 ^ 63) (exp : ℤ) (bits : Nat) (i : Bool) (p : Nat)
    (hp : p = exp.toNat * 2 ^ 52 + bits) (h1 : exp ≤ 2046) (h2 : bits < 2 ^ 52) (h3 : p ≠ 0) :
    finish sign exp bits i = .ok ⟨sign + p, false, false, i⟩ := by
  have e : (if exp > 0 then exp.toNat else 0) = exp.toNat := by split <;> omega
  unfold finish
  simp only
  rw [e, if_neg (by omega)]
  rw [hp, Nat.add_assoc]

/-- What `compose` gives, of a number that is not far too large or small. -/
theorem compose_eq (sign : Nat) (hsign : sign = 0 ∨ sign = 2 ^ 63) (exp : ℤ) (bits : Nat) (h1 : 2 ^ 63 ≤ bits) (h2 : bits < 2 ^ 64)
    (h3 : -52 ≤ exp) (h4 : exp ≤ 2046) : ∃ r, compose sign exp bits false = .ok r ∧ r.bits = sign + pattern exp bits := by
  unfold compose pattern place
  simp only [Bool.false_or, Bool.false_eq_true, if_false, Nat.add_zero]
  by_cases he : exp ≥ 1
  · rw [if_pos he, if_pos he, rhe_carry bits 11 (by decide)]
    have a := le_rhe bits 11 (2 ^ 52) (by omega)
    have b := rhe_le bits 11 (2 ^ 53) (by omega)
    generalize rhe bits 11 = r at *
    by_cases hr : r = 2 ^ 53
    · subst hr
      rw [show (2 ^ 53 / 2 ^ 53 % 2 : Nat) = 1 from rfl]
      by_cases ho : exp + ((1 : Nat) : ℤ) > 2046
      · rw [if_pos ho]
        refine ⟨_, rfl, ?_⟩
        show sign + 0x7FF0000000000000 = _
        have : exp = 2046 := by omega
        subst this
        rfl
      · rw [if_neg ho, finish_eq sign hsign _ _ _ ((exp - 1).toNat * 2 ^ 52 + 2 ^ 53) (by omega) (by omega) (by omega) (by omega)]
        exact ⟨_, rfl, rfl⟩
    · rw [show r / 2 ^ 53 % 2 = 0 by omega, if_neg (by omega),
        finish_eq sign hsign _ _ _ ((exp - 1).toNat * 2 ^ 52 + r) (by rw [pow_zero, Nat.div_one]; omega) (by omega) (by omega) (by omega)]
      exact ⟨_, rfl, rfl⟩
  · rw [if_neg he, if_neg he]
    have z : (exp - 1).toNat = 0 := by omega
    rw [z, Nat.zero_mul, Nat.zero_add]
    by_cases he2 : exp ≥ -51
    · rw [if_pos he2]
      generalize hs : (12 - exp).toNat = s
      have hs1 : 12 ≤ s := by omega
      have hs2 : s ≤ 63 := by omega
      have hp := Nat.two_pow_pos s
      have hple : 2 ^ s ≤ 2 ^ 63 := Nat.pow_le_pow_right (by omega) hs2
      have hml := Nat.mod_lt bits hp
      rw [show 2 * (bits % 2 ^ s) % 2 ^ 64 = 2 * (bits % 2 ^ s) from Nat.mod_eq_of_lt (by omega)]
      rw [rhe_carry bits s hs2]
      have a := le_rhe bits s 1 (by omega)
      have b : rhe bits s ≤ 2 ^ 52 := by
        apply rhe_le
        have : (2 : Nat) ^ 12 ≤ 2 ^ s := Nat.pow_le_pow_right (by omega) hs1
        omega
      have c : exp < 0 → rhe bits s ≤ 2 ^ 51 := by
        intro hneg
        apply rhe_le
        have : (2 : Nat) ^ 13 ≤ 2 ^ s := Nat.pow_le_pow_right (by omega) (by omega)
        omega
      generalize rhe bits s = r at *
      by_cases hr : r = 2 ^ 52
      · have h0 : exp = 0 := by
          by_contra hne
          have := c (by omega)
          omega
        subst h0
        subst hr
        rw [show (2 ^ 52 / 2 ^ 52 % 2 : Nat) = 1 from by decide, if_neg (by decide)]
        rw [finish_eq sign hsign _ _ _ (2 ^ 52) (by decide) (by decide) (by decide) (by decide)]
        exact ⟨_, rfl, rfl⟩
      · rw [show r / 2 ^ 52 % 2 = 0 by omega, ite_self, pow_zero, Nat.div_one]
        rw [finish_eq sign hsign _ _ _ r (by omega) (by omega) (by omega) (by omega)]
        exact ⟨_, rfl, rfl⟩
    · have : exp = -52 := by omega
      subst this
      rw [if_neg (by decide), if_pos rfl]
      rw [show (12 - (-52) : ℤ).toNat = 64 from rfl]
      unfold rhe
      by_cases hb : bits ≤ 0x8000000000000000
      · rw [if_pos hb]
        refine ⟨_, rfl, ?_⟩
        show sign = _
        rw [if_neg (by omega)]
        omega
      · rw [if_neg hb, if_pos (by omega)]
        rw [finish_eq sign hsign _ _ _ 1 (by decide) (by decide) (by decide) (by decide)]
        refine ⟨_, rfl, ?_⟩
        show sign + 1 = _
        omega

/-! ### Bounds of a number -/

/-- Halfway to the number below (beyond that, if the number is a power of two). -/
def lower (b : Nat) : ℚ := ((2 * sig b - 1 : Nat) : ℚ) * (2 : ℚ) ^ (ulpExp b - 1)

/-- Halfway to the number above. -/
def upper (b : Nat) : ℚ := ((2 * sig b + 1 : Nat) : ℚ) * (2 : ℚ) ^ (ulpExp b - 1)

/-- Neighbours, and the number itself if it is even and there is as much space below as above. -/
def Near (b p : Nat) : Prop := (b ≤ p + 1 ∧ p ≤ b + 1) ∧ (b % 2 = 0 → (b % 2 ^ 52 ≠ 0 ∨ b ≤ 2 ^ 52) → p = b)

theorem sig_lt (b : Nat) : sig b < 2 ^ 53 := by unfold sig; split <;> omega

theorem sig_pos (b : Nat) (h : 0 < b) : 0 < sig b := by unfold sig; split <;> omega

theorem aux_lo (x n : Nat) (h : (2 * x - 1) * 2 ^ 10 ≤ n) : 2 * x * 2 ^ 11 ≤ 2 * n + 2 ^ 11 := by
  have h : (2 * x - 1) * 1024 ≤ n := h
  show 2 * x * 2048 ≤ 2 * n + 2048
  have e : 2 * x ≤ 2 * x - 1 + 1 := by omega
  generalize 2 * x - 1 = z at *
  linarith

theorem aux_hi (x n : Nat) (h : n ≤ (2 * x + 1) * 2 ^ 10) : 2 * n ≤ 2 * x * 2 ^ 11 + 2 ^ 11 := by omega

theorem pattern_near (b : Nat) (hb : 0 < b) (hb' : b < 2047 * 2 ^ 52) (bits : Nat) (exp : ℤ) (h1 : 2 ^ 63 ≤ bits) (h2 : bits < 2 ^ 64)
    (hlo : lower b ≤ bits * (2 : ℚ) ^ (exp - 1086)) (hhi : bits * (2 : ℚ) ^ (exp - 1086) ≤ upper b) :
    -52 ≤ exp ∧ exp ≤ 2046 ∧ Near b (pattern exp bits) := by
  unfold lower at hlo
  unfold upper at hhi
  by_cases hn : b < 2 ^ 52
  · have e1 : ulpExp b = -1074 := by unfold ulpExp; omega
    have e2 : sig b = b := by unfold sig; rw [if_pos hn]
    rw [e1, e2] at hlo hhi
    have hx0 : exp ≤ 0 := by
      by_contra hc
      obtain ⟨k, hk⟩ : ∃ k : Nat, exp - 1086 = -1074 - 1 + ((k : Nat) : ℤ) - 10 := ⟨(exp - 1).toNat, by omega⟩
      have : ((bits * 2 ^ k : Nat) : ℚ) * (2 : ℚ) ^ (-1085 : ℤ) ≤ ((2 * b + 1 : Nat) : ℚ) * (2 : ℚ) ^ (-1074 - 1 : ℤ) := by
        refine le_trans (le_of_eq ?_) hhi
        rw [hk, show (-1074 - 1 + (k : ℤ) - 10) = -1085 + (k : ℤ) by ring, two_zpow_add]
        push_cast
        ring
      rw [scaled_le 10 (by norm_num)] at this
      have : bits ≤ bits * 2 ^ k := Nat.le_mul_of_pos_right _ (Nat.two_pow_pos k)
      omega
    have hx1 : -52 ≤ exp := by
      by_contra hc
      obtain ⟨k, hk⟩ : ∃ k : Nat, (-1074 - 1 : ℤ) = exp - 1086 + (k : Nat) ∧ 64 ≤ k := ⟨(11 - exp).toNat, by omega, by omega⟩
      rw [scaled_ge k hk.1] at hlo
      have : (2 : Nat) ^ 64 ≤ 2 ^ k := Nat.pow_le_pow_right (by omega) hk.2
      have : 1 * 2 ^ k ≤ (2 * b - 1) * 2 ^ k := Nat.mul_le_mul_right _ (by omega)
      omega
    refine ⟨hx1, by omega, ?_⟩
    have hk : (-1074 - 1 : ℤ) = exp - 1086 + ((11 - exp).toNat : Nat) := by omega
    rw [scaled_ge _ hk] at hlo
    rw [scaled_le _ hk] at hhi
    unfold pattern place
    rw [if_neg (by omega), show (exp - 1).toNat = 0 by omega, show (12 - exp).toNat = (11 - exp).toNat + 1 by omega]
    generalize (11 - exp).toNat = s at *
    have := rhe_near bits (s + 1) b (by rw [pow_succ]; zify [show 1 ≤ 2 * b by omega] at hlo ⊢; linarith)
      (by rw [pow_succ]; linarith)
    refine ⟨by omega, fun ha _ => ?_⟩
    rw [this.2 ha]
    omega
  · have e2 : sig b = 2 ^ 52 + b % 2 ^ 52 := by unfold sig; rw [if_neg hn]
    obtain ⟨E, hE⟩ : ∃ E : Nat, E = b / 2 ^ 52 := ⟨_, rfl⟩
    have e1 : ulpExp b = (E : ℤ) - 1075 := by unfold ulpExp; omega
    obtain ⟨f, hf⟩ : ∃ f : Nat, f = b % 2 ^ 52 := ⟨_, rfl⟩
    have hbe : b = E * 2 ^ 52 + f := by omega
    have hfl : f < 2 ^ 52 := by omega
    rw [e1, e2, ← hf] at hlo hhi
    have hx0 : exp ≤ E := by
      by_contra hc
      obtain ⟨k, hk⟩ : ∃ k : Nat, exp - 1086 = ((E : ℤ) - 1085) + (k : Nat) := ⟨(exp - E - 1).toNat, by omega⟩
      have : ((bits * 2 ^ k : Nat) : ℚ) * (2 : ℚ) ^ ((E : ℤ) - 1085) ≤ ((2 * (2 ^ 52 + f) + 1 : Nat) : ℚ) * (2 : ℚ) ^ ((E : ℤ) - 1075 - 1) := by
        refine le_trans (le_of_eq ?_) hhi
        rw [hk, two_zpow_add]
        push_cast
        ring
      rw [scaled_le 9 (by push_cast; ring)] at this
      have : bits ≤ bits * 2 ^ k := Nat.le_mul_of_pos_right _ (Nat.two_pow_pos k)
      omega
    have hx1 : (E : ℤ) - 1 ≤ exp := by
      by_contra hc
      obtain ⟨k, hk⟩ : ∃ k : Nat, ((E : ℤ) - 1075 - 1) = exp - 1086 + (k : Nat) ∧ 12 ≤ k := ⟨(10 + E - exp).toNat, by omega, by omega⟩
      rw [scaled_ge k hk.1] at hlo
      have : (2 : Nat) ^ 12 ≤ 2 ^ k := Nat.pow_le_pow_right (by omega) hk.2
      have : (2 * (2 ^ 52 + f) - 1) * 2 ^ 12 ≤ (2 * (2 ^ 52 + f) - 1) * 2 ^ k := Nat.mul_le_mul_left _ this
      omega
    refine ⟨by omega, by omega, ?_⟩
    by_cases hx : exp = E
    · subst hx
      have hk : ((E : ℤ) - 1075 - 1) = (E : ℤ) - 1086 + (10 : Nat) := by push_cast; ring
      rw [scaled_ge _ hk] at hlo
      rw [scaled_le _ hk] at hhi
      unfold pattern place
      rw [if_pos (by omega)]
      have := rhe_near bits 11 (2 ^ 52 + f) (aux_lo _ _ hlo) (aux_hi _ _ hhi)
      refine ⟨by omega, fun ha _ => ?_⟩
      rw [this.2 (by omega)]
      omega
    · have hx : exp = (E : ℤ) - 1 := by omega
      subst hx
      have hk : ((E : ℤ) - 1075 - 1) = (E : ℤ) - 1 - 1086 + (11 : Nat) := by push_cast; ring
      rw [scaled_ge _ hk] at hlo
      rw [scaled_le _ hk] at hhi
      have hf0 : f = 0 := by omega
      subst hf0
      unfold pattern place
      by_cases hE1 : E = 1
      · subst hE1
        rw [if_neg (by omega)]
        have := rhe_near bits 12 (2 ^ 52) (by omega) (by omega)
        have h := this.2 (by norm_num)
        rw [show (12 - (((1 : Nat) : ℤ) - 1)).toNat = 12 by decide, h]
        unfold Near
        omega
      · rw [if_pos (by omega)]
        have a := le_rhe bits 11 (2 ^ 53 - 1) (by omega)
        have b := rhe_le bits 11 (2 ^ 53) (by omega)
        unfold Near
        omega

/-! ### The table -/

theorem zpow_split (x : ℚ) (hx : x ≠ 0) (a : ℤ) : x ^ a = x ^ a.toNat / x ^ (-a).toNat := by
  rw [← zpow_natCast, ← zpow_natCast, ← zpow_sub₀ hx]
  congr 1
  omega

/-- An entry of the table is the least mantissa that is not less than the power of ten. -/
def getEntryOk (e : ℤ) (m : GetEntry) : Bool :=
  let num := 10 ^ e.toNat * 2 ^ (64 - m.exp2).toNat
  let den := 10 ^ (-e).toNat * 2 ^ (-(64 - m.exp2)).toNat
  decide (2 ^ 63 ≤ m.mant ∧ m.mant < 2 ^ 64 ∧ num ≤ m.mant * den ∧ (m.mant - 1) * den ≤ num)

def checkGet : ℤ → List GetEntry → Bool
  | _, [] => true
  | e, m :: l => getEntryOk e m && checkGet (e + 1) l

theorem checkGet_all : checkGet (-343) getTable = true := by decide +kernel

theorem getTable_length : getTable.length = 652 := by decide +kernel

theorem checkGet_get : ∀ (l : List GetEntry) (e : ℤ), checkGet e l = true → ∀ (i : Nat) (m : GetEntry), l[i]? = some m →
    getEntryOk (e + i) m = true := by
  intro l
  induction l with
  | nil => intro e _ i m h; simp at h
  | cons a l ih =>
    intro e hc i m h
    rw [checkGet, Bool.and_eq_true] at hc
    cases i with
    | zero =>
      simp only [List.getElem?_cons_zero, Option.some.injEq] at h
      subst h
      simpa using hc.1
    | succ i =>
      simp only [List.getElem?_cons_succ] at h
      have := ih (e + 1) hc.2 i m h
      rw [show e + 1 + (i : ℤ) = e + ((i + 1 : Nat) : ℤ) by push_cast; ring] at this
      exact this

/-- The multiplier for a power of ten, and its bounds. -/
theorem getTable_spec (e : ℤ) (h1 : -343 ≤ e) (h2 : e ≤ 308) : ∃ m, getTable[(343 + e).toNat]? = some m ∧
    2 ^ 63 ≤ m.mant ∧ m.mant < 2 ^ 64 ∧ (10 : ℚ) ^ e * (2 : ℚ) ^ (64 - m.exp2) ≤ m.mant ∧
    (m.mant : ℚ) - 1 ≤ (10 : ℚ) ^ e * (2 : ℚ) ^ (64 - m.exp2) := by
  have hl : (343 + e).toNat < getTable.length := by rw [getTable_length]; omega
  refine ⟨getTable[(343 + e).toNat], List.getElem?_eq_getElem hl, ?_⟩
  generalize hm : getTable[(343 + e).toNat] = m
  have := checkGet_get getTable (-343) checkGet_all _ m (by rw [List.getElem?_eq_getElem hl, hm])
  rw [show (-343 + ((343 + e).toNat : ℤ)) = e by omega] at this
  unfold getEntryOk at this
  simp only [decide_eq_true_eq] at this
  obtain ⟨a, b, c, d⟩ := this
  refine ⟨a, b, ?_⟩
  rw [zpow_split 10 (by norm_num), zpow_split 2 (by norm_num), div_mul_div_comm]
  have hd : (0 : ℚ) < 10 ^ (-e).toNat * 2 ^ (-(64 - m.exp2)).toNat := by positivity
  constructor
  · rw [div_le_iff₀ hd]
    exact_mod_cast c
  · rw [le_div_iff₀ hd]
    have : ((m.mant - 1 : Nat) : ℚ) = (m.mant : ℚ) - 1 := by
      rw [Nat.cast_sub (by omega)]
      norm_num
    rw [← this]
    exact_mod_cast d

/-! ### Normalization -/

theorem lzcnt_spec (x : Nat) (h1 : 0 < x) (h2 : x < 2 ^ 64) : 2 ^ 63 ≤ x * 2 ^ lzcnt x ∧ x * 2 ^ lzcnt x < 2 ^ 64 := by
  unfold lzcnt
  have hl : x.log2 < 64 := (Nat.log2_lt (by omega)).2 h2
  have a : 2 ^ x.log2 ≤ x := Nat.log2_self_le (by omega)
  have b : x < 2 ^ (x.log2 + 1) := Nat.lt_log2_self
  constructor
  · calc 2 ^ 63 = 2 ^ x.log2 * 2 ^ (63 - x.log2) := by rw [← pow_add]; congr 1; omega
      _ ≤ _ := Nat.mul_le_mul_right _ a
  · calc x * 2 ^ (63 - x.log2) < 2 ^ (x.log2 + 1) * 2 ^ (63 - x.log2) := Nat.mul_lt_mul_of_pos_right b (Nat.two_pow_pos _)
      _ = 2 ^ 64 := by rw [← pow_add]; congr 1; omega

/-- `cast_D` of a decimal number that is between the bounds of a `double`. -/
theorem castD_near (b : Nat) (hb : 0 < b) (hb' : b < 2047 * 2 ^ 52) (sign : Bool) (mant : Nat) (exp : ℤ) (h1 : 0 < mant) (h2 : mant < 2 ^ 64)
    (h3 : -343 ≤ exp) (h4 : exp ≤ 308) (hlo : lower b ≤ mant * (10 : ℚ) ^ exp) (hhi : mant * (10 : ℚ) ^ exp ≤ upper b) :
    ∃ r p, castD ⟨false, sign, 10, exp, mant, false⟩ = .ok r ∧ r.bits = (if sign then 2 ^ 63 else 0) + p ∧ Near b p := by
  obtain ⟨m, hm, g1, g2, g3, g4⟩ := getTable_spec exp h3 h4
  unfold castD
  simp only
  rw [if_neg (by omega), if_neg (by omega), if_neg (by omega), if_pos trivial, if_neg (by omega), if_neg (by omega), hm]
  simp only
  obtain ⟨n1, n2⟩ := lzcnt_spec mant h1 h2
  rw [Nat.mod_eq_of_lt n2]
  generalize hN : mant * 2 ^ lzcnt mant = N at *
  have hv : (mant : ℚ) * (10 : ℚ) ^ exp = (N : ℚ) * ((10 : ℚ) ^ exp * (2 : ℚ) ^ (64 - m.exp2)) / 2 ^ 64 *
      (2 : ℚ) ^ (m.exp2 - (lzcnt mant : ℤ)) := by
    have a : (N : ℚ) = mant * (2 : ℚ) ^ (lzcnt mant : ℤ) := by rw [← hN]; push_cast; rw [zpow_natCast]
    have c : (2 : ℚ) ^ (lzcnt mant : ℤ) * (2 : ℚ) ^ (64 - m.exp2) * (2 : ℚ) ^ (m.exp2 - (lzcnt mant : ℤ)) = 2 ^ 64 := by
      rw [← zpow_add₀ (by norm_num), ← zpow_add₀ (by norm_num), ← zpow_natCast]
      congr 1
      push_cast
      ring
    rw [a]
    calc (mant : ℚ) * 10 ^ exp = mant * 10 ^ exp * 2 ^ 64 / 2 ^ 64 := by rw [mul_div_assoc, div_self (by norm_num), mul_one]
      _ = _ := by rw [← c]; ring
  rw [hv] at hlo hhi
  generalize (10 : ℚ) ^ exp * (2 : ℚ) ^ (64 - m.exp2) = X at *
  have hN1 : (2 : ℚ) ^ 63 ≤ N := by exact_mod_cast n1
  have hN2 : (N : ℚ) < 2 ^ 64 := by exact_mod_cast n2
  have hM1 : (2 : ℚ) ^ 63 ≤ m.mant := by exact_mod_cast g1
  have hX1 : (2 : ℚ) ^ 63 - 1 ≤ X := by linarith
  have hR : (2 : ℚ) ^ 61 ≤ N * X / 2 ^ 64 := by
    rw [le_div_iff₀ (by norm_num)]
    calc (2 : ℚ) ^ 61 * 2 ^ 64 ≤ 2 ^ 63 * (2 ^ 63 - 1) := by norm_num
      _ ≤ N * X := mul_le_mul hN1 hX1 (by norm_num) (by linarith)
  -- what is between the exact product and the truncated one
  have k1 : ∀ n : Nat, (n : ℚ) ≤ N * X / 2 ^ 64 → n ≤ N * m.mant / 2 ^ 64 := by
    intro n hn
    rw [Nat.le_div_iff_mul_le (by norm_num)]
    rw [le_div_iff₀ (by norm_num)] at hn
    have : (n : ℚ) * 2 ^ 64 ≤ N * m.mant := le_trans hn (mul_le_mul_of_nonneg_left g3 (by linarith))
    exact_mod_cast this
  have k2 : ∀ n : Nat, N * X / 2 ^ 64 ≤ (n : ℚ) → N * m.mant / 2 ^ 64 ≤ n := by
    intro n hn
    rw [← Nat.lt_succ_iff, Nat.div_lt_iff_lt_mul (by norm_num)]
    rw [div_le_iff₀ (by norm_num)] at hn
    have : (N : ℚ) * m.mant < (n + 1) * 2 ^ 64 := by
      have : (N : ℚ) * (m.mant - 1) ≤ N * X := mul_le_mul_of_nonneg_left g4 (by linarith)
      linarith
    exact_mod_cast this
  have hB0 := k1 (2 ^ 61) (by push_cast; exact hR)
  have hB64 : N * m.mant / 2 ^ 64 < 2 ^ 64 := by
    rw [Nat.div_lt_iff_lt_mul (by norm_num)]
    exact Nat.mul_lt_mul'' n2 g2
  generalize N * m.mant / 2 ^ 64 = B at *
  rw [if_neg (by omega)]
  obtain ⟨q1, q2⟩ := lzcnt_spec B (by omega) hB64
  rw [Nat.mod_eq_of_lt q2]
  -- the unit of the product divides the bounds
  have hd : m.exp2 - (lzcnt mant : ℤ) < ulpExp b := by
    by_contra hc
    obtain ⟨k, hk⟩ : ∃ k : Nat, m.exp2 - (lzcnt mant : ℤ) = ulpExp b - 1 + (k : Nat) := ⟨(m.exp2 - (lzcnt mant : ℤ) - ulpExp b + 1).toNat, by omega⟩
    rw [hk, two_zpow_add] at hhi
    unfold upper at hhi
    rw [← mul_assoc] at hhi
    have := le_of_mul_le_mul_right hhi (two_zpow_pos _)
    have s1 := sig_lt b
    have s2 : ((2 * sig b + 1 : Nat) : ℚ) < 2 ^ 54 := by
      have : 2 * sig b + 1 < 2 ^ 54 := by omega
      exact_mod_cast this
    have s3 : (1 : ℚ) ≤ 2 ^ k := one_le_pow₀ (by norm_num)
    have s4 : (2 : ℚ) ^ 61 * 1 ≤ N * X / 2 ^ 64 * 2 ^ k := mul_le_mul hR s3 (by norm_num) (by linarith)
    linarith
  obtain ⟨k, hk⟩ : ∃ k : Nat, ulpExp b - 1 = m.exp2 - (lzcnt mant : ℤ) + (k : Nat) := ⟨(ulpExp b - 1 - (m.exp2 - (lzcnt mant : ℤ))).toNat, by omega⟩
  have hlo' : (2 * sig b - 1) * 2 ^ k ≤ B := by
    apply k1
    unfold lower at hlo
    rw [hk, two_zpow_add, ← mul_assoc] at hlo
    push_cast at hlo ⊢
    exact le_of_mul_le_mul_right hlo (two_zpow_pos _)
  have hhi' : B ≤ (2 * sig b + 1) * 2 ^ k := by
    apply k2
    unfold upper at hhi
    rw [hk, two_zpow_add, ← mul_assoc] at hhi
    push_cast at hhi ⊢
    exact le_of_mul_le_mul_right hhi (two_zpow_pos _)
  have hw : ((B * 2 ^ lzcnt B : Nat) : ℚ) * (2 : ℚ) ^ ((m.exp2 - ((lzcnt mant + lzcnt B : Nat) : ℤ) + 1086) - 1086) =
      B * (2 : ℚ) ^ (m.exp2 - (lzcnt mant : ℤ)) := by
    rw [show m.exp2 - (lzcnt mant : ℤ) = ((m.exp2 - ((lzcnt mant + lzcnt B : Nat) : ℤ) + 1086) - 1086) + ((lzcnt B : Nat) : ℤ) by push_cast; ring,
      two_zpow_add]
    push_cast
    ring
  have := pattern_near b hb hb' (B * 2 ^ lzcnt B) (m.exp2 - ((lzcnt mant + lzcnt B : Nat) : ℤ) + 1086) q1 q2
    (by rw [hw]; unfold lower; exact (scaled_ge k hk).2 hlo') (by rw [hw]; unfold upper; exact (scaled_le k hk).2 hhi')
  obtain ⟨r, hr1, hr2⟩ := compose_eq (if sign then 2 ^ 63 else 0) (by cases sign <;> simp) _ _ q1 q2 this.1 this.2.1
  exact ⟨r, _, hr1, hr2, this.2.2⟩

end Asteria.RealText
