import Verif.Proof.RealCast

/-!
# How accurate the conversion of real numbers is
-/

namespace Asteria.RealText

open NumText (NumGet)

/-! ### Values -/

theorem value_lin (e q : Nat) (he : 1 ≤ e) (hq : q ≤ 2 ^ 53) (h : e = 1 ∨ 2 ^ 52 ≤ q) :
    value ((e - 1) * 2 ^ 52 + q) = q * (2 : ℚ) ^ ((e : ℤ) - 1075) := by
  unfold value
  rcases Nat.lt_or_ge q (2 ^ 52) with h1 | h1
  · have : e = 1 := by omega
    subst this
    have a : sig ((1 - 1) * 2 ^ 52 + q) = q := by unfold sig; rw [if_pos (by omega)]; omega
    have b : ulpExp ((1 - 1) * 2 ^ 52 + q) = ((1 : Nat) : ℤ) - 1075 := by unfold ulpExp; omega
    rw [a, b]
  · rcases Nat.lt_or_ge q (2 ^ 53) with h2 | h2
    · have a : sig ((e - 1) * 2 ^ 52 + q) = q := by unfold sig; rw [if_neg (by omega)]; omega
      have b : ulpExp ((e - 1) * 2 ^ 52 + q) = (e : ℤ) - 1075 := by unfold ulpExp; omega
      rw [a, b]
    · have : q = 2 ^ 53 := by omega
      subst this
      have a : sig ((e - 1) * 2 ^ 52 + 2 ^ 53) = 2 ^ 52 := by unfold sig; rw [if_neg (by omega)]; omega
      have b : ulpExp ((e - 1) * 2 ^ 52 + 2 ^ 53) = (e : ℤ) - 1075 + ((1 : Nat) : ℤ) := by unfold ulpExp; omega
      rw [a, b, two_zpow_add]
      push_cast
      ring

/-- The values next to a number. -/
theorem value_next (e q : Nat) (he : 1 ≤ e) (hq : q ≤ 2 ^ 53) (h : e = 1 ∨ 2 ^ 52 ≤ q) :
    (q + 1) * (2 : ℚ) ^ ((e : ℤ) - 1075) ≤ value ((e - 1) * 2 ^ 52 + q + 1) := by
  rcases Nat.lt_or_ge q (2 ^ 53) with h1 | h1
  · have := value_lin e (q + 1) he (by omega) (by omega)
    rw [Nat.add_assoc, this]
    push_cast
    exact le_refl _
  · have : q = 2 ^ 53 := by omega
    subst this
    have := value_lin (e + 1) (2 ^ 52 + 1) (by omega) (by omega) (by omega)
    rw [show (e - 1) * 2 ^ 52 + 2 ^ 53 + 1 = (e + 1 - 1) * 2 ^ 52 + (2 ^ 52 + 1) by omega, this,
      show ((e + 1 : Nat) : ℤ) - 1075 = (e : ℤ) - 1075 + ((1 : Nat) : ℤ) by push_cast; ring, two_zpow_add]
    have := two_zpow_pos ((e : ℤ) - 1075)
    push_cast
    linarith

theorem value_lt_next (b : Nat) : value b < value (b + 1) := by
  obtain ⟨e, q, rfl, he, hq, h⟩ : ∃ e q, b = (e - 1) * 2 ^ 52 + q ∧ 1 ≤ e ∧ q ≤ 2 ^ 53 ∧ (e = 1 ∨ 2 ^ 52 ≤ q) := by
    rcases Nat.lt_or_ge b (2 ^ 52) with h | h
    · exact ⟨1, b, by omega, by omega, by omega, .inl rfl⟩
    · exact ⟨b / 2 ^ 52, 2 ^ 52 + b % 2 ^ 52, by omega, by omega, by omega, .inr (by omega)⟩
  rw [value_lin e q he hq h]
  refine lt_of_lt_of_le ?_ (value_next e q he hq h)
  have := two_zpow_pos ((e : ℤ) - 1075)
  linarith

theorem value_prev (e q : Nat) (he : 1 ≤ e) (hq : q ≤ 2 ^ 53) (h0 : 1 ≤ q) (h : e = 1 ∨ 2 ^ 52 ≤ q) :
    ((e = 1 ∨ 2 ^ 52 < q) ∧ value ((e - 1) * 2 ^ 52 + q - 1) = (q - 1) * (2 : ℚ) ^ ((e : ℤ) - 1075)) ∨
    (2 ≤ e ∧ q = 2 ^ 52 ∧ value ((e - 1) * 2 ^ 52 + q - 1) = (q - 1 / 2) * (2 : ℚ) ^ ((e : ℤ) - 1075)) := by
  by_cases h1 : e = 1 ∨ 2 ^ 52 < q
  · left
    refine ⟨h1, ?_⟩
    have := value_lin e (q - 1) he (by omega) (by omega)
    rw [show (e - 1) * 2 ^ 52 + q - 1 = (e - 1) * 2 ^ 52 + (q - 1) by omega, this, Nat.cast_sub h0]
    norm_num
  · right
    have hq' : q = 2 ^ 52 := by omega
    subst hq'
    refine ⟨by omega, rfl, ?_⟩
    have := value_lin (e - 1) (2 ^ 53 - 1) (by omega) (by omega) (by omega)
    rw [show (e - 1) * 2 ^ 52 + 2 ^ 52 - 1 = (e - 1 - 1) * 2 ^ 52 + (2 ^ 53 - 1) by omega, this,
      show (e : ℤ) - 1075 = ((e - 1 : Nat) : ℤ) - 1075 + ((1 : Nat) : ℤ) by omega, two_zpow_add]
    push_cast
    ring

theorem nearly_of (e q : Nat) (v : ℚ) (he : 1 ≤ e) (hq : q ≤ 2 ^ 53) (h0 : 1 ≤ q) (h : e = 1 ∨ 2 ^ 52 ≤ q)
    (h1 : (q - 51 / 100) * (2 : ℚ) ^ ((e : ℤ) - 1075) ≤ v) (h2 : v ≤ (q + 51 / 100) * (2 : ℚ) ^ ((e : ℤ) - 1075))
    (h3 : q = 2 ^ 52 → 2 ≤ e → (q - 51 / 200) * (2 : ℚ) ^ ((e : ℤ) - 1075) ≤ v) : Nearly v ((e - 1) * 2 ^ 52 + q) := by
  have a := value_lin e q he hq h
  have b := value_next e q he hq h
  have hu := two_zpow_pos ((e : ℤ) - 1075)
  constructor
  · rw [a]
    rcases value_prev e q he hq h0 h with ⟨_, c⟩ | ⟨c1, c2, c3⟩
    · rw [c]; linarith
    · rw [c3]; have := h3 c2 c1; linarith
  · rw [a]
    generalize value ((e - 1) * 2 ^ 52 + q + 1) = w at b ⊢
    nlinarith

/-! ### Rounding -/

theorem rounded (bits s m : Nat) (hs : s ≤ 63) (hm : m ≤ 1) :
    ∃ q, bits / 2 ^ s + carry (2 ^ s) (2 * (bits % 2 ^ s) + m) (bits / 2 ^ s) = q ∧
      2 * q * 2 ^ s ≤ 2 * bits + m + 2 ^ s ∧ 2 * bits + m ≤ 2 * q * 2 ^ s + 2 ^ s ∧
      (∀ c, c * 2 ^ s ≤ bits → c ≤ q) ∧ (∀ c, bits < c * 2 ^ s → q ≤ c) ∧
      (q % 2 = 1 → 2 * q * 2 ^ s ≠ 2 * bits + m + 2 ^ s ∧ 2 * bits + m ≠ 2 * q * 2 ^ s + 2 ^ s) := by
  have h1 : 2 ^ s ≤ 2 ^ 63 := Nat.pow_le_pow_right (by omega) hs
  have hp : 0 < 2 ^ s := Nat.two_pow_pos s
  have hd := Nat.div_add_mod bits (2 ^ s)
  have hr := Nat.mod_lt bits hp
  refine ⟨_, rfl, ?_⟩
  have hdiv : ∀ c, c * 2 ^ s ≤ bits → c ≤ bits / 2 ^ s := fun c h => (Nat.le_div_iff_mul_le hp).2 h
  have hdiv' : ∀ c, bits < c * 2 ^ s → bits / 2 ^ s < c := fun c h => (Nat.div_lt_iff_lt_mul hp).2 h
  rw [carry_eq _ _ _ hp h1 (by omega)]
  generalize bits / 2 ^ s = d at *
  generalize bits % 2 ^ s = r at *
  generalize 2 ^ s = p at *
  have e0 : 2 * d * p = 2 * (p * d) := by ring
  have e1 : 2 * (d + 1) * p = 2 * (p * d) + 2 * p := by ring
  split
  · rename_i hc
    refine ⟨?_, ?_, ?_, ?_, ?_⟩
    · rw [e1]; omega
    · rw [e1]; omega
    · intro c h; have := hdiv c h; omega
    · intro c h; have := hdiv' c h; omega
    · intro ho; rw [e1]; omega
  · rename_i hc
    rw [Nat.add_zero]
    refine ⟨?_, ?_, ?_, ?_, ?_⟩
    · rw [e0]; omega
    · rw [e0]; omega
    · intro c h; have := hdiv c h; omega
    · intro c h; have := hdiv' c h; omega
    · intro ho; rw [e0]; omega

/-- What is known of a result: it is `r`, for the number `v`. -/
structure Accurate (sign : Nat) (v : ℚ) (r : RealCast) : Prop where
  over : r.ovfl = true → maximum < v
  under : r.udfl = true → v < minimum
  near : r.ovfl = false → r.udfl = false → ∃ b, 0 < b ∧ b < 2047 * 2 ^ 52 ∧ r.bits = sign + b ∧ Nearly v b

/-- `compose`, of a number that is about `bits * 2 ^ (exp - 1086)`. -/
theorem compose_accurate (sign : Nat) (hsign : sign = 0 ∨ sign = 2 ^ 63) (exp : ℤ) (bits : Nat) (more : Bool) (v : ℚ) (h1 : 2 ^ 63 ≤ bits)
    (h2 : bits < 2 ^ 64) (hlo : ((bits : ℚ) - 16) * (2 : ℚ) ^ (exp - 1086) ≤ v) (hhi : v ≤ ((bits : ℚ) + 16) * (2 : ℚ) ^ (exp - 1086)) :
    ∃ r, compose sign exp bits more = .ok r ∧ Accurate sign v r := by
  have hu := two_zpow_pos (exp - 1086)
  obtain ⟨m, hm⟩ : ∃ m : Nat, (if more = true then 1 else 0) = m := ⟨_, rfl⟩
  have hm1 : m ≤ 1 := by rw [← hm]; split <;> omega
  have hmq : (m : ℚ) ≤ 1 := by exact_mod_cast hm1
  have hm0 : (0 : ℚ) ≤ m := by positivity
  unfold compose
  simp only [hm]
  by_cases he : exp ≥ 1
  · rw [if_pos he]
    obtain ⟨q, hq, q1, q2, q3, q4, _⟩ := rounded bits 11 m (by decide) hm1
    rw [hq]
    have q3 : 2 ^ 52 ≤ q := q3 _ (Nat.le_trans (by norm_num) h1)
    have q4 : q ≤ 2 ^ 53 := q4 _ (Nat.lt_of_lt_of_le h2 (by norm_num))
    obtain ⟨e, rfl⟩ : ∃ e : Nat, exp = e := ⟨exp.toNat, by omega⟩
    have hu' : (2 : ℚ) ^ ((e : ℤ) - 1075) = 2 ^ 11 * (2 : ℚ) ^ ((e : ℤ) - 1086) := by
      rw [← two_zpow_add]; congr 1; push_cast; ring
    have q1' : 2 * (q : ℚ) * 2 ^ 11 ≤ 2 * bits + m + 2 ^ 11 := by exact_mod_cast q1
    have q2' : 2 * (bits : ℚ) + m ≤ 2 * q * 2 ^ 11 + 2 ^ 11 := by exact_mod_cast q2
    by_cases hov : (e : ℤ) + ((q / 2 ^ 53 % 2 : Nat) : ℤ) > 2046
    · rw [if_pos hov]
      refine ⟨_, rfl, fun _ => ?_, nofun, nofun⟩
      unfold maximum
      refine lt_of_lt_of_le ?_ hlo
      rcases Nat.lt_or_ge e 2047 with h | h
      · have e1 : e = 2046 := by omega
        have e2 : q = 2 ^ 53 := by omega
        subst e1
        subst e2
        have : ((2 : ℚ) ^ 53 - 1) * 2 ^ 11 < bits - 16 := by
          rw [show (((2 ^ 53 : Nat)) : ℚ) = 9007199254740992 by norm_num] at q1'
          linarith
        calc ((2 : ℚ) ^ 53 - 1) * 2 ^ (971 : ℤ) = ((2 : ℚ) ^ 53 - 1) * 2 ^ 11 * (2 : ℚ) ^ (((2046 : Nat) : ℤ) - 1086) := by
              rw [show (971 : ℤ) = (((2046 : Nat) : ℤ) - 1086) + ((11 : Nat) : ℤ) by norm_num, two_zpow_add]; ring
          _ < _ := mul_lt_mul_of_pos_right this hu
      · obtain ⟨k, rfl⟩ : ∃ k, e = 2047 + k := ⟨e - 2047, by omega⟩
        have h63 : (2 : ℚ) ^ 63 ≤ bits := by exact_mod_cast h1
        have hk : (1 : ℚ) ≤ 2 ^ k := one_le_pow₀ (by norm_num)
        have : (2 : ℚ) ^ (((2047 + k : Nat) : ℤ) - 1086) = 2 ^ k * (2 : ℚ) ^ (961 : ℤ) := by
          rw [← two_zpow_add]; congr 1; push_cast; ring
        rw [this, show (971 : ℤ) = 961 + ((10 : Nat) : ℤ) by norm_num, two_zpow_add]
        have h961 := two_zpow_pos 961
        have : ((2 : ℚ) ^ 53 - 1) * 2 ^ 10 < ((bits : ℚ) - 16) * 2 ^ k := by
          calc ((2 : ℚ) ^ 53 - 1) * 2 ^ 10 < (2 ^ 63 - 16) * 1 := by norm_num
            _ ≤ _ := mul_le_mul (by linarith) hk (by norm_num) (by linarith)
        rw [← mul_assoc, ← mul_assoc]
        exact mul_lt_mul_of_pos_right this h961
    · rw [if_neg hov]
      have hpat : finish sign ((e : ℤ) + ((q / 2 ^ 53 % 2 : Nat) : ℤ)) (q / 2 ^ (q / 2 ^ 53 % 2) % 2 ^ 52) (more || decide (bits % 2 ^ 11 > 0 ∧ bits % 2 ^ 11 < 2 ^ 11 - 1)) =
          .ok ⟨sign + ((e - 1) * 2 ^ 52 + q), false, false, (more || decide (bits % 2 ^ 11 > 0 ∧ bits % 2 ^ 11 < 2 ^ 11 - 1))⟩ := by
        by_cases hr : q = 2 ^ 53
        · subst hr
          rw [show (2 ^ 53 / 2 ^ 53 % 2 : Nat) = 1 from rfl] at hov ⊢
          rw [finish_eq sign hsign _ _ _ ((e - 1) * 2 ^ 52 + 2 ^ 53) (by omega) (by omega) (by omega) (by omega)]
        · rw [show q / 2 ^ 53 % 2 = 0 by omega] at hov ⊢
          rw [finish_eq sign hsign _ _ _ ((e - 1) * 2 ^ 52 + q) (by rw [pow_zero, Nat.div_one]; omega) (by omega) (by omega) (by omega)]
      rw [hpat]
      refine ⟨_, rfl, nofun, nofun, fun _ _ => ⟨_, ?_, ?_, rfl, ?_⟩⟩
      · omega
      · rcases Nat.lt_or_ge q (2 ^ 53) with h | h
        · have : e ≤ 2046 := by omega
          omega
        · have : q = 2 ^ 53 := by omega
          subst this
          rw [show (2 ^ 53 / 2 ^ 53 % 2 : Nat) = 1 from rfl] at hov
          omega
      · refine nearly_of e q v (by omega) q4 (by omega) (.inr q3) ?_ ?_ ?_
        · rw [hu', ← mul_assoc]
          refine le_trans (mul_le_mul_of_nonneg_right ?_ hu.le) hlo
          linarith
        · rw [hu', ← mul_assoc]
          refine le_trans hhi (mul_le_mul_of_nonneg_right ?_ hu.le)
          linarith
        · intro hq2 _
          rw [hu', ← mul_assoc]
          refine le_trans (mul_le_mul_of_nonneg_right ?_ hu.le) hlo
          subst hq2
          have h63 : (2 : ℚ) ^ 63 ≤ bits := by exact_mod_cast h1
          push_cast
          linarith
  · rw [if_neg he]
    by_cases he2 : exp ≥ -51
    · rw [if_pos he2]
      generalize hs : (12 - exp).toNat = s
      have hs1 : 12 ≤ s := by omega
      have hs2 : s ≤ 63 := by omega
      have hp := Nat.two_pow_pos s
      have hple : 2 ^ s ≤ 2 ^ 63 := Nat.pow_le_pow_right (by omega) hs2
      have hpge : 2 ^ 12 ≤ 2 ^ s := Nat.pow_le_pow_right (by omega) hs1
      have hml := Nat.mod_lt bits hp
      rw [show (2 * (bits % 2 ^ s) + m) % 2 ^ 64 = 2 * (bits % 2 ^ s) + m from Nat.mod_eq_of_lt (by omega)]
      obtain ⟨q, hq, q1, q2, q3, q4, _⟩ := rounded bits s m hs2 hm1
      rw [hq]
      have q3 := q3 1 (by omega)
      have q5 := q4 (2 ^ 52) (by omega)
      have q6 : exp < 0 → q ≤ 2 ^ 51 := by
        intro hneg
        apply q4
        have : (2 : Nat) ^ 13 ≤ 2 ^ s := Nat.pow_le_pow_right (by omega) (by omega)
        omega
      have hpat : ∀ i, finish sign (exp + ((q / 2 ^ 52 % 2 : Nat) : ℤ)) (q / 2 ^ (if exp + ((q / 2 ^ 52 % 2 : Nat) : ℤ) < 0 then q / 2 ^ 52 % 2 else 0) % 2 ^ 52) i =
          .ok ⟨sign + q, false, false, i⟩ := by
        intro i
        by_cases hr : q = 2 ^ 52
        · have h0 : exp = 0 := by
            by_contra hne
            have := q6 (by omega)
            omega
          subst h0
          subst hr
          rw [show (2 ^ 52 / 2 ^ 52 % 2 : Nat) = 1 from by decide, if_neg (by decide)]
          rw [finish_eq sign hsign _ _ _ (2 ^ 52) (by decide) (by decide) (by decide) (by decide)]
        · rw [show q / 2 ^ 52 % 2 = 0 by omega, ite_self, pow_zero, Nat.div_one]
          rw [finish_eq sign hsign _ _ _ q (by omega) (by omega) (by omega) (by omega)]
      rw [hpat]
      have hu' : (2 : ℚ) ^ (((1 : Nat) : ℤ) - 1075) = 2 ^ s * (2 : ℚ) ^ (exp - 1086) := by
        rw [← two_zpow_add]; congr 1; push_cast; omega
      have hsq : (2 : ℚ) ^ 12 ≤ 2 ^ s := by exact_mod_cast hpge
      have q1' : 2 * (q : ℚ) * 2 ^ s ≤ 2 * bits + m + 2 ^ s := by exact_mod_cast q1
      have q2' : 2 * (bits : ℚ) + m ≤ 2 * q * 2 ^ s + 2 ^ s := by exact_mod_cast q2
      refine ⟨_, rfl, nofun, nofun, fun _ _ => ⟨q, by omega, by omega, rfl, ?_⟩⟩
      have := nearly_of 1 q v (by omega) (by omega) q3 (.inl rfl) ?_ ?_ (by omega)
      · simpa using this
      · rw [hu', ← mul_assoc]
        refine le_trans (mul_le_mul_of_nonneg_right ?_ hu.le) hlo
        linarith
      · rw [hu', ← mul_assoc]
        refine le_trans hhi (mul_le_mul_of_nonneg_right ?_ hu.le)
        linarith
    · rw [if_neg he2]
      have hb64 : (bits : ℚ) + 1 ≤ 2 ^ 64 := by exact_mod_cast h2
      by_cases he3 : exp = -52
      · rw [if_pos he3]
        subst he3
        have hu' : (2 : ℚ) ^ (-1074 : ℤ) = 2 ^ 64 * (2 : ℚ) ^ (-52 - 1086 : ℤ) := by
          rw [← two_zpow_add]; norm_num
        by_cases hb : bits ≤ 0x8000000000000000
        · rw [if_pos hb]
          refine ⟨_, rfl, nofun, fun _ => ?_, nofun⟩
          unfold minimum
          refine lt_of_le_of_lt hhi ?_
          rw [hu']
          refine mul_lt_mul_of_pos_right ?_ hu
          have : (bits : ℚ) ≤ 0x8000000000000000 := by exact_mod_cast hb
          linarith
        · rw [if_neg hb, finish_eq sign hsign _ _ _ 1 (by decide) (by decide) (by decide) (by decide)]
          refine ⟨_, rfl, nofun, nofun, fun _ _ => ⟨1, by decide, by decide, rfl, ?_⟩⟩
          have := nearly_of 1 1 v (by decide) (by decide) (by decide) (.inl rfl) ?_ ?_ (by omega)
          · simpa using this
          · rw [show ((1 : Nat) : ℤ) - 1075 = -1074 by norm_num, hu', ← mul_assoc]
            refine le_trans (mul_le_mul_of_nonneg_right ?_ hu.le) hlo
            have : (0x8000000000000000 : ℚ) < bits := by exact_mod_cast Nat.lt_of_not_le hb
            push_cast
            linarith
          · rw [show ((1 : Nat) : ℤ) - 1075 = -1074 by norm_num, hu', ← mul_assoc]
            refine le_trans hhi (mul_le_mul_of_nonneg_right ?_ hu.le)
            push_cast
            linarith
      · rw [if_neg he3]
        refine ⟨_, rfl, nofun, fun _ => ?_, nofun⟩
        unfold minimum
        refine lt_of_le_of_lt hhi ?_
        obtain ⟨k, hk⟩ : ∃ k : Nat, (-1074 : ℤ) = exp - 1086 + ((65 + k : Nat) : ℤ) := ⟨(-53 - exp).toNat, by omega⟩
        rw [hk, two_zpow_add]
        refine mul_lt_mul_of_pos_right ?_ hu
        have : (1 : ℚ) ≤ 2 ^ k := one_le_pow₀ (by norm_num)
        rw [pow_add]
        linarith

/-! ### The whole conversion -/

/-- What `castD` is given, for the number `v`: digits that are not in `mant` make it greater, and there may be such only if `mant`
is long. -/
structure Given (g : NumGet) (v : ℚ) : Prop where
  base : g.base = 10 ∨ g.base = 2
  lt : g.mant < 2 ^ 64
  lower : (g.mant : ℚ) * (g.base : ℚ) ^ g.exp ≤ v
  upper : v ≤ ((g.mant : ℚ) + 1) * (g.base : ℚ) ^ g.exp
  exact : g.more = false → v = (g.mant : ℚ) * (g.base : ℚ) ^ g.exp
  long : g.more = true → 2 ^ 64 ≤ g.mant * 10 + 9 ∨ g.base = 2 ∧ 2 ^ 60 ≤ g.mant

theorem table_spec (mant : Nat) (exp : ℤ) (h1 : 0 < mant) (h2 : mant < 2 ^ 64) (h3 : -343 ≤ exp) (h4 : exp ≤ 308) :
    ∃ m, getTable[(343 + exp).toNat]? = some m ∧ ∃ B, mant * 2 ^ lzcnt mant % 2 ^ 64 * m.mant / 2 ^ 64 = B ∧ 2 ^ 61 ≤ B ∧ B < 2 ^ 64 ∧
      ((B : ℚ) - 1) * (2 : ℚ) ^ (m.exp2 - (lzcnt mant : ℤ)) ≤ mant * (10 : ℚ) ^ exp ∧
      mant * (10 : ℚ) ^ exp ≤ ((B : ℚ) + 1) * (2 : ℚ) ^ (m.exp2 - (lzcnt mant : ℤ)) := by
  obtain ⟨m, hm, g1, g2, g3, g4⟩ := getTable_spec exp h3 h4
  refine ⟨m, hm, _, rfl, ?_⟩
  obtain ⟨n1, n2⟩ := lzcnt_spec mant h1 h2
  rw [Nat.mod_eq_of_lt n2]
  generalize hN : mant * 2 ^ lzcnt mant = N at *
  have hv : (mant : ℚ) * (10 : ℚ) ^ exp = (N : ℚ) * ((10 : ℚ) ^ exp * (2 : ℚ) ^ (64 - m.exp2)) / 2 ^ 64 *
      (2 : ℚ) ^ (m.exp2 - (lzcnt mant : ℤ)) := by
    have a : (N : ℚ) = mant * (2 : ℚ) ^ (lzcnt mant : ℤ) := by rw [← hN]; push_cast; rw [zpow_natCast]
    have c : (2 : ℚ) ^ (lzcnt mant : ℤ) * (2 : ℚ) ^ (64 - m.exp2) * (2 : ℚ) ^ (m.exp2 - (lzcnt mant : ℤ)) = 2 ^ 64 := by
      rw [← zpow_add₀ (by norm_num), ← zpow_add₀ (by norm_num), ← zpow_natCast]
      congr 1
      push_cast
      ring
    rw [a]
    calc (mant : ℚ) * 10 ^ exp = mant * 10 ^ exp * 2 ^ 64 / 2 ^ 64 := by rw [mul_div_assoc, div_self (by norm_num), mul_one]
      _ = _ := by rw [← c]; ring
  rw [hv]
  have hu := two_zpow_pos (m.exp2 - (lzcnt mant : ℤ))
  generalize (10 : ℚ) ^ exp * (2 : ℚ) ^ (64 - m.exp2) = X at *
  have hN1 : (2 : ℚ) ^ 63 ≤ N := by exact_mod_cast n1
  have hN2 : (N : ℚ) < 2 ^ 64 := by exact_mod_cast n2
  have hM1 : (2 : ℚ) ^ 63 ≤ m.mant := by exact_mod_cast g1
  have hX1 : (2 : ℚ) ^ 63 - 1 ≤ X := by linarith
  have hB1 : 2 ^ 64 * (N * m.mant / 2 ^ 64) ≤ N * m.mant := Nat.mul_div_le _ _
  have hB2 : N * m.mant < 2 ^ 64 * (N * m.mant / 2 ^ 64) + 2 ^ 64 := by
    have := Nat.div_add_mod (N * m.mant) (2 ^ 64)
    have := Nat.mod_lt (N * m.mant) (show 0 < 2 ^ 64 by decide)
    omega
  have hB61 : 2 ^ 61 ≤ N * m.mant / 2 ^ 64 := by
    rw [Nat.le_div_iff_mul_le (by norm_num)]
    calc 2 ^ 61 * 2 ^ 64 ≤ 2 ^ 63 * 2 ^ 63 := by norm_num
      _ ≤ N * m.mant := Nat.mul_le_mul n1 g1
  have hB64 : N * m.mant / 2 ^ 64 < 2 ^ 64 := by
    rw [Nat.div_lt_iff_lt_mul (by norm_num)]
    exact Nat.mul_lt_mul'' n2 g2
  generalize N * m.mant / 2 ^ 64 = B at *
  have hB1' : 2 ^ 64 * (B : ℚ) ≤ N * m.mant := by exact_mod_cast hB1
  have hB2' : (N : ℚ) * m.mant < 2 ^ 64 * B + 2 ^ 64 := by exact_mod_cast hB2
  have t1 : (N : ℚ) * X ≤ N * m.mant := mul_le_mul_of_nonneg_left g3 (by linarith)
  have t2 : (N : ℚ) * (m.mant - 1) ≤ N * X := mul_le_mul_of_nonneg_left g4 (by linarith)
  refine ⟨hB61, hB64, mul_le_mul_of_nonneg_right ?_ hu.le, mul_le_mul_of_nonneg_right ?_ hu.le⟩
  · rw [le_div_iff₀ (by norm_num)]; linarith
  · rw [div_le_iff₀ (by norm_num)]; linarith

theorem big344 : 2 ^ 64 * 2 ^ 1074 < 10 ^ 344 := by decide +kernel

theorem big309 : 2 ^ 1024 ≤ 10 ^ 309 := by decide +kernel

theorem castD_accurate (g : NumGet) (v : ℚ) (h : Given g v) (h0 : 0 < g.mant) :
    ∃ r, castD g = .ok r ∧ Accurate (if g.sign then 2 ^ 63 else 0) v r := by
  obtain ⟨cls, sign, base, exp, mant, more⟩ := g
  obtain ⟨hb, hlt, hlo, hhi, hex, hlong⟩ := h
  simp only at hb hlt hlo hhi hex hlong h0
  have hm1 : (1 : ℚ) ≤ mant := by exact_mod_cast h0
  have hm2 : (mant : ℚ) + 1 ≤ 2 ^ 64 := by exact_mod_cast hlt
  have hb2 : (2 : ℚ) ≤ base := by rcases hb with rfl | rfl <;> norm_num
  have hbase0 : (0 : ℚ) < base := by linarith
  have hp : (0 : ℚ) < (base : ℚ) ^ exp := zpow_pos hbase0 _
  have hsign : (if sign = true then 2 ^ 63 else 0) = 0 ∨ (if sign = true then 2 ^ 63 else 0) = 2 ^ 63 := by split <;> simp
  unfold castD
  simp only
  generalize (if sign = true then 2 ^ 63 else 0) = sg at hsign ⊢
  -- very small and very large numbers
  have small : ∀ c : Nat, exp ≤ -(c : ℤ) → (2 : ℚ) ^ 64 * 2 ^ 1074 < (base : ℚ) ^ c → v < minimum := by
    intro c hc hbig
    unfold minimum
    refine lt_of_le_of_lt hhi ?_
    have k1 : (base : ℚ) ^ exp ≤ (base : ℚ) ^ (-(c : ℤ)) := zpow_le_zpow_right₀ (by linarith) hc
    rw [zpow_neg, zpow_natCast] at k1
    have hc0 : (0 : ℚ) < (base : ℚ) ^ c := by positivity
    rw [show (-1074 : ℤ) = -((1074 : Nat) : ℤ) by norm_num, zpow_neg, zpow_natCast]
    calc ((mant : ℚ) + 1) * (base : ℚ) ^ exp ≤ 2 ^ 64 * ((base : ℚ) ^ c)⁻¹ := mul_le_mul hm2 k1 hp.le (by norm_num)
      _ < (2 ^ 1074)⁻¹ := by
        rw [← div_eq_mul_inv, div_lt_iff₀ hc0, inv_mul_eq_div, lt_div_iff₀ (by positivity)]
        exact hbig
  have large : ∀ c : Nat, (c : ℤ) ≤ exp → (2 : ℚ) ^ 1024 ≤ (base : ℚ) ^ c → maximum < v := by
    intro c hc hbig
    unfold maximum
    refine lt_of_lt_of_le ?_ hlo
    have k1 : (base : ℚ) ^ (c : ℤ) ≤ (base : ℚ) ^ exp := zpow_le_zpow_right₀ (by linarith) hc
    rw [zpow_natCast] at k1
    calc ((2 : ℚ) ^ 53 - 1) * 2 ^ (971 : ℤ) < 2 ^ 1024 := by
          rw [show (971 : ℤ) = ((971 : Nat) : ℤ) by norm_num, zpow_natCast, show (1024 : Nat) = 53 + 971 from rfl, pow_add]
          exact mul_lt_mul_of_pos_right (by norm_num) (by positivity)
      _ ≤ 1 * (base : ℚ) ^ exp := by linarith
      _ ≤ _ := mul_le_mul_of_nonneg_right hm1 hp.le
  rw [if_neg (by omega)]
  by_cases he1 : exp < -10000
  · rw [if_pos he1]
    refine ⟨_, rfl, nofun, fun _ => small 10000 (by omega) ?_, nofun⟩
    calc (2 : ℚ) ^ 64 * 2 ^ 1074 < 2 ^ 10000 := by rw [← pow_add]; exact pow_lt_pow_right₀ (by norm_num) (by norm_num)
      _ ≤ _ := pow_le_pow_left₀ (by norm_num) hb2 _
  · rw [if_neg he1]
    by_cases he2 : exp > 10000
    · rw [if_pos he2]
      refine ⟨_, rfl, fun _ => large 10000 (by omega) ?_, nofun, nofun⟩
      calc (2 : ℚ) ^ 1024 ≤ 2 ^ 10000 := pow_le_pow_right₀ (by norm_num) (by norm_num)
        _ ≤ _ := pow_le_pow_left₀ (by norm_num) hb2 _
    · rw [if_neg he2]
      rcases hb with rfl | rfl
      · rw [if_pos rfl]
        push_cast at hlo hhi hex
        by_cases he3 : exp < -343
        · rw [if_pos he3]
          refine ⟨_, rfl, nofun, fun _ => small 344 (by omega) (by exact_mod_cast big344), nofun⟩
        · rw [if_neg he3]
          by_cases he4 : exp > 308
          · rw [if_pos he4]
            exact ⟨_, rfl, fun _ => large 309 (by omega) (by exact_mod_cast big309), nofun, nofun⟩
          · rw [if_neg he4]
            obtain ⟨m, hm, B, hB, b1, b2, b3, b4⟩ := table_spec mant exp h0 hlt (by omega) (by omega)
            rw [hm]
            simp only
            rw [hB, if_neg (by omega)]
            obtain ⟨n1, n2⟩ := lzcnt_spec B (by omega) b2
            rw [Nat.mod_eq_of_lt n2]
            have hz : lzcnt B ≤ 2 := by
              by_contra hne
              have : 2 ^ 61 * 2 ^ 3 ≤ B * 2 ^ lzcnt B := Nat.mul_le_mul b1 (Nat.pow_le_pow_right (by omega) (by omega))
              omega
            have hz4 : (2 : ℚ) ^ lzcnt B ≤ 4 := by
              calc (2 : ℚ) ^ lzcnt B ≤ 2 ^ 2 := pow_le_pow_right₀ (by norm_num) hz
                _ = 4 := by norm_num
            have hu : (2 : ℚ) ^ (m.exp2 - (lzcnt mant : ℤ)) = 2 ^ lzcnt B *
                (2 : ℚ) ^ (m.exp2 - ((lzcnt mant + lzcnt B : Nat) : ℤ) + 1086 - 1086) := by
              rw [← two_zpow_add]; congr 1; push_cast; ring
            have hu0 := two_zpow_pos (m.exp2 - ((lzcnt mant + lzcnt B : Nat) : ℤ) + 1086 - 1086)
            rw [hu] at b3 b4
            have n2' : (B : ℚ) * 2 ^ lzcnt B < 2 ^ 64 := by exact_mod_cast n2
            refine compose_accurate sg hsign _ _ _ v n1 n2 ?_ ?_
            · generalize (2 : ℚ) ^ (m.exp2 - ((lzcnt mant + lzcnt B : Nat) : ℤ) + 1086 - 1086) = u at *
              push_cast
              refine le_trans ?_ (le_trans b3 hlo)
              rw [← mul_assoc]
              refine mul_le_mul_of_nonneg_right ?_ hu0.le
              linarith
            · generalize (2 : ℚ) ^ (m.exp2 - ((lzcnt mant + lzcnt B : Nat) : ℤ) + 1086 - 1086) = u at *
              push_cast
              have k0 : (mant : ℚ) * 10 ^ exp ≤ ((B : ℚ) * 2 ^ lzcnt B + 4) * u := by
                refine le_trans b4 ?_
                rw [← mul_assoc]
                refine mul_le_mul_of_nonneg_right ?_ hu0.le
                linarith
              rcases hmore : more with _ | _
              · rw [hex hmore]
                refine le_trans k0 (mul_le_mul_of_nonneg_right ?_ hu0.le)
                linarith
              · rcases hlong hmore with hl | ⟨hl, _⟩
                · have hl' : (2 : ℚ) ^ 64 ≤ mant * 10 + 9 := by exact_mod_cast hl
                  have k1 : (10 : ℚ) ^ exp ≤ 11 * u := by
                    have : (mant : ℚ) * 10 ^ exp ≤ mant * (11 * u) := by
                      refine le_trans k0 ?_
                      rw [← mul_assoc]
                      refine mul_le_mul_of_nonneg_right ?_ hu0.le
                      linarith
                    exact le_of_mul_le_mul_left this (by linarith)
                  refine le_trans hhi ?_
                  rw [add_mul, one_mul]
                  have : (mant : ℚ) * 10 ^ exp + 10 ^ exp ≤ ((B : ℚ) * 2 ^ lzcnt B + 4) * u + 11 * u := add_le_add k0 k1
                  refine le_trans this ?_
                  rw [← add_mul]
                  refine mul_le_mul_of_nonneg_right ?_ hu0.le
                  linarith
                · omega
      · rw [if_neg (by decide)]
        push_cast at hlo hhi hex
        obtain ⟨n1, n2⟩ := lzcnt_spec mant h0 hlt
        rw [Nat.mod_eq_of_lt n2]
        have hu : (2 : ℚ) ^ exp = 2 ^ lzcnt mant * (2 : ℚ) ^ (exp - (lzcnt mant : ℤ) + 1086 - 1086) := by
          rw [← two_zpow_add]; congr 1; ring
        have hu0 := two_zpow_pos (exp - (lzcnt mant : ℤ) + 1086 - 1086)
        rw [hu] at hlo hhi hex
        refine compose_accurate sg hsign _ _ _ v n1 n2 ?_ ?_
        · generalize (2 : ℚ) ^ (exp - (lzcnt mant : ℤ) + 1086 - 1086) = u at *
          push_cast
          refine le_trans ?_ hlo
          rw [← mul_assoc]
          refine mul_le_mul_of_nonneg_right ?_ hu0.le
          linarith
        · generalize (2 : ℚ) ^ (exp - (lzcnt mant : ℤ) + 1086 - 1086) = u at *
          push_cast
          rcases hmore : more with _ | _
          · rw [hex hmore, ← mul_assoc]
            refine mul_le_mul_of_nonneg_right ?_ hu0.le
            linarith
          · refine le_trans hhi ?_
            have hz : lzcnt mant ≤ 3 := by
              by_contra hne
              have h60 : 2 ^ 60 ≤ mant := by rcases hlong hmore with hl | ⟨_, hl⟩ <;> omega
              have : 2 ^ 60 * 2 ^ 4 ≤ mant * 2 ^ lzcnt mant := Nat.mul_le_mul h60 (Nat.pow_le_pow_right (by omega) (by omega))
              omega
            have hz8 : (2 : ℚ) ^ lzcnt mant ≤ 8 := by
              calc (2 : ℚ) ^ lzcnt mant ≤ 2 ^ 3 := pow_le_pow_right₀ (by norm_num) hz
                _ = 8 := by norm_num
            rw [← mul_assoc]
            refine mul_le_mul_of_nonneg_right ?_ hu0.le
            linarith

end Asteria.RealText
