import Verif.Proof.RealAccuracy

/-!
# Numbers in hexadecimal or binary are rounded to the nearest
-/

namespace Asteria.RealText

open NumText (NumGet)

theorem nearest_of (e q : Nat) (v : ℚ) (he : 1 ≤ e) (hq : q ≤ 2 ^ 53) (h0 : 1 ≤ q) (h : e = 1 ∨ 2 ^ 52 ≤ q)
    (h1 : (q - 1 / 2) * (2 : ℚ) ^ ((e : ℤ) - 1075) ≤ v) (h2 : v ≤ (q + 1 / 2) * (2 : ℚ) ^ ((e : ℤ) - 1075))
    (h3 : q = 2 ^ 52 → 2 ≤ e → q * (2 : ℚ) ^ ((e : ℤ) - 1075) ≤ v)
    (h4 : q % 2 = 1 → v ≠ (q - 1 / 2) * (2 : ℚ) ^ ((e : ℤ) - 1075) ∧ v ≠ (q + 1 / 2) * (2 : ℚ) ^ ((e : ℤ) - 1075)) :
    Nearest v ((e - 1) * 2 ^ 52 + q) := by
  have a := value_lin e q he hq h
  have b := value_next e q he hq h
  have hu := two_zpow_pos ((e : ℤ) - 1075)
  refine ⟨?_, ?_, ?_⟩
  · rw [a]
    rcases value_prev e q he hq h0 h with ⟨_, c⟩ | ⟨c1, c2, c3⟩
    · rw [c]; linarith
    · rw [c3]; have := h3 c2 c1; linarith
  · rw [a]
    generalize value ((e - 1) * 2 ^ 52 + q + 1) = w at b ⊢
    linarith
  · intro ho
    have ho' : q % 2 = 1 := by omega
    obtain ⟨t1, t2⟩ := h4 ho'
    have hn := value_lin e (q + 1) he (by omega) (by omega)
    rw [← Nat.add_assoc] at hn
    rw [a, hn]
    rcases value_prev e q he hq h0 h with ⟨_, c⟩ | ⟨c1, c2, c3⟩
    · rw [c]
      refine ⟨fun hc => t1 (hc.trans (by ring)), fun hc => t2 (hc.trans (by push_cast; ring))⟩
    · omega

/-- The result `r` for the number `v`. -/
structure Correct (sign : Nat) (more : Bool) (v : ℚ) (r : RealCast) : Prop where
  over : r.ovfl = true → (2 ^ 54 - 1) * (2 : ℚ) ^ (970 : ℤ) ≤ v
  under : r.udfl = true → v ≤ (1 + if more then 1 / 2 ^ 60 else 0) * (2 : ℚ) ^ (-1075 : ℤ)
  near : r.ovfl = false → r.udfl = false → ∃ b, 0 < b ∧ b < 2047 * 2 ^ 52 ∧ r.bits = sign + b ∧ Nearest v b

/-- What is dropped does not go past the middle. -/
theorem sticky (bits s k m q : Nat) (w : ℚ) (more : Bool) (hm : (if more = true then 1 else 0) = m) (hs : 11 ≤ s) (hk : k ≤ 3)
    (hd : 2 ^ k ∣ bits) (hex : more = false → w = bits) (hmo : more = true → (bits : ℚ) < w ∧ w < bits + 2 ^ k)
    (q1 : 2 * q * 2 ^ s ≤ 2 * bits + m + 2 ^ s) (q2 : 2 * bits + m ≤ 2 * q * 2 ^ s + 2 ^ s)
    (q3 : q % 2 = 1 → 2 * q * 2 ^ s ≠ 2 * bits + m + 2 ^ s ∧ 2 * bits + m ≠ 2 * q * 2 ^ s + 2 ^ s) :
    ((q : ℚ) - 1 / 2) * 2 ^ s ≤ w ∧ w ≤ ((q : ℚ) + 1 / 2) * 2 ^ s ∧
      (q % 2 = 1 → w ≠ ((q : ℚ) - 1 / 2) * 2 ^ s ∧ w ≠ ((q : ℚ) + 1 / 2) * 2 ^ s) := by
  obtain ⟨c, rfl⟩ := hd
  obtain ⟨j, rfl⟩ : ∃ j, s = k + 1 + j := ⟨s - (k + 1), by omega⟩
  cases more with
  | false =>
    have hw := hex rfl
    have hm : m = 0 := by simpa using hm.symm
    subst hm
    subst hw
    have q1' : 2 * (q : ℚ) * 2 ^ (k + 1 + j) ≤ 2 * ((2 ^ k * c : Nat) : ℚ) + 2 ^ (k + 1 + j) := by exact_mod_cast q1
    have q2' : 2 * ((2 ^ k * c : Nat) : ℚ) ≤ 2 * q * 2 ^ (k + 1 + j) + 2 ^ (k + 1 + j) := by exact_mod_cast q2
    refine ⟨by linarith, by linarith, fun ho => ?_⟩
    obtain ⟨t1, t2⟩ := q3 ho
    refine ⟨fun hc => t1 ?_, fun hc => t2 ?_⟩
    · have : 2 * (q : ℚ) * 2 ^ (k + 1 + j) = 2 * ((2 ^ k * c : Nat) : ℚ) + 2 ^ (k + 1 + j) := by rw [hc]; ring
      exact_mod_cast this
    · have : 2 * ((2 ^ k * c : Nat) : ℚ) = 2 * q * 2 ^ (k + 1 + j) + 2 ^ (k + 1 + j) := by rw [hc]; ring
      exact_mod_cast this
  | true =>
    obtain ⟨w1, w2⟩ := hmo rfl
    have hm : m = 1 := by simpa using hm.symm
    subst hm
    have hp : 0 < 2 ^ (k + 1) := Nat.two_pow_pos _
    have e1 : 2 ^ (k + 1 + j) = 2 ^ (k + 1) * 2 ^ j := pow_add 2 (k + 1) j
    have e2 : 2 * (2 ^ k * c) = 2 ^ (k + 1) * c := by rw [pow_succ]; ring
    rw [e1, e2] at q1 q2
    have p1 : 2 * q * 2 ^ j ≤ c + 2 ^ j := by
      have : 2 ^ (k + 1) * (2 * q * 2 ^ j) < 2 ^ (k + 1) * (c + 2 ^ j + 1) := by
        have : 2 ≤ 2 ^ (k + 1) := by rw [pow_succ]; have := Nat.two_pow_pos k; omega
        calc 2 ^ (k + 1) * (2 * q * 2 ^ j) = 2 * q * (2 ^ (k + 1) * 2 ^ j) := by ring
          _ ≤ 2 ^ (k + 1) * c + 1 + 2 ^ (k + 1) * 2 ^ j := q1
          _ < 2 ^ (k + 1) * (c + 2 ^ j + 1) := by rw [mul_add, mul_add]; omega
      have := Nat.lt_of_mul_lt_mul_left this
      omega
    have p2 : c + 1 ≤ 2 * q * 2 ^ j + 2 ^ j := by
      have : 2 ^ (k + 1) * c < 2 ^ (k + 1) * (2 * q * 2 ^ j + 2 ^ j) := by
        calc 2 ^ (k + 1) * c < 2 ^ (k + 1) * c + 1 := Nat.lt_succ_self _
          _ ≤ _ := q2
          _ = _ := by ring
      exact Nat.lt_of_mul_lt_mul_left this
    have p1' : 2 * (q : ℚ) * 2 ^ j ≤ c + 2 ^ j := by exact_mod_cast p1
    have p2' : (c : ℚ) + 1 ≤ 2 * q * 2 ^ j + 2 ^ j := by exact_mod_cast p2
    have hk0 : (0 : ℚ) < 2 ^ k := by positivity
    have r1 : ((q : ℚ) - 1 / 2) * 2 ^ (k + 1 + j) < w := by
      refine lt_of_le_of_lt ?_ w1
      push_cast
      calc ((q : ℚ) - 1 / 2) * 2 ^ (k + 1 + j) = 2 ^ k * (2 * q * 2 ^ j - 2 ^ j) := by rw [pow_add, pow_succ]; ring
        _ ≤ 2 ^ k * c := mul_le_mul_of_nonneg_left (by linarith) hk0.le
    have r2 : w < ((q : ℚ) + 1 / 2) * 2 ^ (k + 1 + j) := by
      refine lt_of_lt_of_le w2 ?_
      push_cast
      calc (2 : ℚ) ^ k * c + 2 ^ k = 2 ^ k * (c + 1) := by ring
        _ ≤ 2 ^ k * (2 * q * 2 ^ j + 2 ^ j) := mul_le_mul_of_nonneg_left p2' hk0.le
        _ = _ := by rw [pow_add, pow_succ]; ring
    exact ⟨r1.le, r2.le, fun _ => ⟨r1.ne', r2.ne⟩⟩

theorem compose_rounded (sign : Nat) (hsign : sign = 0 ∨ sign = 2 ^ 63) (exp : ℤ) (bits k : Nat) (more : Bool) (w : ℚ) (h1 : 2 ^ 63 ≤ bits)
    (h2 : bits < 2 ^ 64) (hk : k ≤ 3) (hd : 2 ^ k ∣ bits) (hex : more = false → w = bits) (hmo : more = true → (bits : ℚ) < w ∧ w < bits + 2 ^ k) :
    ∃ r, compose sign exp bits more = .ok r ∧ Correct sign more (w * (2 : ℚ) ^ (exp - 1086)) r := by
  have hu := two_zpow_pos (exp - 1086)
  obtain ⟨m, hm⟩ : ∃ m : Nat, (if more = true then 1 else 0) = m := ⟨_, rfl⟩
  have hm1 : m ≤ 1 := by rw [← hm]; split <;> omega
  have hk8 : (2 : ℚ) ^ k ≤ 8 := by
    calc (2 : ℚ) ^ k ≤ 2 ^ 3 := pow_le_pow_right₀ (by norm_num) hk
      _ = 8 := by norm_num
  have hw1 : (bits : ℚ) ≤ w := by
    cases more with
    | false => rw [hex rfl]
    | true => exact (hmo rfl).1.le
  have hw2 : w ≤ bits + 8 := by
    cases more with
    | false => rw [hex rfl]; linarith
    | true => linarith [(hmo rfl).2]
  have h63 : (2 : ℚ) ^ 63 ≤ bits := by exact_mod_cast h1
  have hb64 : (bits : ℚ) + 1 ≤ 2 ^ 64 := by exact_mod_cast h2
  unfold compose
  simp only [hm]
  by_cases he : exp ≥ 1
  · rw [if_pos he]
    obtain ⟨q, hq, q1, q2, q3, q4, q5⟩ := rounded bits 11 m (by decide) hm1
    rw [hq]
    have q3 : 2 ^ 52 ≤ q := q3 _ (Nat.le_trans (by norm_num) h1)
    have q4 : q ≤ 2 ^ 53 := q4 _ (Nat.lt_of_lt_of_le h2 (by norm_num))
    obtain ⟨e, rfl⟩ : ∃ e : Nat, exp = e := ⟨exp.toNat, by omega⟩
    have hu' : (2 : ℚ) ^ ((e : ℤ) - 1075) = 2 ^ 11 * (2 : ℚ) ^ ((e : ℤ) - 1086) := by
      rw [← two_zpow_add]; congr 1; push_cast; ring
    obtain ⟨s1, s2, s3⟩ := sticky bits 11 k m q w more hm (by decide) hk hd hex hmo q1 q2 q5
    by_cases hov : (e : ℤ) + ((q / 2 ^ 53 % 2 : Nat) : ℤ) > 2046
    · rw [if_pos hov]
      refine ⟨_, rfl, fun _ => ?_, nofun, nofun⟩
      rcases Nat.lt_or_ge e 2047 with h | h
      · have e1 : e = 2046 := by omega
        have e2 : q = 2 ^ 53 := by omega
        subst e1
        subst e2
        rw [show (((2 ^ 53 : Nat)) : ℚ) = 9007199254740992 by norm_num] at s1
        rw [show (970 : ℤ) = (((2046 : Nat) : ℤ) - 1086) + ((10 : Nat) : ℤ) by norm_num, two_zpow_add, ← mul_assoc]
        refine mul_le_mul_of_nonneg_right ?_ hu.le
        linarith
      · obtain ⟨j, rfl⟩ : ∃ j, e = 2047 + j := ⟨e - 2047, by omega⟩
        have hj : (1 : ℚ) ≤ 2 ^ j := one_le_pow₀ (by norm_num)
        have : (2 : ℚ) ^ (((2047 + j : Nat) : ℤ) - 1086) = 2 ^ j * (2 : ℚ) ^ (961 : ℤ) := by
          rw [← two_zpow_add]; congr 1; push_cast; ring
        rw [this, show (970 : ℤ) = 961 + ((9 : Nat) : ℤ) by norm_num, two_zpow_add]
        have h961 := two_zpow_pos 961
        rw [← mul_assoc, ← mul_assoc]
        refine mul_le_mul_of_nonneg_right ?_ h961.le
        calc ((2 : ℚ) ^ 54 - 1) * 2 ^ 9 ≤ 2 ^ 63 * 1 := by norm_num
          _ ≤ _ := mul_le_mul (by linarith) hj (by norm_num) (by linarith)
    · rw [if_neg hov]
      have hpat : finish sign ((e : ℤ) + ((q / 2 ^ 53 % 2 : Nat) : ℤ)) (q / 2 ^ (q / 2 ^ 53 % 2) % 2 ^ 52) (more || decide (bits % 2 ^ 11 > 0 ∧ bits % 2 ^ 11 < 2 ^ 11 - 1)) =
          .ok ⟨sign + ((e - 1) * 2 ^ 52 + q), false, false, (more || decide (bits % 2 ^ 11 > 0 ∧ bits % 2 ^ 11 < 2 ^ 11 - 1))⟩ := by
        by_cases hr : q = 2 ^ 53
        · subst hr
          rw [show (2 ^ 53 / 2 ^ 53 % 2 : Nat) = 1 from rfl] at hov ⊢
          rw [finish_eq sign hsign _ _ _ ((e - 1) * 2 ^ 52 + 2 ^ 53) (by omega) (by omega) (by omega) (by omega)]
        · rw [show q / 2 ^ 53 % 2 = 0 by omega] at hov ⊢
          rw [finish_eq sign hsign _ _ _ ((e - 1) * 2 ^ 52 + q) (by rw [pow_zero, Nat.div_one]; omega) (by omega) (by omega) (by omega)]
      rw [hpat]
      refine ⟨_, rfl, nofun, nofun, fun _ _ => ⟨_, ?_, ?_, rfl, ?_⟩⟩
      · omega
      · rcases Nat.lt_or_ge q (2 ^ 53) with h | h
        · have : e ≤ 2046 := by omega
          omega
        · have : q = 2 ^ 53 := by omega
          subst this
          rw [show (2 ^ 53 / 2 ^ 53 % 2 : Nat) = 1 from rfl] at hov
          omega
      · refine nearest_of e q _ (by omega) q4 (by omega) (.inr q3) ?_ ?_ ?_ ?_
        · rw [hu', ← mul_assoc]
          exact mul_le_mul_of_nonneg_right s1 hu.le
        · rw [hu', ← mul_assoc]
          exact mul_le_mul_of_nonneg_right s2 hu.le
        · intro hq2 _
          rw [hu', ← mul_assoc]
          refine mul_le_mul_of_nonneg_right ?_ hu.le
          subst hq2
          push_cast
          linarith
        · intro ho
          rw [hu', ← mul_assoc, ← mul_assoc]
          exact ⟨fun hc => (s3 ho).1 (mul_right_cancel₀ hu.ne' hc), fun hc => (s3 ho).2 (mul_right_cancel₀ hu.ne' hc)⟩
  · rw [if_neg he]
    by_cases he2 : exp ≥ -51
    · rw [if_pos he2]
      generalize hs : (12 - exp).toNat = s
      have hs1 : 12 ≤ s := by omega
      have hs2 : s ≤ 63 := by omega
      have hp := Nat.two_pow_pos s
      have hple : 2 ^ s ≤ 2 ^ 63 := Nat.pow_le_pow_right (by omega) hs2
      have hpge : 2 ^ 12 ≤ 2 ^ s := Nat.pow_le_pow_right (by omega) hs1
      have hml := Nat.mod_lt bits hp
      rw [show (2 * (bits % 2 ^ s) + m) % 2 ^ 64 = 2 * (bits % 2 ^ s) + m from Nat.mod_eq_of_lt (by omega)]
      obtain ⟨q, hq, q1, q2, q3, q4, q7⟩ := rounded bits s m hs2 hm1
      rw [hq]
      have q3 := q3 1 (by omega)
      have q5 := q4 (2 ^ 52) (by omega)
      have q6 : exp < 0 → q ≤ 2 ^ 51 := by
        intro hneg
        apply q4
        have : (2 : Nat) ^ 13 ≤ 2 ^ s := Nat.pow_le_pow_right (by omega) (by omega)
        omega
      have hpat : ∀ i, finish sign (exp + ((q / 2 ^ 52 % 2 : Nat) : ℤ)) (q / 2 ^ (if exp + ((q / 2 ^ 52 % 2 : Nat) : ℤ) < 0 then q / 2 ^ 52 % 2 else 0) % 2 ^ 52) i =
          .ok ⟨sign + q, false, false, i⟩ := by
        intro i
        by_cases hr : q = 2 ^ 52
        · have h0 : exp = 0 := by
            by_contra hne
            have := q6 (by omega)
            omega
          subst h0
          subst hr
          rw [show (2 ^ 52 / 2 ^ 52 % 2 : Nat) = 1 from by decide, if_neg (by decide)]
          rw [finish_eq sign hsign _ _ _ (2 ^ 52) (by decide) (by decide) (by decide) (by decide)]
        · rw [show q / 2 ^ 52 % 2 = 0 by omega, ite_self, pow_zero, Nat.div_one]
          rw [finish_eq sign hsign _ _ _ q (by omega) (by omega) (by omega) (by omega)]
      rw [hpat]
      have hu' : (2 : ℚ) ^ (((1 : Nat) : ℤ) - 1075) = 2 ^ s * (2 : ℚ) ^ (exp - 1086) := by
        rw [← two_zpow_add]; congr 1; push_cast; omega
      obtain ⟨s1, s2, s3⟩ := sticky bits s k m q w more hm (by omega) hk hd hex hmo q1 q2 q7
      refine ⟨_, rfl, nofun, nofun, fun _ _ => ⟨q, by omega, by omega, rfl, ?_⟩⟩
      have := nearest_of 1 q (w * (2 : ℚ) ^ (exp - 1086)) (by omega) (by omega) q3 (.inl rfl) ?_ ?_ (by omega) ?_
      · simpa using this
      · rw [hu', ← mul_assoc]
        exact mul_le_mul_of_nonneg_right s1 hu.le
      · rw [hu', ← mul_assoc]
        exact mul_le_mul_of_nonneg_right s2 hu.le
      · intro ho
        rw [hu', ← mul_assoc, ← mul_assoc]
        exact ⟨fun hc => (s3 ho).1 (mul_right_cancel₀ hu.ne' hc), fun hc => (s3 ho).2 (mul_right_cancel₀ hu.ne' hc)⟩
    · rw [if_neg he2]
      by_cases he3 : exp = -52
      · rw [if_pos he3]
        subst he3
        by_cases hb : bits ≤ 0x8000000000000000
        · rw [if_pos hb]
          refine ⟨_, rfl, nofun, fun _ => ?_, nofun⟩
          rw [show (-1075 : ℤ) = (-52 - 1086 : ℤ) + ((63 : Nat) : ℤ) by norm_num, two_zpow_add, ← mul_assoc]
          refine mul_le_mul_of_nonneg_right ?_ hu.le
          have hb' : (bits : ℚ) ≤ 0x8000000000000000 := by exact_mod_cast hb
          cases more with
          | false => rw [hex rfl, if_neg (by decide)]; linarith
          | true => rw [if_pos rfl]; linarith
        · rw [if_neg hb, finish_eq sign hsign _ _ _ 1 (by decide) (by decide) (by decide) (by decide)]
          refine ⟨_, rfl, nofun, nofun, fun _ _ => ⟨1, by decide, by decide, rfl, ?_⟩⟩
          have hu' : (2 : ℚ) ^ (((1 : Nat) : ℤ) - 1075) = 2 ^ 64 * (2 : ℚ) ^ (-52 - 1086 : ℤ) := by
            rw [← two_zpow_add]; norm_num
          have hb' : (0x8000000000000000 : ℚ) < bits := by exact_mod_cast Nat.lt_of_not_le hb
          have g1 : (((1 : Nat) : ℚ) - 1 / 2) * 2 ^ 64 < w := by push_cast; linarith
          have g2 : w < (((1 : Nat) : ℚ) + 1 / 2) * 2 ^ 64 := by push_cast; linarith
          have := nearest_of 1 1 (w * (2 : ℚ) ^ (-52 - 1086 : ℤ)) (by decide) (by decide) (by decide) (.inl rfl) ?_ ?_ (by omega) ?_
          · simpa using this
          · rw [hu', ← mul_assoc]
            exact mul_le_mul_of_nonneg_right g1.le hu.le
          · rw [hu', ← mul_assoc]
            exact mul_le_mul_of_nonneg_right g2.le hu.le
          · intro _
            rw [hu', ← mul_assoc, ← mul_assoc]
            exact ⟨fun hc => g1.ne' (mul_right_cancel₀ hu.ne' hc), fun hc => g2.ne (mul_right_cancel₀ hu.ne' hc)⟩
      · rw [if_neg he3]
        refine ⟨_, rfl, nofun, fun _ => ?_, nofun⟩
        obtain ⟨j, hj⟩ : ∃ j : Nat, (-1075 : ℤ) = exp - 1086 + ((64 + j : Nat) : ℤ) := ⟨(-53 - exp).toNat, by omega⟩
        rw [hj, two_zpow_add, ← mul_assoc]
        refine mul_le_mul_of_nonneg_right ?_ hu.le
        have hj1 : (1 : ℚ) ≤ 2 ^ j := one_le_pow₀ (by norm_num)
        rw [pow_add]
        cases more with
        | false => rw [hex rfl, if_neg (by decide)]; linarith
        | true => rw [if_pos rfl]; linarith

theorem castD_rounded (g : NumGet) (v : ℚ) (h : Given g v) (h0 : 0 < g.mant) (hb : g.base = 2)
    (hs : g.more = true → (g.mant : ℚ) * (g.base : ℚ) ^ g.exp < v ∧ v < ((g.mant : ℚ) + 1) * (g.base : ℚ) ^ g.exp) :
    ∃ r, castD g = .ok r ∧ Correct (if g.sign then 2 ^ 63 else 0) g.more v r := by
  obtain ⟨cls, sign, base, exp, mant, more⟩ := g
  obtain ⟨_, hlt, hlo, hhi, hex, hlong⟩ := h
  simp only at hb hlt hlo hhi hex hlong h0 hs
  subst hb
  push_cast at hlo hhi hex hs
  have hm1 : (1 : ℚ) ≤ mant := by exact_mod_cast h0
  have hm2 : (mant : ℚ) + 1 ≤ 2 ^ 64 := by exact_mod_cast hlt
  have hp := two_zpow_pos exp
  have hsign : (if sign = true then 2 ^ 63 else 0) = 0 ∨ (if sign = true then 2 ^ 63 else 0) = 2 ^ 63 := by split <;> simp
  unfold castD
  simp only
  generalize (if sign = true then 2 ^ 63 else 0) = sg at hsign ⊢
  rw [if_neg (by omega)]
  by_cases he1 : exp < -10000
  · rw [if_pos he1]
    refine ⟨_, rfl, nofun, fun _ => ?_, nofun⟩
    calc v ≤ ((mant : ℚ) + 1) * 2 ^ exp := hhi
      _ ≤ 2 ^ 64 * 2 ^ (-1139 : ℤ) := mul_le_mul hm2 (zpow_le_zpow_right₀ (by norm_num) (by omega)) hp.le (by norm_num)
      _ = 1 * (2 : ℚ) ^ (-1075 : ℤ) := by rw [← two_zpow_add, one_mul]; norm_num
      _ ≤ _ := mul_le_mul_of_nonneg_right (by split <;> norm_num) (two_zpow_pos _).le
  · rw [if_neg he1]
    by_cases he2 : exp > 10000
    · rw [if_pos he2]
      refine ⟨_, rfl, fun _ => ?_, nofun, nofun⟩
      calc (2 ^ 54 - 1) * (2 : ℚ) ^ (970 : ℤ) ≤ 2 ^ 54 * (2 : ℚ) ^ (970 : ℤ) := mul_le_mul_of_nonneg_right (by norm_num) (two_zpow_pos _).le
        _ = (2 : ℚ) ^ (1024 : ℤ) := by rw [← two_zpow_add]; norm_num
        _ ≤ 1 * 2 ^ exp := by rw [one_mul]; exact zpow_le_zpow_right₀ (by norm_num) (by omega)
        _ ≤ mant * 2 ^ exp := mul_le_mul_of_nonneg_right hm1 hp.le
        _ ≤ v := hlo
    · rw [if_neg he2, if_neg (by decide)]
      obtain ⟨n1, n2⟩ := lzcnt_spec mant h0 hlt
      rw [Nat.mod_eq_of_lt n2]
      have hu : (2 : ℚ) ^ exp = 2 ^ lzcnt mant * (2 : ℚ) ^ (exp - (lzcnt mant : ℤ) + 1086 - 1086) := by
        rw [← two_zpow_add]; congr 1; ring
      have hu0 := two_zpow_pos (exp - (lzcnt mant : ℤ) + 1086 - 1086)
      rw [hu] at hex hs
      cases more with
      | false =>
        have := compose_rounded sg hsign (exp - (lzcnt mant : ℤ) + 1086) (mant * 2 ^ lzcnt mant) 0 false ((mant * 2 ^ lzcnt mant : Nat) : ℚ)
          n1 n2 (by decide) (one_dvd _) (fun _ => rfl) nofun
        rw [hex rfl, ← mul_assoc]
        push_cast at this
        exact this
      | true =>
        obtain ⟨t1, t2⟩ := hs rfl
        have hz : lzcnt mant ≤ 3 := by
          by_contra hne
          have h60 : 2 ^ 60 ≤ mant := by rcases hlong rfl with hl | ⟨_, hl⟩ <;> omega
          have : 2 ^ 60 * 2 ^ 4 ≤ mant * 2 ^ lzcnt mant := Nat.mul_le_mul h60 (Nat.pow_le_pow_right (by omega) (by omega))
          omega
        generalize hu2 : (2 : ℚ) ^ (exp - (lzcnt mant : ℤ) + 1086 - 1086) = u at *
        have := compose_rounded sg hsign (exp - (lzcnt mant : ℤ) + 1086) (mant * 2 ^ lzcnt mant) (lzcnt mant) true (v / u)
          n1 n2 hz (Dvd.intro_left _ rfl) nofun (fun _ => ?_)
        · rw [hu2, div_mul_cancel₀ _ hu0.ne'] at this
          exact this
        · push_cast
          constructor
          · rw [lt_div_iff₀ hu0, mul_assoc]; exact t1
          · rw [div_lt_iff₀ hu0, show (mant : ℚ) * 2 ^ lzcnt mant + 2 ^ lzcnt mant = ((mant : ℚ) + 1) * 2 ^ lzcnt mant by ring, mul_assoc]; exact t2

end Asteria.RealText
