import Verif.Proof.LexExactNum

/-!
# Numerals: when an integer is exact
-/

namespace Asteria.Lexer

open Spec (IsPrefix IsSign Parts DigitText FracText ExpoText Numeral Kept Meaning Denotes isExpo number InRange)
open NumText (NumGet Cast castI lower raise castI_spec castI_large toInt_pos toInt_neg)

theorem lower_spec (B : Nat) (hB : 2 ≤ B) : ∀ k m inx, 0 < k →
    lower B k m inx = (m / B ^ k, inx || decide (m % B ^ k ≠ 0)) := by
  intro k
  induction k with
  | zero => intro m inx h; omega
  | succ k ih =>
    intro m inx _
    have hdiv : m / B ^ (k + 1) = m / B / B ^ k := by rw [Nat.pow_succ', Nat.div_div_eq_div_mul]
    have hmod : m % B ^ (k + 1) = m % B + B * (m / B % B ^ k) := by rw [Nat.pow_succ', Nat.mod_mul]
    unfold lower
    dsimp only
    by_cases hk : k = 0
    · subst hk
      rw [if_pos (.inl rfl)]
      simp
    · by_cases hz : m / B = 0
      · rw [if_pos (.inr hz), hdiv, hmod, hz]
        simp
      · rw [if_neg (by omega), ih _ _ (by omega), hdiv, hmod]
        congr 1
        rw [Bool.or_assoc]
        congr 1
        have : m % B + B * (m / B % B ^ k) ≠ 0 ↔ m % B ≠ 0 ∨ m / B % B ^ k ≠ 0 := by
          constructor
          · intro h
            by_contra hc
            push Not at hc
            rw [hc.1, hc.2] at h
            simp at h
          · rintro h h'
            have h1 := Nat.eq_zero_of_add_eq_zero h'
            rcases h with h | h
            · exact h h1.1
            · rcases Nat.mul_eq_zero.mp h1.2 with h2 | h2
              · omega
              · exact h h2
        rw [decide_eq_decide.mpr this, Bool.decide_or]

/-- The number says exactly `v`. -/
def Exact (neg : Bool) (B m : Nat) (e v : Int) : Prop :=
  v * (B : Int) ^ (-e).toNat = (if neg then -(m : Int) else m) * (B : Int) ^ e.toNat ∧ InRange v

/-- The conversion gives `v` and is exact. -/
def Gives (g : NumGet) (v : Int) : Prop := ∃ c, castI g = .ok c ∧ c.ovfl = false ∧ c.inxct = false ∧ c.value = v

theorem gives_more {neg : Bool} {B m : Nat} {e v : Int} (hB : 2 ≤ B) : ¬ Gives ⟨false, neg, B, e, m, true⟩ v := by
  rintro ⟨c, h, h1, h2, -⟩
  unfold castI at h
  dsimp only at h
  rw [if_neg (by simp)] at h
  by_cases hm : m = 0
  · rw [if_pos hm] at h; cases h; simp at h2
  rw [if_neg hm] at h
  by_cases he : e < -10000
  · rw [if_pos he] at h; cases h; simp at h2
  rw [if_neg he] at h
  by_cases he' : e > 10000
  · rw [if_pos he'] at h; cases h; simp at h1
  rw [if_neg he'] at h
  by_cases hr : (if e > 0 then raise B e.toNat m else (m, false)).2 = true
  · rw [if_pos hr] at h; cases h; simp at h1
  rw [if_neg hr] at h
  have hl : (if e < 0 then lower B (-e).toNat m true else ((if e > 0 then raise B e.toNat m else (m, false)).1, true)).2 = true := by
    by_cases h0 : e < 0
    · rw [if_pos h0, lower_spec B hB _ _ _ (by omega)]; simp
    · rw [if_neg h0]
  generalize (if e < 0 then lower B (-e).toNat m true else ((if e > 0 then raise B e.toNat m else (m, false)).1, true)) = l at *
  generalize (if neg = true then 0x8000000000000000#64 else 0x7FFFFFFFFFFFFFFF#64) = um at *
  split at h
  · cases h; rw [hl] at h2; simp at h2
  · split at h
    · cases h; simp at h1
    · split at h
      · cases h
      · cases h; rw [hl] at h2; simp at h2

theorem pow_big (B n : Nat) (hB : 2 ≤ B) (hn : 64 ≤ n) : 2 ^ 64 ≤ B ^ n :=
  Nat.le_trans (Nat.pow_le_pow_left hB 64) (Nat.pow_le_pow_right (by omega) hn)

theorem exact_up {neg : Bool} {B m n : Nat} {v : Int} (h : Exact neg B m n v) :
    v = if neg then -((m * B ^ n : Nat) : Int) else (m * B ^ n : Nat) := by
  have := h.1
  rw [show (-(n : Int)).toNat = 0 by omega, Int.toNat_natCast, pow_zero, mul_one] at this
  rw [this]
  split <;> push_cast <;> ring

theorem exact_down {neg : Bool} {B m k : Nat} {v : Int} (h : Exact neg B m (-k) v) : v.natAbs * B ^ k = m := by
  have := h.1
  rw [show (- -(k : Int)).toNat = k by omega, show (-(k : Int)).toNat = 0 by omega, pow_zero, mul_one] at this
  have h2 := congrArg Int.natAbs this
  rw [Int.natAbs_mul, Int.natAbs_pow, Int.natAbs_natCast] at h2
  rw [h2]
  split <;> simp

theorem castI_exact {neg : Bool} {B m : Nat} {e v : Int} (hB : 2 ≤ B) (hm : m < 2 ^ 64) :
    Gives ⟨false, neg, B, e, m, false⟩ v ↔ Exact neg B m e v := by
  have hB0 : (B : Int) ≠ 0 := by omega
  by_cases h0 : m = 0
  · subst h0
    constructor
    · rintro ⟨c, h, -, -, rfl⟩
      simp [castI] at h
      cases h
      refine ⟨by simp, by simp, by simp⟩
    · intro h
      have h1 := h.1
      have : v = 0 := by
        have : v * (B : Int) ^ (-e).toNat = 0 := by rw [h1]; split <;> simp
        rcases mul_eq_zero.mp this with h | h
        · exact h
        · exact absurd h (pow_ne_zero _ hB0)
      subst this
      exact ⟨⟨0, false, false, false⟩, by simp [castI], rfl, rfl, rfl⟩
  have hpos : 0 < m := by omega
  rcases Int.lt_or_le e 0 with he | he
  · -- a negative exponent
    obtain ⟨k, rfl⟩ : ∃ k : Nat, e = -(k : Int) := ⟨e.natAbs, by omega⟩
    have hk : 0 < k := by omega
    have hpw : 0 < B ^ k := Nat.pow_pos (by omega)
    by_cases hlo : -(k : Int) < -10000
    · constructor
      · rintro ⟨c, h, -, h2, -⟩
        unfold castI at h
        simp only [Bool.false_eq_true, if_false] at h
        rw [if_neg h0, if_pos hlo] at h
        cases h
        simp at h2
      · intro h
        have h1 := exact_down h
        have h2 := pow_big B k hB (by omega)
        have h3 : v.natAbs ≠ 0 := by intro h; rw [h] at h1; omega
        have h4 : B ^ k ≤ v.natAbs * B ^ k := Nat.le_mul_of_pos_left _ (by omega)
        omega
    have hcast : castI ⟨false, neg, B, -(k : Int), m, false⟩ =
        (if m / B ^ k = 0 then .ok ⟨0, false, true, decide (m % B ^ k ≠ 0)⟩
         else if m / B ^ k > (if neg then 0x8000000000000000#64 else 0x7FFFFFFFFFFFFFFF#64).toNat then
           .ok ⟨(if neg then 0x8000000000000000#64 else 0x7FFFFFFFFFFFFFFF#64).toInt, true, false, decide (m % B ^ k ≠ 0)⟩
         else if ((BitVec.ofNat 64 (m / B ^ k) - (if neg then 0x8000000000000000#64 else 0x7FFFFFFFFFFFFFFF#64) + 0x7FFFFFFFFFFFFFFF#64) ^^^ 0x7FFFFFFFFFFFFFFF#64 ^^^ (if neg then 0x8000000000000000#64 else 0x7FFFFFFFFFFFFFFF#64)).toInt = 0 then .ub
         else .ok ⟨((BitVec.ofNat 64 (m / B ^ k) - (if neg then 0x8000000000000000#64 else 0x7FFFFFFFFFFFFFFF#64) + 0x7FFFFFFFFFFFFFFF#64) ^^^ 0x7FFFFFFFFFFFFFFF#64 ^^^ (if neg then 0x8000000000000000#64 else 0x7FFFFFFFFFFFFFFF#64)).toInt, false, false, decide (m % B ^ k ≠ 0)⟩) := by
      unfold castI
      simp only [Bool.false_eq_true, if_false]
      rw [if_neg h0, if_neg hlo, if_neg (show ¬ -(k : Int) > 10000 by omega)]
      simp only [show ¬ -(k : Int) > 0 by omega, if_false, Bool.false_eq_true]
      simp only [he, if_true, show (- -(k : Int)).toNat = k by omega, lower_spec B hB k m false hk, Bool.false_or, true_and]
    constructor
    · rintro ⟨c, h, h1, h2, rfl⟩
      rw [hcast] at h
      have hdm := Nat.div_add_mod m (B ^ k)
      have hfin : ∀ q : Nat, q * B ^ k = m → q ≤ (if neg then 2 ^ 63 else 2 ^ 63 - 1) →
          Exact neg B m (-(k : Int)) (if neg then -(q : Int) else q) := by
        intro q hq hl
        refine ⟨?_, ?_⟩
        · rw [show (- -(k : Int)).toNat = k by omega, show (-(k : Int)).toNat = 0 by omega, pow_zero, mul_one, ← hq]
          split <;> push_cast <;> ring
        · unfold InRange
          split <;> rename_i hn <;> simp only [hn, if_true, if_false, Bool.false_eq_true] at hl <;> omega
      have hz : ∀ {x}, decide (m % B ^ k ≠ 0) = x → x = false → m / B ^ k * B ^ k = m := by
        rintro x hx rfl
        have : m % B ^ k = 0 := by simpa using hx
        rw [this, add_zero, mul_comm] at hdm
        exact hdm
      by_cases hq : m / B ^ k = 0
      · rw [if_pos hq] at h
        cases h
        have := hz rfl h2
        rw [hq] at this
        omega
      · rw [if_neg hq] at h
        by_cases hb : m / B ^ k > (if neg then 0x8000000000000000#64 else 0x7FFFFFFFFFFFFFFF#64).toNat
        · rw [if_pos hb] at h; cases h; simp at h1
        · rw [if_neg hb] at h
          by_cases hv : ((BitVec.ofNat 64 (m / B ^ k) - (if neg then 0x8000000000000000#64 else 0x7FFFFFFFFFFFFFFF#64) + 0x7FFFFFFFFFFFFFFF#64) ^^^ 0x7FFFFFFFFFFFFFFF#64 ^^^ (if neg then 0x8000000000000000#64 else 0x7FFFFFFFFFFFFFFF#64)).toInt = 0
          · rw [if_pos hv] at h; cases h
          · rw [if_neg hv] at h
            cases h
            have hx := hz rfl h2
            dsimp only
            cases neg with
            | true =>
              simp only [if_true] at hb ⊢
              have hb' : m / B ^ k ≤ 2 ^ 63 := by simpa using hb
              rw [toInt_neg _ hb']
              exact hfin _ hx (by simpa using hb')
            | false =>
              simp only [Bool.false_eq_true, if_false] at hb ⊢
              have hb' : m / B ^ k ≤ 2 ^ 63 - 1 := by simpa using hb
              rw [toInt_pos _ (by omega)]
              exact hfin _ hx (by simpa using hb')
    · intro h
      have h1 := exact_down h
      have hq : m / B ^ k = v.natAbs := by rw [← h1, Nat.mul_div_cancel _ hpw]
      have hr : m % B ^ k = 0 := by rw [← h1, Nat.mul_mod_left]
      have hv : v.natAbs ≠ 0 := by intro h; rw [h] at h1; omega
      have hsg : v = if neg then -(v.natAbs : Int) else v.natAbs := by
        have h2 := h.1
        rw [show (- -(k : Int)).toNat = k by omega, show (-(k : Int)).toNat = 0 by omega, pow_zero, mul_one] at h2
        have hp : (0 : Int) < (B : Int) ^ k := by positivity
        cases neg with
        | true =>
          simp only [if_true] at h2 ⊢
          have : v * (B : Int) ^ k < 0 := by rw [h2]; omega
          have := neg_of_mul_neg_left this (le_of_lt hp)
          omega
        | false =>
          simp only [Bool.false_eq_true, if_false] at h2 ⊢
          have : 0 < v * (B : Int) ^ k := by rw [h2]; omega
          have := pos_of_mul_pos_left this (le_of_lt hp)
          omega
      have hin := h.2
      unfold Gives
      rw [hcast, hq, hr, if_neg hv]
      simp only [ne_eq, not_true_eq_false, decide_false]
      unfold InRange at hin
      cases neg with
      | true =>
        simp only [if_true] at hsg ⊢
        rw [if_neg (by simp; omega), toInt_neg _ (by omega), if_neg (by omega)]
        exact ⟨_, rfl, rfl, rfl, hsg.symm⟩
      | false =>
        simp only [Bool.false_eq_true, if_false] at hsg ⊢
        rw [if_neg (by simp; omega), toInt_pos _ (by omega), if_neg (by omega)]
        exact ⟨_, rfl, rfl, rfl, hsg.symm⟩
  · obtain ⟨n, rfl⟩ := Int.eq_ofNat_of_zero_le he
    have hexact : m * B ^ n ≤ (if neg then 2 ^ 63 else 2 ^ 63 - 1) →
        Exact neg B m n (if neg then -((m * B ^ n : Nat) : Int) else (m * B ^ n : Nat)) := by
      intro hl
      refine ⟨?_, ?_⟩
      · rw [show (-(n : Int)).toNat = 0 by omega, Int.toNat_natCast, pow_zero, mul_one]
        split <;> push_cast <;> ring
      · unfold InRange
        generalize m * B ^ n = q at *
        split <;> rename_i hn <;> simp only [hn, if_true, if_false, Bool.false_eq_true] at hl <;> omega
    by_cases hl : m * B ^ n ≤ (if neg then 2 ^ 63 else 2 ^ 63 - 1)
    · have hn : n ≤ 10000 := by
        by_contra hc
        have h2 := pow_big B n hB (by omega)
        have h4 : B ^ n ≤ m * B ^ n := Nat.le_mul_of_pos_left _ hpos
        split at hl <;> omega
      have hc := castI_spec neg B m n (by omega) hn hl
      constructor
      · rintro ⟨c, h, -, -, rfl⟩
        rw [hc] at h
        cases h
        exact hexact hl
      · intro h
        exact ⟨_, hc, rfl, rfl, (exact_up h).symm⟩
    · obtain ⟨r, hr, ho⟩ := castI_large neg B m n false hB hpos hm (by omega)
      constructor
      · rintro ⟨c, h, h1, -, -⟩
        rw [hr] at h
        cases h
        rw [ho] at h1
        cases h1
      · intro h
        have h1 := exact_up h
        have h2 := h.2
        unfold InRange at h2
        generalize m * B ^ n = q at *
        cases neg <;> simp at hl h1 <;> omega

/-- Very large exponents need not be exact. -/
theorem exact_approx {neg : Bool} {B m : Nat} {e E v : Int} (hB : 2 ≤ B) (hm : m < 2 ^ 64) (h : Approx e E) :
    Exact neg B m e v → Exact neg B m E v := by
  rcases h with rfl | h
  · exact id
  intro hx
  by_cases h0 : m = 0
  · subst h0
    have hB0 : (B : Int) ≠ 0 := by omega
    have : v = 0 := by
      have : v * (B : Int) ^ (-e).toNat = 0 := by rw [hx.1]; split <;> simp
      rcases mul_eq_zero.mp this with h | h
      · exact h
      · exact absurd h (pow_ne_zero _ hB0)
    subst this
    exact ⟨by simp, hx.2⟩
  · exfalso
    rcases h with ⟨h, _⟩ | ⟨h, _⟩
    · obtain ⟨n, rfl⟩ : ∃ n : Nat, e = n := ⟨e.toNat, by omega⟩
      have h1 := exact_up hx
      have h2 := pow_big B n hB (by omega)
      have h4 : B ^ n ≤ m * B ^ n := Nat.le_mul_of_pos_left _ (by omega)
      have h3 := hx.2
      unfold InRange at h3
      generalize m * B ^ n = q at *
      split at h1 <;> omega
    · obtain ⟨k, rfl⟩ : ∃ k : Nat, e = -(k : Int) := ⟨e.natAbs, by omega⟩
      have h1 := exact_down hx
      have h2 := pow_big B k hB (by omega)
      have h3 : v.natAbs ≠ 0 := by intro h; rw [h] at h1; omega
      have h4 : B ^ k ≤ v.natAbs * B ^ k := Nat.le_mul_of_pos_left _ (by omega)
      omega

theorem Approx.symm {e E : Int} (h : Approx e E) : Approx E e := by
  rcases h with h | h | h
  · exact .inl h.symm
  · exact .inr (.inl h.symm)
  · exact .inr (.inr h.symm)

theorem number_shift (base : Nat) (lead : List Nat) (k : Nat) : number base (lead ++ List.replicate k 0) = number base lead * base ^ k := by
  induction k with
  | zero => simp
  | succ k ih =>
    rw [List.replicate_succ', ← List.append_assoc]
    unfold number at *
    rw [List.foldl_append, ih, List.foldl_cons, List.foldl_nil, Nat.pow_succ]
    ring

theorem number_prefix {base : Nat} (hb : 1 ≤ base) (a b : List Nat) : number base a ≤ number base (a ++ b) := by
  rw [number_append]; exact number_ge base hb b _

/-- The longest first part is unique. -/
theorem kept_zeros {base : Nat} (hb : 1 ≤ base) {ds : List Nat} {m : Nat} {rest : List Nat} (h : Kept base ds m rest) :
    rest.any (· ≠ 0) = false ↔ ∃ lead k, ds = lead ++ List.replicate k 0 ∧ number base lead < 2 ^ 64 := by
  obtain ⟨lead, h1, h2⟩ := h.split
  constructor
  · intro hr
    refine ⟨lead, rest.length, ?_, by rw [← h2]; exact h.lt⟩
    rw [h1]
    congr 1
    apply List.eq_replicate_iff.mpr
    refine ⟨rfl, ?_⟩
    intro b hb
    have := List.any_eq_false.mp hr b hb
    simpa using this
  · rintro ⟨lead', k, h3, h4⟩
    apply List.any_eq_false.mpr
    intro x hx
    -- the rest is not longer than the zeros
    have hle : lead'.length ≤ lead.length := by
      by_contra hc
      have hp : lead <+: lead' := by
        have p1 : lead <+: ds := ⟨rest, h1.symm⟩
        have p2 : lead' <+: ds := ⟨_, h3.symm⟩
        exact List.prefix_of_prefix_length_le p1 p2 (by omega)
      obtain ⟨t, rfl⟩ := hp
      cases t with
      | nil => simp at hc
      | cons d t =>
        have hr : rest = d :: (t ++ List.replicate k 0) := by
          rw [h1, List.append_assoc] at h3
          simpa using List.append_cancel_left h3
        have := h.longest d _ hr
        have h5 : number base (lead ++ [d]) ≤ number base (lead ++ d :: t) := by
          have := number_prefix hb (lead ++ [d]) t
          simpa using this
        have h6 : number base (lead ++ [d]) = m * base + d := by
          unfold number at *
          rw [List.foldl_append, ← h2]
          rfl
        omega
    have hs : rest <:+ List.replicate k 0 := by
      have p1 : rest <:+ ds := ⟨lead, h1.symm⟩
      have p2 : List.replicate k 0 <:+ ds := ⟨lead', h3.symm⟩
      refine List.suffix_of_suffix_length_le p1 p2 ?_
      have q := congrArg List.length h1
      rw [h3] at q
      simp only [List.length_append] at q
      omega
    have := hs.subset hx
    have := List.eq_of_mem_replicate this
    simp [this]

theorem pow_step (p : Parts) (hb : p.base = 2 ∨ p.base = 10 ∨ p.base = 16) (k : Nat) : ∃ j : Nat, p.step * (k : Int) = j ∧ p.base ^ k = p.radix ^ j := by
  unfold Parts.step Parts.radix
  rcases hb with h | h | h <;> rw [h]
  · exact ⟨k, by simp, by simp⟩
  · exact ⟨k, by simp, by simp⟩
  · refine ⟨4 * k, by simp, ?_⟩
    rw [if_neg (by omega), Nat.pow_mul]

/-- The digits that are left are shifted. -/
theorem exact_shift {neg : Bool} {B m j : Nat} {w v : Int} (hB : 2 ≤ B) :
    Exact neg B m ((j : Int) + w) v ↔ Exact neg B (m * B ^ j) w v := by
  have hB0 : ∀ n : Nat, ((B : Int) ^ n) ≠ 0 := fun n => pow_ne_zero _ (by omega)
  have hs : (if neg then -((m * B ^ j : Nat) : Int) else (m * B ^ j : Nat)) = (if neg then -(m : Int) else m) * (B : Int) ^ j := by
    split <;> push_cast <;> ring
  unfold Exact
  rw [hs]
  generalize (if neg then -(m : Int) else m) = M
  refine and_congr_left fun _ => ?_
  rcases Int.lt_or_le w 0 with hw | hw
  · obtain ⟨k, rfl⟩ : ∃ k : Nat, w = -(k : Int) := ⟨w.natAbs, by omega⟩
    rw [show (- -(k : Int)).toNat = k by omega, show (-(k : Int)).toNat = 0 by omega, pow_zero, mul_one]
    rcases Nat.le_total k j with hk | hk
    · obtain ⟨i, rfl⟩ : ∃ i, j = k + i := ⟨j - k, by omega⟩
      rw [show (-(((k + i : Nat) : Int) + -(k : Int))).toNat = 0 by omega, show (((k + i : Nat) : Int) + -(k : Int)).toNat = i by omega,
        pow_zero, mul_one, pow_add]
      constructor
      · rintro rfl; ring
      · intro h
        apply mul_right_cancel₀ (hB0 k)
        rw [h]; ring
    · obtain ⟨i, rfl⟩ : ∃ i, k = j + i := ⟨k - j, by omega⟩
      rw [show (-((j : Int) + -((j + i : Nat) : Int))).toNat = i by omega, show ((j : Int) + -((j + i : Nat) : Int)).toNat = 0 by omega,
        pow_zero, mul_one, pow_add]
      constructor
      · intro h
        rw [← h]; ring
      · intro h
        apply mul_right_cancel₀ (hB0 j)
        rw [← h]; ring
  · obtain ⟨n, rfl⟩ := Int.eq_ofNat_of_zero_le hw
    rw [show (-((j : Int) + (n : Int))).toNat = 0 by omega, show (-(n : Int)).toNat = 0 by omega,
      show ((j : Int) + (n : Int)).toNat = j + n by omega, Int.toNat_natCast, pow_zero, mul_one, pow_add, mul_assoc]

/-- The conversion of a numeral without a radix point gives `v` exactly if that is what it denotes. -/
theorem gives_denotes {neg : Bool} {p : Parts} {g g' : NumGet} {v : Int} (hb : p.base = 2 ∨ p.base = 10 ∨ p.base = 16) (hf : p.frac = none)
    (hm : Meaning neg p g') (hn : Near g g') : Gives g v ↔ Denotes neg p v := by
  obtain ⟨m, rest, hk, rfl⟩ := hm.kept
  obtain ⟨e, rfl, ha⟩ := hn
  dsimp only at ha ⊢
  have hdig : p.digits = p.whole := by unfold Parts.digits; rw [hf]; simp
  rw [hdig] at hk
  rw [hf] at ha
  simp only [Option.getD_none, List.length_nil, Nat.cast_zero, sub_zero] at ha
  have hB : 2 ≤ p.radix := by unfold Parts.radix; split <;> omega
  have hz := kept_zeros (by omega) hk
  obtain ⟨j, hj, hpow⟩ := pow_step p hb rest.length
  rw [hj] at ha
  cases hr : rest.any (· ≠ 0) with
  | true =>
    constructor
    · intro h; exact absurd h (gives_more hB)
    · intro h
      have := hz.mpr h.fits
      rw [hr] at this
      cases this
  | false =>
    rw [castI_exact hB hk.lt]
    have h1 : Exact neg p.radix m e v ↔ Exact neg p.radix m ((j : Int) + p.written) v :=
      ⟨exact_approx hB hk.lt ha, exact_approx hB hk.lt ha.symm⟩
    obtain ⟨lead, h2, h3⟩ := hk.split
    have hrest : rest = List.replicate rest.length 0 := by
      apply List.eq_replicate_iff.mpr
      refine ⟨rfl, fun b hb => ?_⟩
      have := List.any_eq_false.mp hr b hb
      simpa using this
    have hnum : number p.base p.whole = m * p.radix ^ j := by
      rw [h2, hrest, number_shift, ← h3, ← hpow]
    rw [h1, exact_shift hB, ← hnum]
    constructor
    · intro h
      exact ⟨hz.mp hr, h.1, h.2⟩
    · intro h
      exact ⟨h.eq, h.range⟩

end Asteria.Lexer
