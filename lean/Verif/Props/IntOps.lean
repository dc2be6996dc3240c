import Verif.Proof.IntOps

/-!
# Properties of the integer operators (C24–C28)

The specification speaks about mathematical integers: `x.toInt` is the value of the 64-bit
two's complement pattern `x`, and `x.toNat` its unsigned reading.
-/

namespace Asteria.IntOps

/-- The integers representable in `int64_t`. -/
def Representable (i : Int) : Prop := -2 ^ 63 ≤ i ∧ i ≤ 2 ^ 63 - 1

/-- "The exact result, or an exception if it is not representable." -/
def ExactOrThrow (r : Res I64) (i : Int) : Prop :=
  (Representable i → ∃ v, r = .ok v ∧ v.toInt = i) ∧ (¬ Representable i → r = .throw)

theorem wrap_exact (i : Int) :
    ExactOrThrow (if (wrapOvf i).2 then .throw else .ok (wrapOvf i).1) i := by
  unfold ExactOrThrow Representable wrapOvf
  by_cases h : -9223372036854775808 ≤ i ∧ i < 9223372036854775808
  · have := (ofInt_toInt_iff i).2 h
    simp only [this, ne_eq, not_true_eq_false, decide_false, Bool.false_eq_true, if_false]
    refine ⟨fun _ => ⟨_, rfl, this⟩, fun hn => ?_⟩
    norm_num at hn; omega
  · have : (BitVec.ofInt 64 i).toInt ≠ i := fun hc => h ((ofInt_toInt_iff i).1 hc)
    simp only [ne_eq, this, not_false_eq_true, decide_true, if_true]
    refine ⟨fun hn => ?_, fun _ => trivial⟩
    norm_num at hn; omega

/-! ## C24: exact or throw -/

/-- C24: `x + y`. -/
theorem C24_add (x y : I64) : ExactOrThrow (add x y) (x.toInt + y.toInt) := wrap_exact _
/-- C24: `x - y`. -/
theorem C24_sub (x y : I64) : ExactOrThrow (sub x y) (x.toInt - y.toInt) := wrap_exact _
/-- C24: `x * y`. -/
theorem C24_mul (x y : I64) : ExactOrThrow (mul x y) (x.toInt * y.toInt) := wrap_exact _
/-- C24: `++x`. -/
theorem C24_inc (x : I64) : ExactOrThrow (inc x) (x.toInt + 1) := wrap_exact _
/-- C24: `--x`. -/
theorem C24_dec (x : I64) : ExactOrThrow (dec x) (x.toInt - 1) := wrap_exact _

/-- C24: unary `-x`. -/
theorem C24_neg (x : I64) : ExactOrThrow (neg x) (-x.toInt) := by
  have := wrap_exact ((0 : I64).toInt - x.toInt)
  have h0 : (0 : I64).toInt = 0 := by decide
  simpa only [neg, subm, h0, zero_sub] using this

/-- C24: `__abs x`. -/
theorem C24_abs (x : I64) : ExactOrThrow (abs x) |x.toInt| := by
  have hl := toInt_lb x
  have hu := toInt_ub x
  have h0 : (0 : I64).toInt = 0 := by decide
  unfold abs ExactOrThrow Representable subm wrapOvf
  simp only [h0, zero_sub, sar63, Res.bind_eq, Res.bind, Res.pure_eq]
  by_cases h : x.toInt = -9223372036854775808
  · have hne : (BitVec.ofInt 64 (-x.toInt)).toInt ≠ -x.toInt := by
      intro hc; have := (ofInt_toInt_iff _).1 hc; omega
    simp only [ne_eq, hne, not_false_eq_true, decide_true, if_true]
    rw [h]
    norm_num
  · have he : (BitVec.ofInt 64 (-x.toInt)).toInt = -x.toInt := (ofInt_toInt_iff _).2 (by omega)
    simp only [ne_eq, he, not_true_eq_false, decide_false, Bool.false_eq_true, if_false]
    refine ⟨fun _ => ⟨_, rfl, ?_⟩, fun hn => ?_⟩
    · split
      · next hneg =>
        have e : ∀ a b : I64, ((a ^^^ b) &&& -1#64) ^^^ a = b := by
          intro a b
          have : (-1#64 : I64) = BitVec.allOnes 64 := by decide
          rw [this, BitVec.and_allOnes, BitVec.xor_comm a b, BitVec.xor_assoc, BitVec.xor_self,
            BitVec.xor_zero]
        rw [e, he, abs_of_neg hneg]
      · next hneg =>
        have e : ∀ a b : I64, ((a ^^^ b) &&& 0#64) ^^^ a = a := by
          intro a b
          rw [BitVec.and_zero, BitVec.zero_xor]
        rw [e, abs_of_nonneg (by omega)]
    · exfalso; apply hn
      norm_num
      rcases abs_cases x.toInt with ⟨h1, h2⟩ | ⟨h1, h2⟩ <;> omega

theorem tdiv_range (x y : Int) (hl : -9223372036854775808 ≤ x) (hu : x < 9223372036854775808)
    (hy : y ≠ 0) (h : ¬ (x = -9223372036854775808 ∧ y = -1)) :
    -9223372036854775808 ≤ x.tdiv y ∧ x.tdiv y < 9223372036854775808 := by
  have h1 : (x.tdiv y).natAbs = x.natAbs / y.natAbs := Int.natAbs_tdiv x y
  by_cases h2 : y.natAbs = 1
  · rcases Int.natAbs_eq y with h3 | h3
    · rw [h2] at h3; simp at h3; rw [h3, Int.tdiv_one]; omega
    · rw [h2] at h3; simp at h3
      rw [h3, Int.tdiv_neg, Int.tdiv_one]; omega
  · have : x.natAbs / y.natAbs ≤ x.natAbs / 2 :=
      Nat.div_le_div_left (by omega) (by omega)
    omega

/-- C24: `x / y` throws for a zero divisor; otherwise it is the exact quotient truncated toward
zero, or throws if that is not representable.  It is never undefined. -/
theorem C24_div (x y : I64) :
    (y.toInt = 0 → div x y = .throw) ∧
    (y.toInt ≠ 0 → ExactOrThrow (div x y) (x.toInt.tdiv y.toInt)) := by
  have hl := toInt_lb x
  have hu := toInt_ub x
  have hm1 : (-1 : I64).toInt = -1 := by decide
  have h0 : (0 : I64).toInt = 0 := by decide
  unfold div
  simp only [eq_iff_toInt, h0, hm1, toInt_min]
  constructor
  · intro h; simp [h]
  · intro h
    rw [if_neg h]
    unfold ExactOrThrow Representable divC
    by_cases hc : x.toInt = -9223372036854775808 ∧ y.toInt = -1
    · rw [if_pos hc, hc.1, hc.2]
      norm_num
    · have hr := tdiv_range _ _ hl hu h hc
      rw [if_neg hc, if_neg h, if_neg (by norm_num; omega)]
      refine ⟨fun _ => ⟨_, rfl, (ofInt_toInt_iff _).2 hr⟩, fun hn => ?_⟩
      norm_num at hn; omega

/-- C24: `x % y` throws for a zero divisor and for `INT64_MIN % -1` (whose quotient overflows);
otherwise it is the exact remainder, with the sign of the dividend.  It is never undefined. -/
theorem C24_mod (x y : I64) :
    (y.toInt = 0 ∨ (x.toInt = -2 ^ 63 ∧ y.toInt = -1) → mod x y = .throw) ∧
    (y.toInt ≠ 0 → ¬ (x.toInt = -2 ^ 63 ∧ y.toInt = -1) →
      ∃ v, mod x y = .ok v ∧ v.toInt = x.toInt.tmod y.toInt) := by
  have hl := toInt_lb x
  have hu := toInt_ub x
  have hm1 : (-1 : I64).toInt = -1 := by decide
  have h0 : (0 : I64).toInt = 0 := by decide
  unfold mod
  simp only [eq_iff_toInt, h0, hm1, toInt_min]
  norm_num
  constructor
  · rintro (h | ⟨h, h'⟩)
    · simp [h]
    · simp [h, h']
  · intro h hc
    rw [if_neg h, if_neg (by omega)]
    unfold modC
    norm_num
    rw [if_neg h, if_neg (by omega)]
    refine ⟨_, rfl, (ofInt_toInt_iff _).2 ?_⟩
    have h1 : (x.toInt.tmod y.toInt).natAbs = x.toInt.natAbs % y.toInt.natAbs := Int.natAbs_tmod _ _
    have h2 : x.toInt.natAbs % y.toInt.natAbs ≤ x.toInt.natAbs := Nat.mod_le _ _
    have h3 : x.toInt.natAbs % y.toInt.natAbs < y.toInt.natAbs := Nat.mod_lt _ (by omega)
    have := toInt_lb y
    have := toInt_ub y
    omega

/-- The two outcomes of `C24_add` both occur. -/
example : add 5 (-7) = .ok (-2) ∧ add int64Max 1 = .throw := by decide
example : mul 0x7FFFFFFF 0x7FFFFFFF = .ok 0x3FFFFFFF00000001 ∧ mul int64Min (-1) = .throw := by decide
example : div (-7) 2 = .ok (-3) ∧ div int64Min (-1) = .throw ∧ div 1 0 = .throw := by decide
example : mod (-7) 2 = .ok (-1) ∧ mod int64Min (-1) = .throw ∧ mod 1 0 = .throw := by decide
example : abs (-7) = .ok 7 ∧ abs int64Min = .throw := by decide
example : neg 7 = .ok (-7) ∧ neg int64Min = .throw ∧ inc int64Max = .throw ∧ dec int64Min = .throw := by
  decide

/-! ## C25: modular arithmetic -/

/-- "The representable integer congruent to `i` modulo 2^64." -/
def CongruentTo (r : Res I64) (i : Int) : Prop := ∃ v, r = .ok v ∧ (v.toInt - i) % 2 ^ 64 = 0

theorem wrap_congr (i : Int) : CongruentTo (.ok (wrapOvf i).1) i := by
  refine ⟨_, rfl, ?_⟩
  simp only [wrapOvf, BitVec.toInt_ofInt]
  have := Int.bmod_def i (2 ^ 64)
  rw [this]
  norm_num
  split <;> omega

/-- C25: `__addm` never throws and returns the sum modulo 2^64. -/
theorem C25_addm (x y : I64) : CongruentTo (addmOp x y) (x.toInt + y.toInt) := wrap_congr _
/-- C25: `__subm`. -/
theorem C25_subm (x y : I64) : CongruentTo (submOp x y) (x.toInt - y.toInt) := wrap_congr _
/-- C25: `__mulm`. -/
theorem C25_mulm (x y : I64) : CongruentTo (mulmOp x y) (x.toInt * y.toInt) := wrap_congr _

/-- The congruence determines the result: two `int64_t` values congruent modulo 2^64 are equal. -/
theorem C25_unique (r s : I64) (i : Int) (hr : (r.toInt - i) % 2 ^ 64 = 0)
    (hs : (s.toInt - i) % 2 ^ 64 = 0) : r = s := by
  apply toInt_inj
  have := toInt_lb r
  have := toInt_ub r
  have := toInt_lb s
  have := toInt_ub s
  norm_num at hr hs
  omega

example : addmOp int64Max 1 = .ok int64Min ∧ mulmOp int64Max 2 = .ok (-2) ∧
    submOp int64Min 1 = .ok int64Max := by decide

/-! ## C26: saturating arithmetic -/

/-- The nearest representable integer. -/
def nearest (i : Int) : Int := max (-2 ^ 63) (min i (2 ^ 63 - 1))

theorem sat_of (r : Res I64) (i : Int) (x : Int) (v : I64) (ok : r =
      if (wrapOvf i).2 then (Res.ok v) else .ok (wrapOvf i).1)
    (hv : v.toInt = if x < 0 then -9223372036854775808 else 9223372036854775807)
    (hx : i < -9223372036854775808 → x < 0) (hx' : 9223372036854775807 < i → ¬ x < 0) :
    ∃ v, r = .ok v ∧ v.toInt = nearest i := by
  rw [ok]
  unfold wrapOvf
  by_cases h : -9223372036854775808 ≤ i ∧ i < 9223372036854775808
  · have := (ofInt_toInt_iff i).2 h
    simp only [this, ne_eq, not_true_eq_false, decide_false, Bool.false_eq_true, if_false]
    refine ⟨_, rfl, ?_⟩
    rw [this]; unfold nearest; norm_num; omega
  · have : (BitVec.ofInt 64 i).toInt ≠ i := fun hc => h ((ofInt_toInt_iff i).1 hc)
    simp only [this, ne_eq, not_false_eq_true, decide_true, if_true]
    refine ⟨_, rfl, ?_⟩
    rw [hv]
    unfold nearest
    norm_num
    split <;> omega

theorem sign_sat (x : Int) :
    ((if x < 0 then -1#64 else 0#64) ^^^ int64Max).toInt =
      if x < 0 then -9223372036854775808 else 9223372036854775807 := by
  split
  · rw [neg1_xor_max, toInt_min]
  · rw [zero_xor_max, toInt_max]

/-- C26: `__adds` never throws and returns the sum clamped to the representable range. -/
theorem C26_adds (x y : I64) : ∃ v, adds x y = .ok v ∧ v.toInt = nearest (x.toInt + y.toInt) := by
  have := toInt_lb x
  have := toInt_ub x
  have := toInt_lb y
  have := toInt_ub y
  refine sat_of _ _ x.toInt _ ?_ (sign_sat x.toInt) (by omega) (by omega)
  unfold adds addm
  rw [sar63]
  rfl

/-- C26: `__subs`. -/
theorem C26_subs (x y : I64) : ∃ v, subs x y = .ok v ∧ v.toInt = nearest (x.toInt - y.toInt) := by
  have := toInt_lb x
  have := toInt_ub x
  have := toInt_lb y
  have := toInt_ub y
  refine sat_of _ _ x.toInt _ ?_ (sign_sat x.toInt) (by omega) (by omega)
  unfold subs subm
  rw [sar63]
  rfl

/-- C26: `__muls`. -/
theorem C26_muls (x y : I64) : ∃ v, muls x y = .ok v ∧ v.toInt = nearest (x.toInt * y.toInt) := by
  have hv : ((if x.toInt < 0 then -1#64 else 0#64) ^^^ (if y.toInt < 0 then -1#64 else 0#64) ^^^
      int64Max).toInt =
      if (if (x.toInt < 0) = (y.toInt < 0) then (0 : Int) else -1) < 0
      then -9223372036854775808 else 9223372036854775807 := by
    by_cases h1 : x.toInt < 0 <;> by_cases h2 : y.toInt < 0 <;> simp [h1, h2] <;> decide
  refine sat_of _ _ _ _ ?_ hv ?_ ?_
  · unfold muls mulm
    rw [sar63, sar63]
    rfl
  · intro h
    by_cases h1 : x.toInt < 0 <;> by_cases h2 : y.toInt < 0 <;> simp [h1, h2]
    · have := mul_nonneg_of_nonpos_of_nonpos h1.le h2.le; omega
    · have := mul_nonneg (not_lt.1 h1) (not_lt.1 h2); omega
  · intro h
    by_cases h1 : x.toInt < 0 <;> by_cases h2 : y.toInt < 0 <;> simp [h1, h2]
    · have := mul_nonpos_of_nonpos_of_nonneg h1.le (not_lt.1 h2); omega
    · have := mul_nonpos_of_nonneg_of_nonpos (not_lt.1 h1) h2.le; omega

example : adds int64Max 1 = .ok int64Max ∧ adds 5 6 = .ok 11 ∧ subs int64Min 1 = .ok int64Min ∧
    muls int64Min (-1) = .ok int64Max ∧ muls int64Min 2 = .ok int64Min := by decide

/-! ## C27: shifts -/

/-- C27: every shift throws for a negative count. -/
theorem C27_negative_count (x n : I64) (h : n.toInt < 0) :
    sll x n = .throw ∧ srl x n = .throw ∧ sla x n = .throw ∧ sra x n = .throw := by
  simp [sll, srl, sla, sra, h]

/-- C27: `x <<< n` is multiplication by `2^n` modulo `2^64` on the unsigned reading, for every
non-negative count. -/
theorem C27_sll (x n : I64) (h : 0 ≤ n.toInt) :
    ∃ v, sll x n = .ok v ∧ v.toNat = x.toNat * 2 ^ n.toInt.toNat % 2 ^ 64 := by
  unfold sll shlU
  rw [if_neg (by omega)]
  by_cases hb : n.toInt ≤ 63
  · obtain ⟨h1, h2⟩ := clampCount_eq n h hb
    rw [h1, h2, if_pos (by omega)]
    refine ⟨_, rfl, ?_⟩
    simp [BitVec.toNat_shiftLeft, Nat.shiftLeft_eq]
  · obtain ⟨h1, h2⟩ := clampCount_big n (by omega)
    rw [h1, h2, if_pos (by omega)]
    refine ⟨_, rfl, ?_⟩
    have : n.toInt.toNat = 64 + (n.toInt.toNat - 64) := by omega
    rw [this, pow_add, ← mul_assoc, mul_comm x.toNat, mul_assoc, Nat.mul_mod_right]
    simp only [BitVec.toNat_shiftLeft, Nat.shiftLeft_eq]
    omega

/-- C27: `x >>> n` is division by `2^n` on the unsigned reading, for every non-negative count. -/
theorem C27_srl (x n : I64) (h : 0 ≤ n.toInt) :
    ∃ v, srl x n = .ok v ∧ v.toNat = x.toNat / 2 ^ n.toInt.toNat := by
  unfold srl shrU
  rw [if_neg (by omega)]
  by_cases hb : n.toInt ≤ 63
  · obtain ⟨h1, h2⟩ := clampCount_eq n h hb
    rw [h1, h2, if_pos (by omega)]
    refine ⟨_, rfl, ?_⟩
    simp [BitVec.toNat_ushiftRight, Nat.shiftRight_eq_div_pow]
  · obtain ⟨h1, h2⟩ := clampCount_big n (by omega)
    rw [h1, h2, if_pos (by omega)]
    refine ⟨_, rfl, ?_⟩
    have hlt := x.isLt
    have hp : 2 ^ 64 ≤ 2 ^ n.toInt.toNat := Nat.pow_le_pow_right (by decide) (by omega)
    rw [Nat.div_eq_of_lt (lt_of_lt_of_le hlt hp)]
    simp only [BitVec.toNat_ushiftRight, Nat.shiftRight_eq_div_pow]
    norm_num at hlt ⊢
    omega

/-- C27: `x >> n` is the floor of `x / 2^n`, for every non-negative count. -/
theorem C27_sra (x n : I64) (h : 0 ≤ n.toInt) :
    ∃ v, sra x n = .ok v ∧ v.toInt = x.toInt / 2 ^ n.toInt.toNat := by
  have hl := toInt_lb x
  have hu := toInt_ub x
  unfold sra sar
  rw [if_neg (by omega), if_pos (by have := clampCount_le n; omega)]
  refine ⟨_, rfl, ?_⟩
  rw [BitVec.toInt_sshiftRight, Int.shiftRight_eq_div_pow]
  by_cases hb : n.toInt ≤ 63
  · rw [(clampCount_eq n h hb).1]; norm_num
  · rw [(clampCount_big n (by omega)).1]
    have hp : (2 : Int) ^ 63 ≤ 2 ^ n.toInt.toNat :=
      pow_le_pow_right₀ (by decide) (by omega)
    norm_num at hp ⊢
    by_cases hneg : x.toInt < 0
    · have : x.toInt / 2 ^ n.toInt.toNat = -1 := by
        rw [Int.ediv_eq_iff_of_pos (by positivity)]; constructor <;> linarith
      rw [this]; omega
    · have : x.toInt / 2 ^ n.toInt.toNat = 0 := Int.ediv_eq_zero_of_lt (by omega) (by linarith)
      rw [this]; omega

/-- C27: `x << n` is exactly `x * 2^n`, or throws if that is not representable, for every
non-negative count. -/
theorem C27_sla (x n : I64) (h : 0 ≤ n.toInt) :
    ExactOrThrow (sla x n) (x.toInt * 2 ^ n.toInt.toNat) := by
  have hl := toInt_lb x
  have hu := toInt_ub x
  have h0 : (0 : I64).toInt = 0 := by decide
  unfold sla ExactOrThrow Representable
  rw [if_neg (by omega)]
  have hle := clampCount_le n
  simp only [sar, shlU, show 63 - clampCount n < 64 by omega, show clampCount n < 64 by omega,
    if_true, Res.bind_eq, Res.bind, show (63 : Nat) < 64 by decide]
  simp only [ne_eq, eq_iff_toInt x, eq_iff_toInt (BitVec.sshiftRight _ _), h0]
  simp only [BitVec.toInt_sshiftRight, Int.shiftRight_eq_div_pow]
  by_cases hb : n.toInt ≤ 63
  · obtain ⟨h1, h2⟩ := clampCount_eq n h hb
    rw [h1, h2]
    set k := n.toInt.toNat with hk
    have hk63 : k ≤ 63 := by omega
    push_cast
    have hds := div_pow_sign x.toInt (63 - k) hl hu
    norm_num only at hds
    simp only [hds]
    have hp : (0 : Int) < 2 ^ k := by positivity
    have hq : (0 : Int) < 2 ^ (63 - k) := by positivity
    have hpq : (2 : Int) ^ (63 - k) * 2 ^ k = 2 ^ 63 := by rw [← pow_add]; congr 1; omega
    have iff1 : (-(2 ^ (63 - k)) ≤ x.toInt ∧ x.toInt < 2 ^ (63 - k)) ↔
        (-9223372036854775808 ≤ x.toInt * 2 ^ k ∧ x.toInt * 2 ^ k < 9223372036854775808) := by
      norm_num at hpq
      constructor
      · rintro ⟨ha, hb⟩
        constructor
        · have := mul_le_mul_of_nonneg_right ha hp.le; linarith
        · have := mul_lt_mul_of_pos_right hb hp; linarith
      · rintro ⟨ha, hb⟩
        constructor
        · by_contra hc
          have := mul_lt_mul_of_pos_right (not_le.1 hc) hp; linarith
        · by_contra hc
          have := mul_le_mul_of_nonneg_right (not_lt.1 hc) hp.le; linarith
    by_cases hr : -9223372036854775808 ≤ x.toInt * 2 ^ k ∧ x.toInt * 2 ^ k < 9223372036854775808
    · have hcond : ¬ (¬ x.toInt = 0 ∧ (¬ True ∨
          ¬ (-(2 ^ (63 - k)) ≤ x.toInt ∧ x.toInt < 2 ^ (63 - k)))) := by
        rw [iff1]; simp [hr]
      rw [if_neg hcond]
      refine ⟨fun _ => ⟨_, rfl, ?_⟩, fun hn => ?_⟩
      · rw [BitVec.toInt_shiftLeft, Nat.shiftLeft_eq]
        have : ((x.toNat * 2 ^ k : Nat) : Int).bmod (2 ^ 64) = (x.toInt * 2 ^ k).bmod (2 ^ 64) := by
          rw [BitVec.toInt_eq_toNat_bmod]
          push_cast
          rw [Int.bmod_mul_bmod]
        rw [this]
        exact (bmod_eq_iff _).2 hr
      · norm_num at hn; omega
    · have hcond : (¬ x.toInt = 0 ∧ (¬ True ∨
          ¬ (-(2 ^ (63 - k)) ≤ x.toInt ∧ x.toInt < 2 ^ (63 - k)))) := by
        rw [iff1]
        refine ⟨?_, Or.inr hr⟩
        intro hz; rw [hz] at hr; norm_num at hr
      rw [if_pos hcond]
      refine ⟨fun hn => ?_, fun _ => rfl⟩
      norm_num at hn; omega
  · obtain ⟨h1, h2⟩ := clampCount_big n (by omega)
    rw [h2]
    have hp : (2 : Int) ^ 64 ≤ 2 ^ n.toInt.toNat := pow_le_pow_right₀ (by decide) (by omega)
    norm_num at hp
    by_cases hz : x.toInt = 0
    · rw [if_neg (by simp [hz]), hz]
      refine ⟨fun _ => ⟨_, rfl, ?_⟩, fun hn => ?_⟩
      · have : x = 0#64 := toInt_inj (by rw [hz]; decide)
        rw [this]; simp
      · norm_num at hn
    · rw [if_pos ⟨hz, by simp⟩]
      refine ⟨fun hn => ?_, fun _ => rfl⟩
      exfalso
      norm_num at hn
      rcases lt_or_gt_of_ne hz with hs | hs
      · have : x.toInt * 2 ^ n.toInt.toNat ≤ -1 * 2 ^ n.toInt.toNat :=
          mul_le_mul_of_nonneg_right (by omega) (by positivity)
        omega
      · have : 1 * 2 ^ n.toInt.toNat ≤ x.toInt * 2 ^ n.toInt.toNat :=
          mul_le_mul_of_nonneg_right (by omega) (by positivity)
        omega

example : sla 3 4 = .ok 48 ∧ sla (-1) 63 = .ok int64Min ∧ sla 1 63 = .throw ∧ sla 0 100 = .ok 0 := by
  decide
example : sll 3 62 = .ok 0xC000000000000000 ∧ sll 3 64 = .ok 0 ∧ srl (-1) 60 = .ok 15 ∧
    srl (-1) 64 = .ok 0 ∧ sra (-7) 1 = .ok (-4) ∧ sra (-7) 100 = .ok (-1) := by decide

/-! ## C28: bit counting -/

theorem clzScan_spec (x : I64) (n : Nat) :
    clzScan x n ≤ n ∧ (∀ i, n - clzScan x n ≤ i → i < n → x.getLsbD i = false) ∧
    (clzScan x n < n → x.getLsbD (n - 1 - clzScan x n) = true) := by
  induction n with
  | zero => simp [clzScan]
  | succ n ih =>
    unfold clzScan
    split
    · next h => refine ⟨by omega, fun i _ _ => by omega, fun _ => by simpa using h⟩
    · next h =>
      obtain ⟨h1, h2, h3⟩ := ih
      refine ⟨by omega, fun i hi hi' => ?_, fun hlt => ?_⟩
      · by_cases hin : i = n
        · subst hin; simpa using h
        · exact h2 i (by omega) (by omega)
      · have := h3 (by omega)
        rwa [show n + 1 - 1 - (clzScan x n + 1) = n - 1 - clzScan x n by omega]

theorem ctzScan_spec (x : I64) (i n : Nat) :
    ctzScan x i n ≤ n ∧ (∀ j, i ≤ j → j < i + ctzScan x i n → x.getLsbD j = false) ∧
    (ctzScan x i n < n → x.getLsbD (i + ctzScan x i n) = true) := by
  induction n generalizing i with
  | zero => simp [ctzScan]; omega
  | succ n ih =>
    unfold ctzScan
    split
    · next h => refine ⟨by omega, fun j _ _ => by omega, fun _ => by simpa using h⟩
    · next h =>
      obtain ⟨h1, h2, h3⟩ := ih (i + 1)
      refine ⟨by omega, fun j hj hj' => ?_, fun hlt => ?_⟩
      · by_cases hin : j = i
        · subst hin; simpa using h
        · exact h2 j (by omega) (by omega)
      · have := h3 (by omega)
        rwa [show i + (ctzScan x (i + 1) n + 1) = i + 1 + ctzScan x (i + 1) n by omega]

theorem popScan_spec (x : I64) (n : Nat) :
    popScan x n = ((List.range n).filter fun i => x.getLsbD i).length := by
  induction n with
  | zero => rfl
  | succ n ih =>
    rw [List.range_succ, List.filter_append, List.length_append, popScan, ih]
    cases h : x.getLsbD n <;> simp [h]; omega

theorem exists_bit (x : I64) (h : x ≠ 0) : ∃ i < 64, x.getLsbD i = true := by
  by_contra hc
  apply h
  apply BitVec.eq_of_getLsbD_eq
  intro i hi
  have : ¬ x.getLsbD i = true := fun ht => hc ⟨i, hi, ht⟩
  simpa using this

/-- C28: `__lzcnt x` is 64 for zero; otherwise bit `63 - n` is set and all higher bits are clear. -/
theorem C28_lzcnt (x : I64) :
    (x = 0 → (lzcnt x).toInt = 64) ∧
    (x ≠ 0 → ∃ n : Nat, (lzcnt x).toInt = n ∧ n < 64 ∧ x.getLsbD (63 - n) = true ∧
      ∀ i, 63 - n < i → i < 64 → x.getLsbD i = false) := by
  constructor
  · rintro rfl; decide
  · intro h
    obtain ⟨h1, h2, h3⟩ := clzScan_spec x 64
    obtain ⟨i, hi, hb⟩ := exists_bit x h
    have hlt : clzScan x 64 < 64 := by
      by_contra hc
      have := h2 i (by omega) hi
      simp [hb] at this
    refine ⟨clzScan x 64, ?_, hlt, ?_, ?_⟩
    · rw [lzcnt, if_pos h]
      have : clzScan x 64 &&& 63 = clzScan x 64 := by
        rw [Nat.and_two_pow_sub_one_eq_mod _ 6]; omega
      rw [this, BitVec.toInt_eq_toNat_bmod]
      simp only [BitVec.toNat_ofNat]
      rw [Nat.mod_eq_of_lt (by omega)]
      rw [bmod_eq_iff]; omega
    · have := h3 hlt; rwa [show 64 - 1 - clzScan x 64 = 63 - clzScan x 64 by omega] at this
    · intro j hj hj'; exact h2 j (by omega) hj'

/-- C28: `__tzcnt x` is 64 for zero; otherwise bit `n` is set and all lower bits are clear. -/
theorem C28_tzcnt (x : I64) :
    (x = 0 → (tzcnt x).toInt = 64) ∧
    (x ≠ 0 → ∃ n : Nat, (tzcnt x).toInt = n ∧ n < 64 ∧ x.getLsbD n = true ∧
      ∀ i < n, x.getLsbD i = false) := by
  constructor
  · rintro rfl; decide
  · intro h
    obtain ⟨h1, h2, h3⟩ := ctzScan_spec x 0 64
    obtain ⟨i, hi, hb⟩ := exists_bit x h
    have hlt : ctzScan x 0 64 < 64 := by
      by_contra hc
      have := h2 i (by omega) (by omega)
      simp [hb] at this
    refine ⟨ctzScan x 0 64, ?_, hlt, ?_, ?_⟩
    · rw [tzcnt, if_pos h]
      have : ctzScan x 0 64 &&& 63 = ctzScan x 0 64 := by
        rw [Nat.and_two_pow_sub_one_eq_mod _ 6]; omega
      rw [this, BitVec.toInt_eq_toNat_bmod]
      simp only [BitVec.toNat_ofNat]
      rw [Nat.mod_eq_of_lt (by omega)]
      rw [bmod_eq_iff]; omega
    · have := h3 hlt; rwa [Nat.zero_add] at this
    · intro j hj; exact h2 j (by omega) (by omega)

/-- C28: `__popcnt x` is the number of set bits. -/
theorem C28_popcnt (x : I64) :
    (popcnt x).toInt = ((List.range 64).filter fun i => x.getLsbD i).length := by
  rw [popcnt, popScan_spec, BitVec.toInt_eq_toNat_bmod]
  have : ((List.range 64).filter fun i => x.getLsbD i).length ≤ 64 := by
    simpa using List.length_filter_le (fun i => x.getLsbD i) (List.range 64)
  simp only [BitVec.toNat_ofNat]
  rw [Nat.mod_eq_of_lt (by omega)]
  rw [bmod_eq_iff]; omega

example : lzcnt 0x10 = 59 ∧ tzcnt 0x10 = 4 ∧ popcnt 0xF0F = 8 ∧ lzcnt 0 = 64 := by decide

end Asteria.IntOps
