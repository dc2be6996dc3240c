import Verif.Model.IntOps
import Mathlib.Tactic.NormNum
import Mathlib.Tactic.Ring
import Mathlib.Tactic.Linarith
import Mathlib.Algebra.Order.Ring.Int

/-! Helper lemmas for the integer operators. -/

namespace Asteria.IntOps

theorem toInt_lb (x : I64) : -9223372036854775808 ≤ x.toInt := by
  have := BitVec.le_toInt x; simpa using this

theorem toInt_ub (x : I64) : x.toInt < 9223372036854775808 := by
  have := BitVec.toInt_lt (x := x); simpa using this

theorem bmod_eq_iff (i : Int) :
    i.bmod (2 ^ 64) = i ↔ -9223372036854775808 ≤ i ∧ i < 9223372036854775808 := by
  constructor
  · intro h
    have h1 := Int.le_bmod (x := i) (m := 2 ^ 64) (by decide)
    have h2 := Int.bmod_lt (x := i) (m := 2 ^ 64) (by decide)
    rw [h] at h1 h2
    norm_num at h1 h2
    omega
  · intro h
    apply Int.bmod_eq_of_le <;> norm_num <;> omega

theorem ofInt_toInt_iff (i : Int) :
    (BitVec.ofInt 64 i).toInt = i ↔ -9223372036854775808 ≤ i ∧ i < 9223372036854775808 := by
  rw [BitVec.toInt_ofInt, bmod_eq_iff]

theorem sar63 (x : I64) : sar x 63 = .ok (if x.toInt < 0 then -1#64 else 0#64) := by
  have h1 := toInt_lb x
  have h2 := toInt_ub x
  simp only [sar, show (63 : Nat) < 64 by decide, if_true]
  congr 1
  apply BitVec.eq_of_toInt_eq
  rw [BitVec.toInt_sshiftRight, Int.shiftRight_eq_div_pow]
  norm_num
  split
  · simp; omega
  · simp; omega

theorem neg1_xor_max : (-1#64) ^^^ int64Max = int64Min := by decide
theorem zero_xor_max : (0#64) ^^^ int64Max = int64Max := by decide
theorem toInt_max : int64Max.toInt = 9223372036854775807 := by decide
theorem toInt_min : int64Min.toInt = -9223372036854775808 := by decide

theorem toInt_inj {x y : I64} (h : x.toInt = y.toInt) : x = y := BitVec.eq_of_toInt_eq h

theorem eq_iff_toInt (x y : I64) : x = y ↔ x.toInt = y.toInt :=
  ⟨fun h => h ▸ rfl, toInt_inj⟩

theorem clampCount_le (r : I64) : clampCount r ≤ 63 := by
  unfold clampCount; omega

theorem clampCount_eq (r : I64) (h0 : 0 ≤ r.toInt) (h : r.toInt ≤ 63) :
    clampCount r = r.toInt.toNat ∧ countExceeds r = 0 := by
  unfold clampCount countExceeds
  constructor
  · omega
  · rw [if_neg]; omega

theorem clampCount_big (r : I64) (h : 63 < r.toInt) :
    clampCount r = 63 ∧ countExceeds r = 1 := by
  unfold clampCount countExceeds
  constructor
  · omega
  · rw [if_pos]; omega

theorem div_pow_sign (v : Int) (k : Nat)
    (h1 : -9223372036854775808 ≤ v) (h2 : v < 9223372036854775808) :
    v / 2 ^ k = v / 2 ^ 63 ↔ -(2 ^ k) ≤ v ∧ v < 2 ^ k := by
  have hp : (0 : Int) < 2 ^ k := by positivity
  have h63 : v / 2 ^ 63 = if v < 0 then -1 else 0 := by
    norm_num; split <;> omega
  rw [h63]
  split
  · next hn =>
    constructor
    · intro h
      have := Int.mul_ediv_add_emod v (2 ^ k)
      have h3 := Int.emod_nonneg v (ne_of_gt hp)
      rw [h] at this
      constructor <;> linarith
    · intro h
      rw [Int.ediv_eq_iff_of_pos hp]
      constructor <;> linarith
  · next hn =>
    constructor
    · intro h
      have := Int.mul_ediv_add_emod v (2 ^ k)
      have h3 := Int.emod_lt_of_pos v hp
      rw [h] at this
      constructor <;> linarith
    · intro h
      exact Int.ediv_eq_zero_of_lt (by omega) h.2

end Asteria.IntOps
