import Verif.Model.Value
import Mathlib.Tactic.Linarith
import Mathlib.Tactic.NormNum
import Mathlib.Tactic.Ring
import Mathlib.Tactic.Positivity
import Mathlib.Tactic.ByContra
import Mathlib.Algebra.Order.Ring.Abs

/-!
# Properties of value comparison (C39, C40, C71)
-/

namespace Asteria
open Value

/-! ## The rounding of `int64_t` to `double` -/

theorem log2_bounds {n k : Nat} (h0 : 0 < n) (hk : k = Nat.log2 n) : 2 ^ k ≤ n ∧ n < 2 ^ (k + 1) := by
  subst hk
  exact ⟨Nat.log2_self_le (by omega), Nat.lt_log2_self⟩

/-- `roundDown` is IEEE 754's roundTowardNegative: the greatest double that is not above `x`. -/
theorem roundDown_spec (x : ℤ) (h1 : -2 ^ 63 ≤ x) (h2 : x < 2 ^ 63) :
    IsDouble (roundDown x : ℤ) ∧ roundDown x ≤ x ∧ ∀ q, IsDouble q → q ≤ x → q ≤ (roundDown x : ℤ) := by
  have hpos : ∀ k : ℕ, (0 : ℤ) < 2 ^ k := fun k => by positivity
  rcases Nat.eq_zero_or_pos (Nat.log2 x.natAbs - 52) with hk | hk
  · have hr : roundDown x = x := by unfold roundDown; rw [hk]; simp
    rw [hr]
    refine ⟨⟨x, 0, ?_, by norm_num, by norm_num, by simp⟩, le_refl _, fun q _ hq => hq⟩
    rcases Nat.eq_zero_or_pos x.natAbs with h0 | h0
    · have : x = 0 := by omega
      subst this; norm_num
    · have hb := (log2_bounds h0 rfl).2
      have : x.natAbs < 2 ^ 53 := lt_of_lt_of_le hb (Nat.pow_le_pow_right (by norm_num) (by omega))
      rw [Int.abs_eq_natAbs]
      exact_mod_cast this
  · obtain ⟨k, hkdef⟩ : ∃ k, k = Nat.log2 x.natAbs - 52 := ⟨_, rfl⟩
    rw [← hkdef] at hk
    have h0 : 0 < x.natAbs := by
      rcases Nat.eq_zero_or_pos x.natAbs with h0 | h0
      · rw [h0] at hkdef; simp at hkdef; omega
      · exact h0
    obtain ⟨hlo, hhi⟩ := log2_bounds h0 (show 52 + k = Nat.log2 x.natAbs by omega)
    have hk11 : k ≤ 11 := by
      by_contra hc
      have h63 : x.natAbs ≤ 2 ^ 63 := by omega
      have : 2 ^ 64 ≤ 2 ^ (52 + k) := Nat.pow_le_pow_right (by norm_num) (by omega)
      omega
    have hlo' : (2 : ℤ) ^ 52 * 2 ^ k ≤ |x| := by
      rw [← pow_add, Int.abs_eq_natAbs]; exact_mod_cast hlo
    have hhi' : |x| < 2 ^ 53 * 2 ^ k := by
      rw [← pow_add, Int.abs_eq_natAbs, show 53 + k = 52 + k + 1 by ring]; exact_mod_cast hhi
    have hr : roundDown x = x / 2 ^ k * 2 ^ k := by unfold roundDown; rw [← hkdef]
    rw [hr]
    have hle : x / 2 ^ k * 2 ^ k ≤ x := Int.ediv_mul_le x (by have := hpos k; omega)
    have hupper : x / 2 ^ k < 2 ^ 53 := by
      rw [Int.ediv_lt_iff_lt_mul (hpos k)]
      exact lt_of_le_of_lt (le_abs_self x) hhi'
    have hlower : -2 ^ 53 ≤ x / 2 ^ k := by
      rw [Int.le_ediv_iff_mul_le (hpos k)]
      have := neg_abs_le x
      linarith
    refine ⟨?_, hle, ?_⟩
    · by_cases he : x / 2 ^ k = -2 ^ 53
      · refine ⟨-2 ^ 52, k + 1, by norm_num, by omega, by omega, ?_⟩
        rw [he, zpow_add₀ (by norm_num), zpow_natCast]
        push_cast; ring
      · refine ⟨x / 2 ^ k, k, ?_, by omega, by omega, ?_⟩
        · rw [abs_lt]; constructor
          · omega
          · exact hupper
        · rw [zpow_natCast]; push_cast; rfl
    · rintro q ⟨m, e, hm, he1, he2, rfl⟩ hq
      by_cases hek : (k : ℤ) ≤ e
      · obtain ⟨j, rfl⟩ : ∃ j : ℕ, e = k + j := ⟨(e - k).toNat, by omega⟩
        rw [zpow_add₀ (by norm_num), zpow_natCast, zpow_natCast] at hq ⊢
        have hq' : (m * 2 ^ j) * 2 ^ k ≤ x := by
          have : ((m * 2 ^ j * 2 ^ k : ℤ) : ℚ) ≤ (x : ℚ) := by push_cast; linarith
          exact_mod_cast this
        have := (Int.le_ediv_iff_mul_le (hpos k)).2 hq'
        have h3 : m * 2 ^ j * 2 ^ k ≤ x / 2 ^ k * 2 ^ k :=
          mul_le_mul_of_nonneg_right this (le_of_lt (hpos k))
        have h4 : ((m * 2 ^ j * 2 ^ k : ℤ) : ℚ) ≤ ((x / 2 ^ k * 2 ^ k : ℤ) : ℚ) := by exact_mod_cast h3
        push_cast at h4 ⊢
        linarith
      · -- the magnitude of `q` is less than that of `x`
        have hz : (2 : ℚ) ^ e ≤ 2 ^ k / 2 := by
          have : (2 : ℚ) ^ e ≤ 2 ^ ((k : ℤ) - 1) := zpow_le_zpow_right₀ (by norm_num) (by omega)
          rw [zpow_sub₀ (by norm_num), zpow_natCast, zpow_one] at this
          exact this
        have hzp : (0 : ℚ) < 2 ^ e := by positivity
        have hkp : (0 : ℚ) < 2 ^ k := by positivity
        have hmq : |(m : ℚ)| < 2 ^ 53 := by
          have : ((|m| : ℤ) : ℚ) < ((2 ^ 53 : ℤ) : ℚ) := by exact_mod_cast hm
          push_cast at this; exact this
        have habs : |(m : ℚ) * 2 ^ e| < 2 ^ 52 * 2 ^ k := by
          rw [abs_mul, abs_of_pos hzp]
          calc |(m : ℚ)| * 2 ^ e < 2 ^ 53 * 2 ^ e := by apply mul_lt_mul_of_pos_right hmq hzp
            _ ≤ 2 ^ 53 * (2 ^ k / 2) := by apply mul_le_mul_of_nonneg_left hz (by norm_num)
            _ = 2 ^ 52 * 2 ^ k := by ring
        rcases le_or_gt 0 x with hx | hx
        · rw [abs_of_nonneg hx] at hlo'
          have h5 := (Int.le_ediv_iff_mul_le (hpos k)).2 hlo'
          have h6 : (2 : ℤ) ^ 52 * 2 ^ k ≤ x / 2 ^ k * 2 ^ k :=
            mul_le_mul_of_nonneg_right h5 (le_of_lt (hpos k))
          have h7 : ((2 ^ 52 * 2 ^ k : ℤ) : ℚ) ≤ ((x / 2 ^ k * 2 ^ k : ℤ) : ℚ) := by exact_mod_cast h6
          have h8 := lt_of_le_of_lt (le_abs_self _) habs
          push_cast at h7 ⊢
          linarith
        · rw [abs_of_neg hx] at hlo'
          have h7 : ((2 ^ 52 * 2 ^ k : ℤ) : ℚ) ≤ ((-x : ℤ) : ℚ) := by exact_mod_cast hlo'
          have h8 := lt_of_le_of_lt (neg_le_abs _) habs
          push_cast at h7
          linarith

/-- The conversion back to `int64_t` is in range. -/
theorem roundDown_range (x : ℤ) (h1 : -2 ^ 63 ≤ x) (h2 : x < 2 ^ 63) :
    -2 ^ 63 ≤ roundDown x ∧ roundDown x < 2 ^ 63 := by
  obtain ⟨-, g1, g2⟩ := roundDown_spec x h1 h2
  refine ⟨?_, by omega⟩
  have := g2 (((-2 ^ 63 : ℤ)) : ℚ) ⟨-2 ^ 52, 11, by norm_num, by norm_num, by norm_num, by norm_num⟩
    (by exact_mod_cast h1)
  exact_mod_cast this

/-! ## C40 -/

/-- The order of the extended number line; NaN is unordered with everything. -/
def exactCompare (x y : Dbl) : Compare :=
  if x.isunordered y then .unordered
  else if x.isless y then .less
  else if y.isless x then .greater
  else .equal

/-- The number that an arithmetic value stands for, on the extended line. -/
def numOf : Value → Option Dbl
  | int i => some (.fin i)
  | real d => some d
  | _ => none

/-- Integers are `int64_t` and reals are doubles, at any depth. -/
def Value.Valid : Value → Prop
  | int i => -2 ^ 63 ≤ i ∧ i < 2 ^ 63
  | real d => d.Valid
  | arr l => ValidList l
  | _ => True
where
  /-- All elements are valid. -/
  ValidList : List Value → Prop
    | [] => True
    | x :: xs => x.Valid ∧ ValidList xs

theorem isless_fin (p q : ℚ) : (Dbl.fin p).isless (.fin q) = decide (p < q) := rfl

/-- The exact comparison of an integer with a double, by way of the rounded integer. -/
theorem round_cmp (i : ℤ) (h1 : -2 ^ 63 ≤ i) (h2 : i < 2 ^ 63) (q : ℚ) (hq : IsDouble q) :
    (q < (roundDown i : ℤ) → q < i) ∧ ((roundDown i : ℤ) < q → (i : ℚ) < q) ∧
      (q = (roundDown i : ℤ) → roundDown i ≠ i → q < i) ∧ (roundDown i = i → q = (roundDown i : ℤ) → q = i) := by
  obtain ⟨-, g1, g2⟩ := roundDown_spec i h1 h2
  have g1q : ((roundDown i : ℤ) : ℚ) ≤ (i : ℚ) := by exact_mod_cast g1
  refine ⟨fun h => lt_of_lt_of_le h g1q, fun h => ?_, fun h hn => ?_, fun h hq => by rw [hq, h]⟩
  · by_contra hc
    exact absurd (g2 q hq (not_lt.1 hc)) (not_le.2 h)
  · rw [h]
    have : roundDown i < i := lt_of_le_of_ne g1 hn
    exact_mod_cast this

theorem compareNumericInt_exact (a : Value) (ha : a.Valid) (i : ℤ) (h1 : -2 ^ 63 ≤ i) (h2 : i < 2 ^ 63)
    (x : Dbl) (hx : numOf a = some x) : compareNumericInt a i = exactCompare x (.fin i) := by
  cases a <;> simp only [numOf, reduceCtorEq, Option.some.injEq] at hx
  · next v =>
    subst hx
    unfold compareNumericInt exactCompare
    simp only [Dbl.isunordered, isless_fin]
    by_cases hlt : v < i
    · have : (v : ℚ) < i := by exact_mod_cast hlt
      simp [hlt]
    · by_cases hgt : i < v
      · simp [hlt, hgt]
      · simp [hlt, hgt]
  · next d =>
    subst hx
    unfold compareNumericInt exactCompare
    cases d with
    | nan => simp [Dbl.isless, Dbl.isgreater, Dbl.isunordered]
    | inf neg => cases neg <;> simp [Dbl.isless, Dbl.isgreater, Dbl.isunordered]
    | fin q =>
      obtain ⟨e1, e2, e3, e4⟩ := round_cmp i h1 h2 q ha
      simp only [Dbl.isgreater, isless_fin, Dbl.isunordered, decide_eq_true_eq, Bool.false_eq_true, if_false]
      rcases lt_trichotomy q ((roundDown i : ℤ) : ℚ) with h | h | h
      · rw [if_pos h, if_pos (e1 h)]
      · rw [if_neg (by rw [h]; exact lt_irrefl _), if_neg (by rw [h]; exact lt_irrefl _)]
        split
        · next hne => rw [if_pos (e3 h hne)]
        · next he =>
          have := e4 (by simpa using he) h
          rw [this]; simp
      · rw [if_neg (not_lt.2 (le_of_lt h)), if_pos h, if_neg (not_lt.2 (le_of_lt (e2 h))), if_pos (e2 h)]

theorem compareNumericReal_exact (a : Value) (ha : a.Valid) (d : Dbl) (hd : d.Valid)
    (x : Dbl) (hx : numOf a = some x) : compareNumericReal a d = exactCompare x d := by
  cases a <;> simp only [numOf, reduceCtorEq, Option.some.injEq] at hx
  · next v =>
    subst hx
    unfold compareNumericReal exactCompare
    cases d with
    | nan => simp [Dbl.isless, Dbl.isgreater, Dbl.isunordered]
    | inf neg => cases neg <;> simp [Dbl.isless, Dbl.isgreater, Dbl.isunordered]
    | fin q =>
      obtain ⟨e1, e2, e3, e4⟩ := round_cmp v ha.1 ha.2 q hd
      simp only [Dbl.isgreater, isless_fin, Dbl.isunordered, decide_eq_true_eq, Bool.false_eq_true, if_false]
      rcases lt_trichotomy q ((roundDown v : ℤ) : ℚ) with h | h | h
      · rw [if_neg (not_lt.2 (le_of_lt h)), if_pos h, if_neg (not_lt.2 (le_of_lt (e1 h))), if_pos (e1 h)]
      · rw [if_neg (by rw [h]; exact lt_irrefl _), if_neg (by rw [h]; exact lt_irrefl _)]
        split
        · next hne => rw [if_neg (not_lt.2 (le_of_lt (e3 h hne))), if_pos (e3 h hne)]
        · next he =>
          have := e4 (by simpa using he) h
          rw [this]; simp
      · rw [if_pos h, if_pos (e2 h)]
  · next v =>
    subst hx
    unfold compareNumericReal exactCompare
    cases v with
    | nan => cases d <;> simp [Dbl.isless, Dbl.isgreater, Dbl.isunordered]
    | inf a =>
      cases d with
      | nan => cases a <;> simp [Dbl.isless, Dbl.isgreater, Dbl.isunordered]
      | inf b => cases a <;> cases b <;> simp [Dbl.isless, Dbl.isgreater, Dbl.isunordered]
      | fin q => cases a <;> simp [Dbl.isless, Dbl.isgreater, Dbl.isunordered]
    | fin p =>
      cases d with
      | nan => simp [Dbl.isless, Dbl.isgreater, Dbl.isunordered]
      | inf b => cases b <;> simp [Dbl.isless, Dbl.isgreater, Dbl.isunordered]
      | fin q => simp [Dbl.isless, Dbl.isgreater, Dbl.isunordered]

/-! ## The order of all values, stated recursively -/

/-- The lexicographic order of byte strings. -/
def lexBytes : Bytes → Bytes → Compare
  | [], [] => .equal
  | [], _ :: _ => .less
  | _ :: _, [] => .greater
  | a :: s, b :: t => if a < b then .less else if b < a then .greater else lexBytes s t

/-- The specification of `compare_partial` for operands that are not both arrays. -/
def scalarSpec (a b : Value) : Compare :=
  match numOf a, numOf b with
  | some x, some y => exactCompare x y
  | _, _ =>
    match a, b with
    | null, null => .equal
    | .bool x, .bool y => if !x && y then .less else if x && !y then .greater else .equal
    | str s, str t => lexBytes s t
    | _, _ => .unordered

/-- The specification of `compare_partial`: arrays are compared lexicographically. -/
def compareSpec : Value → Value → Compare
  | arr v, arr w => lexSpec v w
  | a, b => scalarSpec a b
where
  /-- The lexicographic order: the first pair of elements that are not equal decides. -/
  lexSpec : List Value → List Value → Compare
    | [], [] => .equal
    | [], _ :: _ => .less
    | _ :: _, [] => .greater
    | a :: v, b :: w =>
      match compareSpec a b with
      | .equal => lexSpec v w
      | c => c

theorem memcmp_flip (s t : Bytes) (n : Nat) : memcmp t s n = .less ↔ memcmp s t n = .greater := by
  induction n generalizing s t with
  | zero => simp [memcmp]
  | succ n ih =>
    cases s with
    | nil => cases t <;> simp [memcmp]
    | cons a s =>
      cases t with
      | nil => simp [memcmp]
      | cons b t =>
        simp only [memcmp]
        by_cases h1 : a < b
        · have h2 : ¬ b < a := by simp only [UInt8.lt_iff_toNat_lt] at *; omega
          simp [h1, h2]
        · by_cases h2 : b < a
          · simp [h1, h2]
          · simp [h1, h2, ih]

theorem compareBytes_eq (s t : Bytes) : compareBytes s t = lexBytes s t := by
  have key : ∀ (s t : Bytes),
      lexBytes s t = match memcmp s t (min s.length t.length) with
        | .equal => if s.length < t.length then .less else if s.length > t.length then .greater else .equal
        | c => c := by
    intro s
    induction s with
    | nil => intro t; cases t <;> simp [lexBytes, memcmp]
    | cons a s ih =>
      intro t
      cases t with
      | nil => simp [lexBytes, memcmp]
      | cons b t =>
        have hmin : min (a :: s).length (b :: t).length = min s.length t.length + 1 := by simp
        rw [hmin]
        simp only [lexBytes, memcmp]
        by_cases h1 : a < b
        · simp [h1]
        · by_cases h2 : b < a
          · simp [h1, h2]
          · simp only [h1, h2, if_false, ih t, List.length_cons]
            split
            · simp
            · rfl
  have hno : ∀ (s t : Bytes) n, memcmp s t n ≠ .unordered := by
    intro s t n
    induction n generalizing s t with
    | zero => simp [memcmp]
    | succ n ih =>
      cases s with
      | nil => simp [memcmp]
      | cons a s =>
        cases t with
        | nil => simp [memcmp]
        | cons b t =>
          simp only [memcmp]; split
          · simp
          · split
            · simp
            · exact ih s t
  rw [key]
  unfold compareBytes
  rcases lt_trichotomy s.length t.length with h | h | h
  · rw [if_pos h, min_eq_left (le_of_lt h)]
    simp only [memcmp_flip s t]
    have := hno s t s.length
    cases hm : memcmp s t s.length <;> simp_all
  · rw [if_neg (by omega), if_neg (by omega), h, min_self]
    cases hm : memcmp s t t.length <;> simp
  · rw [if_neg (by omega), if_pos h, min_eq_right (le_of_lt h)]
    have := hno s t t.length
    cases hm : memcmp s t t.length <;> simp_all
    omega

theorem sizeList_lt_left (a : Value) (l : List Value) : a.size ≤ size.sizeList (a :: l) := by
  simp only [size.sizeList]; omega

/-- The explicit stack of `compare_partial` computes the recursive specification. -/
theorem loop_eq_spec : ∀ (n : Nat),
    (∀ (a b : Value) (st : List CmpFrame), a.size ≤ n → a.Valid → b.Valid →
      comparePartialLoop a b st = match compareSpec a b with
        | .equal => comparePartialUnwind st
        | c => c) ∧
    (∀ (ra rb : List Value) (k : Nat) (st : List CmpFrame), size.sizeList ra ≤ n →
      Value.Valid.ValidList ra → Value.Valid.ValidList rb →
      comparePartialUnwind (⟨ra, rb, ra.length + k, rb.length + k⟩ :: st) =
        match compareSpec.lexSpec ra rb with
        | .equal => comparePartialUnwind st
        | c => c) := by
  intro n
  induction n using Nat.strongRecOn with
  | _ n ih =>
    have hA : ∀ (a b : Value) (st : List CmpFrame), a.size ≤ n → a.Valid → b.Valid →
        comparePartialLoop a b st = match compareSpec a b with
          | .equal => comparePartialUnwind st
          | c => c := by
      intro a b st hn ha hb
      unfold comparePartialLoop
      cases b with
      | int o =>
        simp only
        cases hx : numOf a with
        | some x =>
          rw [compareNumericInt_exact a ha o hb.1 hb.2 x hx]
          have : compareSpec a (int o) = exactCompare x (.fin o) := by
            cases a <;> simp_all [compareSpec, scalarSpec, numOf]
          rw [this]
          cases exactCompare x _ <;> rfl
        | none =>
          have : compareSpec a (int o) = .unordered := by
            cases a <;> simp_all [compareSpec, scalarSpec, numOf]
          rw [this]
          cases a <;> simp_all [compareNumericInt, numOf]
      | real o =>
        simp only
        cases hx : numOf a with
        | some x =>
          rw [compareNumericReal_exact a ha o hb x hx]
          have : compareSpec a (real o) = exactCompare x o := by
            cases a <;> simp_all [compareSpec, scalarSpec, numOf]
          rw [this]
          cases exactCompare x _ <;> rfl
        | none =>
          have : compareSpec a (real o) = .unordered := by
            cases a <;> simp_all [compareSpec, scalarSpec, numOf]
          rw [this]
          cases a <;> simp_all [compareNumericReal, numOf]
      | null => cases a <;> simp [compareSpec, scalarSpec, numOf]
      | bool o =>
        cases a <;> simp [compareSpec, scalarSpec, numOf]
        next v => cases v <;> cases o <;> simp
      | str o =>
        cases a <;> simp [compareSpec, scalarSpec, numOf]
        next v =>
          rw [compareBytes_eq]
          have hno : lexBytes v o ≠ .unordered := by
            clear ih hn ha hb
            induction v generalizing o with
            | nil => cases o <;> simp [lexBytes]
            | cons a v ih =>
              cases o with
              | nil => simp [lexBytes]
              | cons b o =>
                simp only [lexBytes]; split
                · simp
                · split
                  · simp
                  · exact ih o
          cases hl : lexBytes v o <;> simp_all
      | «opaque» o => cases a <;> simp [compareSpec, scalarSpec, numOf]
      | func o => cases a <;> simp [compareSpec, scalarSpec, numOf]
      | obj o => cases a <;> simp [compareSpec, scalarSpec, numOf]
      | arr o =>
        cases a with
        | arr v =>
          simp only [compareSpec]
          cases v with
          | nil =>
            cases o with
            | nil => simp [compareSpec.lexSpec]
            | cons y o => simp [compareSpec.lexSpec]
          | cons x v =>
            cases o with
            | nil => simp [compareSpec.lexSpec]
            | cons y o =>
              simp only [size, size.sizeList] at hn
              have hxp := size_pos x
              have h1 := (ih (n - 1) (by omega)).1 x y (⟨v, o, v.length + 1, o.length + 1⟩ :: st)
                (by omega) ha.1 hb.1
              have h2 := (ih (n - 1) (by omega)).2 v o 1 st (by omega) ha.2 hb.2
              simp only
              rw [h1]
              simp only [compareSpec.lexSpec]
              cases hc : compareSpec x y <;> simp only
              exact h2
        | _ => simp [compareSpec, scalarSpec, numOf]
    refine ⟨hA, ?_⟩
    intro ra rb k st hn hra hrb
    cases ra with
    | nil =>
      cases rb with
      | nil => rw [comparePartialUnwind]; rotate_left; (· simp); simp [compareSpec.lexSpec]
      | cons y rb => rw [comparePartialUnwind]; rotate_left; (· simp); simp [compareSpec.lexSpec]
    | cons x ra =>
      cases rb with
      | nil => rw [comparePartialUnwind]; rotate_left; (· simp); simp [compareSpec.lexSpec]
      | cons y rb =>
        simp only [size.sizeList] at hn
        have hxp := size_pos x
        rw [comparePartialUnwind, hA x y _ (by omega) hra.1 hrb.1]
        simp only [compareSpec.lexSpec]
        cases hc : compareSpec x y <;> simp only
        have := (ih (n - 1) (by omega)).2 ra rb (k + 1) st (by omega) hra.2 hrb.2
        simp only [List.length_cons]
        rw [show ra.length + 1 + k = ra.length + (k + 1) by omega,
          show rb.length + 1 + k = rb.length + (k + 1) by omega]
        exact this

/-- C39: `compare_partial`, with its explicit stack, is the recursive comparison: exact on numbers,
lexicographic on strings and arrays, and unordered on values of different types. -/
theorem C39_recursive (a b : Value) (ha : a.Valid) (hb : b.Valid) :
    comparePartial a b = compareSpec a b := by
  unfold comparePartial
  rw [(loop_eq_spec a.size).1 a b [] (Nat.le_refl _) ha hb]
  cases compareSpec a b <;> simp [comparePartialUnwind]

/-! ## C40 -/

/-- C40: an integer and a finite real are compared exactly. -/
theorem C40_exact (i : ℤ) (h1 : -2 ^ 63 ≤ i) (h2 : i < 2 ^ 63) (q : ℚ) (hq : IsDouble q) :
    comparePartial (int i) (real (.fin q)) =
        (if (i : ℚ) < q then .less else if (i : ℚ) = q then .equal else .greater) ∧
      comparePartial (real (.fin q)) (int i) =
        (if (i : ℚ) < q then .greater else if (i : ℚ) = q then .equal else .less) := by
  rw [C39_recursive (int i) (real (.fin q)) ⟨h1, h2⟩ hq, C39_recursive (real (.fin q)) (int i) hq ⟨h1, h2⟩]
  simp only [compareSpec, scalarSpec, numOf, exactCompare, Dbl.isunordered, isless_fin,
    decide_eq_true_eq, Bool.false_eq_true, if_false]
  rcases lt_trichotomy (i : ℚ) q with h | h | h
  · simp [h, not_lt.2 (le_of_lt h)]
  · simp [h]
  · simp [h, not_lt.2 (le_of_lt h), ne_of_gt h]

/-- C40: an integer is less than plus infinity and greater than minus infinity. -/
theorem C40_infinite (i : ℤ) (h1 : -2 ^ 63 ≤ i) (h2 : i < 2 ^ 63) (neg : Bool) :
    comparePartial (int i) (real (.inf neg)) = if neg then .greater else .less := by
  rw [C39_recursive (int i) (real (.inf neg)) ⟨h1, h2⟩ trivial]
  cases neg <;> simp [compareSpec, scalarSpec, numOf, exactCompare, Dbl.isunordered, Dbl.isless]

/-- C40: NaN is unordered with every value. -/
theorem C40_nan (a : Value) (ha : a.Valid) :
    comparePartial a (real .nan) = .unordered ∧ comparePartial (real .nan) a = .unordered := by
  rw [C39_recursive a (real .nan) ha trivial, C39_recursive (real .nan) a trivial ha]
  cases a with
  | real d => cases d <;> simp [compareSpec, scalarSpec, numOf, exactCompare, Dbl.isunordered]
  | _ => simp [compareSpec, scalarSpec, numOf, exactCompare, Dbl.isunordered]

example : IsDouble (2 ^ 53) ∧ comparePartial (int (2 ^ 53 + 1)) (real (.fin (2 ^ 53))) = .greater := by
  have h : IsDouble (2 ^ 53) := ⟨1, 53, by norm_num, by norm_num, by norm_num, by norm_num⟩
  exact ⟨h, by rw [(C40_exact _ (by norm_num) (by norm_num) _ h).1]; norm_num⟩

/-! ## C39: the laws of the order -/

/-- The converse relation. -/
def Compare.converse : Compare → Compare
  | .less => .greater
  | .greater => .less
  | c => c

theorem exactCompare_converse (x y : Dbl) : exactCompare y x = (exactCompare x y).converse := by
  cases x with
  | nan => cases y <;> simp [exactCompare, Dbl.isunordered, Compare.converse]
  | inf a =>
    cases y with
    | nan => simp [exactCompare, Dbl.isunordered, Compare.converse]
    | inf b => cases a <;> cases b <;> simp [exactCompare, Dbl.isunordered, Dbl.isless, Compare.converse]
    | fin q => cases a <;> simp [exactCompare, Dbl.isunordered, Dbl.isless, Compare.converse]
  | fin p =>
    cases y with
    | nan => simp [exactCompare, Dbl.isunordered, Compare.converse]
    | inf b => cases b <;> simp [exactCompare, Dbl.isunordered, Dbl.isless, Compare.converse]
    | fin q =>
      simp only [exactCompare, Dbl.isunordered, isless_fin, decide_eq_true_eq, Bool.false_eq_true, if_false]
      rcases lt_trichotomy p q with h | h | h
      · simp [h, not_lt.2 (le_of_lt h), Compare.converse]
      · simp [h, Compare.converse]
      · simp [h, not_lt.2 (le_of_lt h), Compare.converse]

theorem lexBytes_converse (s t : Bytes) : lexBytes t s = (lexBytes s t).converse := by
  induction s generalizing t with
  | nil => cases t <;> simp [lexBytes, Compare.converse]
  | cons a s ih =>
    cases t with
    | nil => simp [lexBytes, Compare.converse]
    | cons b t =>
      simp only [lexBytes]
      by_cases h1 : a < b
      · have h2 : ¬ b < a := by simp only [UInt8.lt_iff_toNat_lt] at *; omega
        simp [h1, h2, Compare.converse]
      · by_cases h2 : b < a
        · simp [h1, h2, Compare.converse]
        · simp [h1, h2, ih]

theorem scalar_converse (a b : Value) : scalarSpec b a = (scalarSpec a b).converse := by
  unfold scalarSpec
  cases ha : numOf a with
  | some x =>
    cases hb : numOf b with
    | some y => exact exactCompare_converse x y
    | none => cases a <;> cases b <;> simp_all [numOf, Compare.converse]
  | none =>
    cases hb : numOf b with
    | some y => cases a <;> cases b <;> simp_all [numOf, Compare.converse]
    | none =>
      cases a <;> cases b <;> simp_all [numOf, Compare.converse]
      · next x y => cases x <;> cases y <;> simp
      · next x y => rw [lexBytes_converse]; rfl

theorem spec_converse_aux : ∀ n : Nat,
    (∀ a b : Value, a.size ≤ n → compareSpec b a = (compareSpec a b).converse) ∧
    (∀ v w : List Value, size.sizeList v ≤ n →
      compareSpec.lexSpec w v = (compareSpec.lexSpec v w).converse) := by
  intro n
  induction n using Nat.strongRecOn with
  | _ n ih =>
    have hA : ∀ a b : Value, a.size ≤ n → compareSpec b a = (compareSpec a b).converse := by
      intro a b hn
      cases a with
      | arr v =>
        cases b with
        | arr w =>
          simp only [compareSpec]
          simp only [size] at hn
          exact (ih (n - 1) (by omega)).2 v w (by omega)
        | _ => simpa only [compareSpec] using scalar_converse _ _
      | _ => cases b <;> simpa only [compareSpec] using scalar_converse _ _
    refine ⟨hA, ?_⟩
    intro v w hn
    cases v with
    | nil => cases w <;> simp [compareSpec.lexSpec, Compare.converse]
    | cons a v =>
      cases w with
      | nil => simp [compareSpec.lexSpec, Compare.converse]
      | cons b w =>
        simp only [size.sizeList] at hn
        have hp := size_pos a
        simp only [compareSpec.lexSpec]
        rw [hA a b (by omega)]
        cases hc : compareSpec a b <;> simp only [Compare.converse]
        exact (ih (n - 1) (by omega)).2 v w (by omega)

/-- C39: swapping the operands swaps `less` and `greater`. -/
theorem C39_converse (a b : Value) (ha : a.Valid) (hb : b.Valid) :
    comparePartial b a = (comparePartial a b).converse := by
  rw [C39_recursive _ _ ha hb, C39_recursive _ _ hb ha]
  exact (spec_converse_aux a.size).1 a b (Nat.le_refl _)

/-- The composition of two comparisons that are `less` or `equal`. -/
def Compare.comp : Compare → Compare → Compare
  | .equal, .equal => .equal
  | _, _ => .less

/-- Not descending. -/
def Compare.le (c : Compare) : Prop := c = .less ∨ c = .equal

theorem exactCompare_trans (x y z : Dbl) (h1 : (exactCompare x y).le) (h2 : (exactCompare y z).le) :
    exactCompare x z = (exactCompare x y).comp (exactCompare y z) := by
  have fin_le : ∀ p q : ℚ, exactCompare (.fin p) (.fin q) =
      if p < q then .less else if q < p then .greater else .equal := by
    intro p q; simp [exactCompare, Dbl.isunordered, isless_fin]
  cases x with
  | nan => exfalso; cases y <;> simp [exactCompare, Dbl.isunordered, Compare.le] at h1
  | inf a =>
    cases y with
    | nan => exfalso; simp [exactCompare, Dbl.isunordered, Compare.le] at h1
    | inf b =>
      cases z with
      | nan => exfalso; simp [exactCompare, Dbl.isunordered, Compare.le] at h2
      | inf c =>
        cases a <;> cases b <;> cases c <;>
          simp_all [exactCompare, Dbl.isunordered, Dbl.isless, Compare.le, Compare.comp]
      | fin r =>
        cases a <;> cases b <;>
          simp_all [exactCompare, Dbl.isunordered, Dbl.isless, Compare.le, Compare.comp]
    | fin q =>
      cases z with
      | nan => exfalso; simp [exactCompare, Dbl.isunordered, Compare.le] at h2
      | inf c =>
        cases a <;> cases c <;>
          simp_all [exactCompare, Dbl.isunordered, Dbl.isless, Compare.le, Compare.comp]
      | fin r =>
        cases a
        · simp_all [exactCompare, Dbl.isunordered, Dbl.isless, Compare.le, Compare.comp]
        · have e1 : exactCompare (.inf true) (.fin q) = .less := rfl
          have e2 : exactCompare (.inf true) (.fin r) = .less := rfl
          rw [e1, e2]; rfl
  | fin p =>
    cases y with
    | nan => exfalso; simp [exactCompare, Dbl.isunordered, Compare.le] at h1
    | inf b =>
      cases z with
      | nan => exfalso; simp [exactCompare, Dbl.isunordered, Compare.le] at h2
      | inf c =>
        cases b <;> cases c <;>
          simp_all [exactCompare, Dbl.isunordered, Dbl.isless, Compare.le, Compare.comp]
      | fin r =>
        cases b <;> simp_all [exactCompare, Dbl.isunordered, Dbl.isless, Compare.le, Compare.comp]
    | fin q =>
      cases z with
      | nan => exfalso; simp [exactCompare, Dbl.isunordered, Compare.le] at h2
      | inf c =>
        cases c
        · have e1 : exactCompare (.fin q) (.inf false) = .less := rfl
          have e2 : exactCompare (.fin p) (.inf false) = .less := rfl
          rw [e1, e2]; cases exactCompare (.fin p) (.fin q) <;> rfl
        · exfalso; simp [exactCompare, Dbl.isunordered, Dbl.isless, Compare.le] at h2
      | fin r =>
        simp only [fin_le] at *
        rcases lt_trichotomy p q with hpq | hpq | hpq <;> rcases lt_trichotomy q r with hqr | hqr | hqr
        · simp [hpq, hqr, lt_trans hpq hqr, Compare.comp]
        · subst hqr; simp [hpq, Compare.comp]
        · exfalso; simp [hqr, not_lt.2 (le_of_lt hqr), Compare.le] at h2
        · subst hpq; simp [hqr, Compare.comp]
        · subst hpq hqr; simp [Compare.comp]
        · exfalso; simp [hqr, not_lt.2 (le_of_lt hqr), Compare.le] at h2
        · exfalso; simp [hpq, not_lt.2 (le_of_lt hpq), Compare.le] at h1
        · exfalso; simp [hpq, not_lt.2 (le_of_lt hpq), Compare.le] at h1
        · exfalso; simp [hpq, not_lt.2 (le_of_lt hpq), Compare.le] at h1

theorem lexBytes_trans (s t u : Bytes) (h1 : (lexBytes s t).le) (h2 : (lexBytes t u).le) :
    lexBytes s u = (lexBytes s t).comp (lexBytes t u) := by
  induction s generalizing t u with
  | nil =>
    cases t with
    | nil => cases u <;> simp_all [lexBytes, Compare.le, Compare.comp]
    | cons b t => cases u <;> simp_all [lexBytes, Compare.le, Compare.comp]
  | cons a s ih =>
    cases t with
    | nil => simp [lexBytes, Compare.le] at h1
    | cons b t =>
      cases u with
      | nil => simp [lexBytes, Compare.le] at h2
      | cons c u =>
        simp only [lexBytes] at *
        simp only [UInt8.lt_iff_toNat_lt] at *
        rcases lt_trichotomy a.toNat b.toNat with hab | hab | hab <;>
          rcases lt_trichotomy b.toNat c.toNat with hbc | hbc | hbc
        · simp [hab, hbc, lt_trans hab hbc, Compare.comp]
        · rw [hbc] at hab; simp [hab, hbc, Compare.comp]
        · exfalso; simp [hbc, not_lt.2 (le_of_lt hbc), Compare.le] at h2
        · rw [← hab] at hbc; simp [hab, hbc, Compare.comp]; rw [← hab]; simp [hbc]
        · rw [hbc] at hab
          simp only [hab, hbc, lt_irrefl, if_false] at h1 h2 ⊢
          exact ih t u h1 h2
        · exfalso; simp [hbc, not_lt.2 (le_of_lt hbc), Compare.le] at h2
        · exfalso; simp [hab, not_lt.2 (le_of_lt hab), Compare.le] at h1
        · exfalso; simp [hab, not_lt.2 (le_of_lt hab), Compare.le] at h1
        · exfalso; simp [hab, not_lt.2 (le_of_lt hab), Compare.le] at h1

theorem scalar_trans (a b c : Value) (h1 : (scalarSpec a b).le) (h2 : (scalarSpec b c).le) :
    scalarSpec a c = (scalarSpec a b).comp (scalarSpec b c) := by
  cases ha : numOf a with
  | some x =>
    cases hb : numOf b with
    | some y =>
      cases hc : numOf c with
      | some z =>
        simp only [scalarSpec, ha, hb, hc] at *
        exact exactCompare_trans x y z h1 h2
      | none =>
        exfalso
        cases b <;> cases c <;> simp_all [scalarSpec, numOf, Compare.le]
    | none =>
      exfalso
      cases a <;> cases b <;> simp_all [scalarSpec, numOf, Compare.le]
  | none =>
    cases hb : numOf b with
    | some y =>
      exfalso
      cases a <;> cases b <;> simp_all [scalarSpec, numOf, Compare.le]
    | none =>
      cases hc : numOf c with
      | some z =>
        exfalso
        cases b <;> cases c <;> simp_all [scalarSpec, numOf, Compare.le]
      | none =>
        cases a with
        | null =>
          cases b with
          | null => cases c <;> simp_all [scalarSpec, numOf, Compare.le, Compare.comp]
          | _ => simp_all [scalarSpec, numOf, Compare.le]
        | bool x =>
          cases b with
          | bool y =>
            cases c with
            | bool z =>
              cases x <;> cases y <;> cases z <;> simp_all [scalarSpec, numOf, Compare.le, Compare.comp]
            | _ => simp_all [scalarSpec, numOf, Compare.le]
          | _ => simp_all [scalarSpec, numOf, Compare.le]
        | str x =>
          cases b with
          | str y =>
            cases c with
            | str z => exact lexBytes_trans x y z h1 h2
            | _ => simp_all [scalarSpec, numOf, Compare.le]
          | _ => simp_all [scalarSpec, numOf, Compare.le]
        | _ => cases b <;> simp_all [scalarSpec, numOf, Compare.le]

theorem spec_trans_aux : ∀ n : Nat,
    (∀ a b c : Value, a.size ≤ n → (compareSpec a b).le → (compareSpec b c).le →
      compareSpec a c = (compareSpec a b).comp (compareSpec b c)) ∧
    (∀ u v w : List Value, size.sizeList u ≤ n → (compareSpec.lexSpec u v).le →
      (compareSpec.lexSpec v w).le →
      compareSpec.lexSpec u w = (compareSpec.lexSpec u v).comp (compareSpec.lexSpec v w)) := by
  intro n
  induction n using Nat.strongRecOn with
  | _ n ih =>
    have mixed : ∀ (v : List Value) (b : Value), (∀ w, b ≠ arr w) →
        compareSpec (arr v) b = .unordered ∧ compareSpec b (arr v) = .unordered := by
      intro v b hb
      cases b <;> simp_all [compareSpec, scalarSpec, numOf]
    have scal : ∀ a b : Value, (∀ w, a ≠ arr w) → compareSpec a b = scalarSpec a b := by
      intro a b ha
      cases a <;> simp_all [compareSpec]
    have hA : ∀ a b c : Value, a.size ≤ n → (compareSpec a b).le → (compareSpec b c).le →
        compareSpec a c = (compareSpec a b).comp (compareSpec b c) := by
      intro a b c hn h1 h2
      by_cases haa : ∃ w, a = arr w
      · obtain ⟨u, rfl⟩ := haa
        by_cases hbb : ∃ w, b = arr w
        · obtain ⟨v, rfl⟩ := hbb
          by_cases hcc : ∃ w, c = arr w
          · obtain ⟨w, rfl⟩ := hcc
            simp only [compareSpec] at *
            simp only [size] at hn
            exact (ih (n - 1) (by omega)).2 u v w (by omega) h1 h2
          · rw [(mixed v c (by simpa using hcc)).1] at h2; simp [Compare.le] at h2
        · rw [(mixed u b (by simpa using hbb)).1] at h1; simp [Compare.le] at h1
      · by_cases hbb : ∃ w, b = arr w
        · obtain ⟨v, rfl⟩ := hbb
          rw [(mixed v a (by simpa using haa)).2] at h1; simp [Compare.le] at h1
        · rw [scal a b (by simpa using haa)] at *
          rw [scal b c (by simpa using hbb)] at *
          rw [scal a c (by simpa using haa)] at *
          exact scalar_trans a b c h1 h2
    refine ⟨hA, ?_⟩
    intro u v w hn h1 h2
    cases u with
    | nil =>
      cases v with
      | nil => cases w <;> simp_all [compareSpec.lexSpec, Compare.comp]
      | cons b v =>
        cases w with
        | nil => simp [compareSpec.lexSpec, Compare.le] at h2
        | cons c w =>
          have e1 : compareSpec.lexSpec [] (b :: v) = .less := by simp [compareSpec.lexSpec]
          have e2 : compareSpec.lexSpec [] (c :: w) = .less := by simp [compareSpec.lexSpec]
          rw [e1, e2]; rfl
    | cons a u =>
      cases v with
      | nil => simp [compareSpec.lexSpec, Compare.le] at h1
      | cons b v =>
        cases w with
        | nil => simp [compareSpec.lexSpec, Compare.le] at h2
        | cons c w =>
          simp only [size.sizeList] at hn
          have hp := size_pos a
          simp only [compareSpec.lexSpec] at *
          have h1' : (compareSpec a b).le := by
            cases hc : compareSpec a b <;> simp_all [Compare.le]
          have h2' : (compareSpec b c).le := by
            cases hc : compareSpec b c <;> simp_all [Compare.le]
          rw [hA a b c (by omega) h1' h2']
          cases hab : compareSpec a b
          · rw [hab] at h1'; simp [Compare.le] at h1'
          · cases hbc : compareSpec b c <;> simp [Compare.comp]
          · cases hbc : compareSpec b c
            · rw [hbc] at h2'; simp [Compare.le] at h2'
            · rw [hab] at h1
              simp only [Compare.comp] at *
              rcases h1 with h | h <;> rw [h]
            · rw [hab] at h1; rw [hbc] at h2
              exact (ih (n - 1) (by omega)).2 u v w (by omega) h1 h2
            · rw [hbc] at h2'; simp [Compare.le] at h2'
          · rw [hab] at h1'; simp [Compare.le] at h1'

/-- C39: the order is transitive: chains of `less` and `equal` compose, and the result is `equal` only
if both comparisons are. -/
theorem C39_transitive (a b c : Value) (ha : a.Valid) (hb : b.Valid) (hc : c.Valid)
    (h1 : comparePartial a b = .less ∨ comparePartial a b = .equal)
    (h2 : comparePartial b c = .less ∨ comparePartial b c = .equal) :
    comparePartial a c =
      if comparePartial a b = .equal ∧ comparePartial b c = .equal then .equal else .less := by
  rw [C39_recursive _ _ ha hb] at *
  rw [C39_recursive _ _ hb hc] at *
  rw [C39_recursive _ _ ha hc] at *
  rw [(spec_trans_aux a.size).1 a b c (Nat.le_refl _) h1 h2]
  rcases h1 with h | h <;> rcases h2 with h' | h' <;> rw [h, h'] <;> simp [Compare.comp]

/-- Values that consist of nulls, booleans, strings and numbers other than NaN, at any depth. -/
def Ordered : Value → Prop
  | .real .nan | .opaque _ | .func _ | .obj _ => False
  | .arr l => OrderedList l
  | _ => True
where
  /-- All elements are. -/
  OrderedList : List Value → Prop
    | [] => True
    | x :: xs => Ordered x ∧ OrderedList xs

theorem spec_refl_aux : ∀ n : Nat,
    (∀ a : Value, a.size ≤ n → (compareSpec a a = .equal ↔ Ordered a)) ∧
    (∀ v : List Value, size.sizeList v ≤ n → (compareSpec.lexSpec v v = .equal ↔ Ordered.OrderedList v)) := by
  intro n
  induction n using Nat.strongRecOn with
  | _ n ih =>
    have hA : ∀ a : Value, a.size ≤ n → (compareSpec a a = .equal ↔ Ordered a) := by
      intro a hn
      cases a with
      | arr v =>
        simp only [compareSpec, Ordered]
        simp only [size] at hn
        exact (ih (n - 1) (by omega)).2 v (by omega)
      | real d =>
        cases d with
        | nan => simp [compareSpec, scalarSpec, numOf, exactCompare, Dbl.isunordered, Ordered]
        | inf b => cases b <;>
            simp [compareSpec, scalarSpec, numOf, exactCompare, Dbl.isunordered, Dbl.isless, Ordered]
        | fin q => simp [compareSpec, scalarSpec, numOf, exactCompare, Dbl.isunordered, Dbl.isless, Ordered]
      | str s =>
        have : lexBytes s s = .equal := by
          induction s with
          | nil => rfl
          | cons a s ih2 => simp [lexBytes, ih2 (by simpa [size] using hn)]
        simp [compareSpec, scalarSpec, numOf, Ordered, this]
      | bool b => cases b <;> simp [compareSpec, scalarSpec, numOf, Ordered]
      | int i =>
        simp [compareSpec, scalarSpec, numOf, exactCompare, Dbl.isunordered, Dbl.isless, Ordered]
      | _ => simp [compareSpec, scalarSpec, numOf, Ordered]
    refine ⟨hA, ?_⟩
    intro v hn
    cases v with
    | nil => simp [compareSpec.lexSpec, Ordered.OrderedList]
    | cons a v =>
      simp only [size.sizeList] at hn
      have hp := size_pos a
      simp only [compareSpec.lexSpec, Ordered.OrderedList, ← hA a (by omega),
        ← (ih (n - 1) (by omega)).2 v (by omega)]
      cases hc : compareSpec a a <;> simp

/-- C39: a value is equal to itself iff it contains no NaN, function, opaque object or object. -/
theorem C39_reflexive (a : Value) (ha : a.Valid) : comparePartial a a = .equal ↔ Ordered a := by
  rw [C39_recursive _ _ ha ha]
  exact (spec_refl_aux a.size).1 a (Nat.le_refl _)

/-- C39: scalars of different types are unordered, except for the two arithmetic types. -/
theorem C39_mixed (s : Bytes) (i : Int) (b : Bool) (l : List Value) (h1 : -2 ^ 63 ≤ i) (h2 : i < 2 ^ 63)
    (hl : (arr l).Valid) :
    comparePartial (str s) (int i) = .unordered ∧ comparePartial (int i) (bool b) = .unordered ∧
      comparePartial null (int i) = .unordered ∧ comparePartial (arr l) (str s) = .unordered ∧
      comparePartial (arr l) null = .unordered := by
  refine ⟨?_, ?_, ?_, ?_, ?_⟩ <;> rw [C39_recursive _ _ (by first | exact trivial | exact ⟨h1, h2⟩ | exact hl)
    (by first | exact trivial | exact ⟨h1, h2⟩ | exact hl)] <;> simp [compareSpec, scalarSpec, numOf]

example : comparePartial (arr [int 1, arr [str [97], int 2]]) (arr [int 1, arr [str [97], int 3], null]) =
    .less := by
  rw [C39_recursive _ _ (by simp [Value.Valid, Value.Valid.ValidList])
    (by simp [Value.Valid, Value.Valid.ValidList])]
  simp [compareSpec, compareSpec.lexSpec, scalarSpec, numOf, exactCompare, Dbl.isunordered, Dbl.isless,
    lexBytes]
  norm_num

/-- C39: `compare_total` throws exactly for unordered operands and otherwise agrees with
`compare_partial`. -/
theorem C39_total (a b : Value) (c : Compare) (ha : a.Valid) (hb : b.Valid) :
    compareTotal a b = .ok c ↔ c ≠ .unordered ∧ compareSpec a b = c := by
  unfold compareTotal
  rw [C39_recursive a b ha hb]
  by_cases h : compareSpec a b = .unordered
  · rw [if_pos h]
    constructor
    · intro h; cases h
    · rintro ⟨h1, h2⟩; exact absurd (h2.symm.trans h) h1
  · rw [if_neg h]
    constructor
    · intro h'; cases h'; exact ⟨h, rfl⟩
    · rintro ⟨_, h2⟩; rw [h2]

/-! ## C71 -/

/-- C71: the conversion succeeds exactly for integral values in the range of `int64_t`, and then the
result is the value itself. -/
theorem C71_safe_double_to_int64 (d : Dbl) (i : Int) :
    safeDoubleToInt64 d = .ok i ↔ d = .fin i ∧ -2 ^ 63 ≤ i ∧ i < 2 ^ 63 := by
  cases d with
  | nan => simp [safeDoubleToInt64]
  | inf b => simp [safeDoubleToInt64]
  | fin q =>
    simp only [safeDoubleToInt64, Dbl.fin.injEq]
    by_cases hd : q.den = 1
    · rw [if_pos hd]
      have hq : q = (q.num : ℚ) := ((Rat.den_eq_one_iff q).1 hd).symm
      by_cases hr : -2 ^ 63 ≤ q.num ∧ q.num < 2 ^ 63
      · rw [if_pos hr]
        constructor
        · intro h; cases h; exact ⟨hq, hr⟩
        · rintro ⟨h, -⟩
          rw [h]; simp
      · rw [if_neg hr]
        constructor
        · intro h; cases h
        · rintro ⟨h, h1⟩
          rw [h] at hr; exact absurd h1 hr
    · rw [if_neg hd]
      constructor
      · intro h; cases h
      · rintro ⟨h, -⟩
        rw [h] at hd; simp at hd

/-- C71: it throws otherwise; there is no undefined conversion. -/
theorem C71_otherwise (d : Dbl) : (∃ i, safeDoubleToInt64 d = .ok i) ∨ safeDoubleToInt64 d = .throw := by
  cases d with
  | nan => exact Or.inr rfl
  | inf b => exact Or.inr rfl
  | fin q =>
    unfold safeDoubleToInt64
    simp only
    split
    · split
      · exact Or.inl ⟨_, rfl⟩
      · exact Or.inr rfl
    · exact Or.inr rfl

example : safeDoubleToInt64 (.fin (-7)) = .ok (-7) ∧ safeDoubleToInt64 (.fin (7 / 2)) = .throw ∧
    safeDoubleToInt64 (.fin (2 ^ 63)) = .throw := by
  refine ⟨?_, ?_, ?_⟩ <;> decide +kernel

end Asteria
