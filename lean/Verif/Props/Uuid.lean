import Verif.Model.Uuid

/-!
# C132: random UUIDs
-/

namespace Asteria.Uuid

/-! ### What a UUID is -/

/-- A hexadecimal digit in lowercase. -/
def IsHex (b : UInt8) : Prop := (0x30 ≤ b.toNat ∧ b.toNat ≤ 0x39) ∨ (0x61 ≤ b.toNat ∧ b.toNat ≤ 0x66)

/-- A digit that tells the variant of RFC 4122. -/
def IsVariant (b : UInt8) : Prop := b.toNat = 0x38 ∨ b.toNat = 0x39 ∨ b.toNat = 0x61 ∨ b.toNat = 0x62

/-- What may be at a position of a UUID of version 4. -/
def Fits (i : Nat) (b : UInt8) : Prop :=
  if i = 8 ∨ i = 13 ∨ i = 18 ∨ i = 23 then b = 0x2D
  else if i = 14 then b = 0x34
  else if i = 19 then IsVariant b
  else IsHex b

/-- A UUID of version 4, of the form `xxxxxxxx-xxxx-4xxx-Nxxx-xxxxxxxxxxxx`. -/
def Uuid4 (t : Bytes) : Prop := t.length = 36 ∧ ∀ i b, t[i]? = some b → Fits i b

/-! ### Digits -/

/-- A digit from its value. -/
def dig (n : Nat) : UInt8 := UInt8.ofNat (if n < 10 then 48 + n else 87 + n)

/-- The value of a digit. -/
def val (b : UInt8) : Nat := if b.toNat < 0x3A then b.toNat - 48 else b.toNat - 87

theorem y_eq (q i : Nat) : y q i = dig (q / 16 ^ i % 16) := by
  have hv : (BitVec.ofNat 32 (q >>> (i * 4)) &&& 0x0F#32) = BitVec.ofNat 32 (q / 16 ^ i % 16) := by
    apply BitVec.eq_of_toNat_eq
    have h15 : (0x0F#32).toNat = 2 ^ 4 - 1 := by decide
    rw [BitVec.toNat_and, h15, Nat.and_two_pow_sub_one_eq_mod, BitVec.toNat_ofNat, BitVec.toNat_ofNat, Nat.shiftRight_eq_div_pow,
      show (2 : Nat) ^ (i * 4) = 16 ^ i by rw [Nat.mul_comm, Nat.pow_mul]]
    omega
  have table : ∀ n : Fin 16, UInt8.ofNat ((BitVec.ofNat 32 n.val) + (0x30#32 - BitVec.sshiftRight ((9#32 - BitVec.ofNat 32 n.val) &&& (-0x2700#32)) 8)).toNat = dig n.val := by
    decide +kernel
  unfold y
  dsimp only
  rw [hv]
  exact table ⟨q / 16 ^ i % 16, Nat.mod_lt _ (by decide)⟩

theorem dig_hex : ∀ n : Fin 16, IsHex (dig n.val) ∧ val (dig n.val) = n.val := by
  unfold IsHex; decide +kernel

theorem hex_dig : ∀ b : Fin 256, IsHex (UInt8.ofNat b.val) → val (UInt8.ofNat b.val) < 16 ∧ dig (val (UInt8.ofNat b.val)) = UInt8.ofNat b.val := by
  unfold IsHex; decide +kernel

theorem hex_val {b : UInt8} (h : IsHex b) : val b < 16 ∧ dig (val b) = b := by
  have := hex_dig ⟨b.toNat, b.toNat_lt⟩
  rw [UInt8.ofNat_toNat] at this
  exact this h

theorem dig_eq {n : Nat} (hn : n < 16) {b : UInt8} (h : IsHex b) : dig n = b ↔ n = val b := by
  constructor
  · intro e
    rw [← e]
    exact ((dig_hex ⟨n, hn⟩).2).symm
  · intro e
    rw [e]
    exact (hex_val h).2

theorem variant_val {b : UInt8} (h : IsVariant b) : IsHex b ∧ 8 ≤ val b ∧ val b < 12 := by
  unfold IsVariant at h
  unfold IsHex val
  split <;> omega

theorem low_bits (q : Nat) : (8 ||| (q &&& 3)) / 16 ^ 0 % 16 = 8 + q % 4 := by
  rw [show (3 : Nat) = 2 ^ 2 - 1 from rfl, Nat.and_two_pow_sub_one_eq_mod]
  have : ∀ n : Fin 4, (8 ||| n.val) / 16 ^ 0 % 16 = 8 + n.val := by decide
  exact this ⟨q % 4, Nat.mod_lt _ (by decide)⟩

/-- The number with the given digits, the lowest one first. -/
def num : List Nat → Nat
  | [] => 0
  | a :: l => a + 16 * num l

/-- A number has the given digits and no others. -/
def Digs : Nat → List Nat → Prop
  | q, [] => q = 0
  | q, a :: l => q % 16 = a ∧ Digs (q / 16) l

theorem digs_num (l : List Nat) (h : ∀ a ∈ l, a < 16) (q : Nat) : Digs q l ↔ num l = q := by
  induction l generalizing q with
  | nil => exact eq_comm
  | cons a l ih =>
    have ha := h a (by simp)
    rw [Digs, num, ih (fun x hx => h x (by simp [hx]))]
    omega

theorem top_digit {q c : Nat} (h : q < 18446744073709551616) : q / 1152921504606846976 % 16 = (4 * (q / 1152921504606846976 % 16) + c % 4) / 4 ∧ q / 18446744073709551616 = 0 := by
  omega

theorem low_digit {q v d : Nat} (h : q < 18446744073709551616) (hv : 8 + q % 4 = v) : q % 16 = v - 8 + 4 * ((4 * d + q / 4 % 4) % 4) ∧ q / 18446744073709551616 = 0 := by
  omega

theorem low_digit' {q v c : Nat} (h1 : 8 ≤ v) (h2 : v < 12) (hq : q % 16 = v - 8 + 4 * (c % 4)) : 8 + q % 4 = v := by
  omega

theorem lt_of_zero {q : Nat} (h : q / 18446744073709551616 = 0) : q < 18446744073709551616 := by
  omega

theorem pair_lt {a b : Nat} : 4 * (a % 16) + b % 4 < 64 := by
  omega

theorem pair_ext {i j : Fin 64} {v : Nat} (h : i.val / 4 = j.val / 4) (h' : v - 8 + 4 * (i.val % 4) = v - 8 + 4 * (j.val % 4)) : i = j :=
  Fin.ext (by omega)

theorem quot_lt {i : Nat} (h : i < 64) : i / 4 < 16 := by
  omega

theorem low_lt {v c : Nat} (h2 : v < 12) : v - 8 + 4 * (c % 4) < 16 := by
  omega

theorem num_inj (l l' : List Nat) (h : ∀ a ∈ l, a < 16) (h' : ∀ a ∈ l', a < 16) (hl : l.length = l'.length) (e : num l = num l') : l = l' := by
  induction l generalizing l' with
  | nil => cases l' with
    | nil => rfl
    | cons => cases hl
  | cons a l ih =>
    cases l' with
    | nil => cases hl
    | cons b l' =>
      have ha := h a (by simp)
      have hb := h' b (by simp)
      rw [num, num] at e
      rw [ih l' (fun x hx => h x (by simp [hx])) (fun x hx => h' x (by simp [hx])) (by simpa using hl) (by omega)]
      congr 1
      omega

/-- What is at each position, one after another. -/
def checks : Nat → Bytes → Prop
  | _, [] => True
  | i, b :: t => Fits i b ∧ checks (i + 1) t

theorem checks_iff (t : Bytes) (i : Nat) : checks i t ↔ ∀ j b, t[j]? = some b → Fits (i + j) b := by
  induction t generalizing i with
  | nil => simp [checks]
  | cons x t ih =>
    rw [checks, ih]
    constructor
    · rintro ⟨h1, h2⟩ j b hb
      cases j with
      | zero => cases hb; exact h1
      | succ j =>
        have := h2 j b (by simpa using hb)
        rwa [show i + (j + 1) = i + 1 + j by omega]
    · intro h
      refine ⟨h 0 x rfl, fun j b hb => ?_⟩
      rw [show i + 1 + j = i + (j + 1) by omega]
      exact h (j + 1) b (by simpa using hb)

theorem uuid4_iff (t : Bytes) : Uuid4 t ↔ t.length = 36 ∧ checks 0 t := by
  rw [checks_iff]
  simp [Uuid4]

theorem cons_of {t : Bytes} {n : Nat} (h : t.length = n + 1) : ∃ b t', t = b :: t' ∧ t'.length = n := by
  cases t with
  | nil => cases h
  | cons b t => exact ⟨b, t, rfl, by simpa using h⟩

/-! ### C132 -/

/-- **C132**: what `std.system.random_uuid` returns is a UUID of version 4. -/
theorem C132_form (q0 q1 : Nat) : Uuid4 (randomUuid q0 q1) := by
  have hy : ∀ q i, IsHex (y q i) := fun q i => by
    rw [y_eq]
    exact (dig_hex ⟨_, Nat.mod_lt _ (by decide)⟩).1
  have hv : IsVariant (y (8 ||| (q1 &&& 3)) 0) := by
    rw [y_eq, low_bits]
    have : ∀ n : Fin 4, IsVariant (dig (8 + n.val)) := by unfold IsVariant; decide +kernel
    exact this ⟨q1 % 4, Nat.mod_lt _ (by decide)⟩
  rw [uuid4_iff]
  refine ⟨rfl, ?_⟩
  generalize hyv : y (8 ||| (q1 &&& 3)) 0 = v at hv
  unfold randomUuid
  rw [hyv]
  simp [checks, Fits, hy, hv]

/-- **C132**: all UUIDs of version 4 are equally likely: each one is returned for exactly 64 of the 2^128 values that the random bytes may have. -/
theorem C132_uniform (t : Bytes) (ht : Uuid4 t) :
    ∃ e : Fin 64 → Nat × Nat, (∀ i j, e i = e j → i = j) ∧
      ∀ q0 q1 : Nat, (q0 < 2 ^ 64 ∧ q1 < 2 ^ 64 ∧ randomUuid q0 q1 = t) ↔ ∃ i, e i = (q0, q1) := by
  rw [uuid4_iff] at ht
  obtain ⟨l0, hf⟩ := ht
  obtain ⟨t0, r0, rfl, l1⟩ := cons_of l0
  obtain ⟨t1, r1, rfl, l2⟩ := cons_of l1
  obtain ⟨t2, r2, rfl, l3⟩ := cons_of l2
  obtain ⟨t3, r3, rfl, l4⟩ := cons_of l3
  obtain ⟨t4, r4, rfl, l5⟩ := cons_of l4
  obtain ⟨t5, r5, rfl, l6⟩ := cons_of l5
  obtain ⟨t6, r6, rfl, l7⟩ := cons_of l6
  obtain ⟨t7, r7, rfl, l8⟩ := cons_of l7
  obtain ⟨t8, r8, rfl, l9⟩ := cons_of l8
  obtain ⟨t9, r9, rfl, l10⟩ := cons_of l9
  obtain ⟨t10, r10, rfl, l11⟩ := cons_of l10
  obtain ⟨t11, r11, rfl, l12⟩ := cons_of l11
  obtain ⟨t12, r12, rfl, l13⟩ := cons_of l12
  obtain ⟨t13, r13, rfl, l14⟩ := cons_of l13
  obtain ⟨t14, r14, rfl, l15⟩ := cons_of l14
  obtain ⟨t15, r15, rfl, l16⟩ := cons_of l15
  obtain ⟨t16, r16, rfl, l17⟩ := cons_of l16
  obtain ⟨t17, r17, rfl, l18⟩ := cons_of l17
  obtain ⟨t18, r18, rfl, l19⟩ := cons_of l18
  obtain ⟨t19, r19, rfl, l20⟩ := cons_of l19
  obtain ⟨t20, r20, rfl, l21⟩ := cons_of l20
  obtain ⟨t21, r21, rfl, l22⟩ := cons_of l21
  obtain ⟨t22, r22, rfl, l23⟩ := cons_of l22
  obtain ⟨t23, r23, rfl, l24⟩ := cons_of l23
  obtain ⟨t24, r24, rfl, l25⟩ := cons_of l24
  obtain ⟨t25, r25, rfl, l26⟩ := cons_of l25
  obtain ⟨t26, r26, rfl, l27⟩ := cons_of l26
  obtain ⟨t27, r27, rfl, l28⟩ := cons_of l27
  obtain ⟨t28, r28, rfl, l29⟩ := cons_of l28
  obtain ⟨t29, r29, rfl, l30⟩ := cons_of l29
  obtain ⟨t30, r30, rfl, l31⟩ := cons_of l30
  obtain ⟨t31, r31, rfl, l32⟩ := cons_of l31
  obtain ⟨t32, r32, rfl, l33⟩ := cons_of l32
  obtain ⟨t33, r33, rfl, l34⟩ := cons_of l33
  obtain ⟨t34, r34, rfl, l35⟩ := cons_of l34
  obtain ⟨t35, r35, rfl, l36⟩ := cons_of l35
  obtain rfl : r35 = [] := List.length_eq_zero_iff.1 l36
  clear l0 l1 l2 l3 l4 l5 l6 l7 l8 l9 l10 l11 l12 l13 l14 l15 l16 l17 l18 l19 l20 l21 l22 l23 l24 l25 l26 l27 l28 l29 l30 l31 l32 l33 l34 l35 l36
  simp [checks, Fits] at hf
  obtain ⟨h0, h1, h2, h3, h4, h5, h6, h7, f8, h9, h10, h11, h12, f13, f14, h15, h16, h17, f18, f19, h20, h21, h22, f23, h24, h25, h26, h27, h28, h29, h30, h31, h32, h33, h34, h35⟩ := hf
  obtain ⟨g19, u19, v19⟩ := variant_val f19
  have lt : ∀ n : Nat, n % 16 < 16 := fun n => Nat.mod_lt _ (by decide)
  have b0 := (hex_val h0).1
  have b1 := (hex_val h1).1
  have b2 := (hex_val h2).1
  have b3 := (hex_val h3).1
  have b4 := (hex_val h4).1
  have b5 := (hex_val h5).1
  have b6 := (hex_val h6).1
  have b7 := (hex_val h7).1
  have b9 := (hex_val h9).1
  have b10 := (hex_val h10).1
  have b11 := (hex_val h11).1
  have b12 := (hex_val h12).1
  have b15 := (hex_val h15).1
  have b16 := (hex_val h16).1
  have b17 := (hex_val h17).1
  have b20 := (hex_val h20).1
  have b21 := (hex_val h21).1
  have b22 := (hex_val h22).1
  have b24 := (hex_val h24).1
  have b25 := (hex_val h25).1
  have b26 := (hex_val h26).1
  have b27 := (hex_val h27).1
  have b28 := (hex_val h28).1
  have b29 := (hex_val h29).1
  have b30 := (hex_val h30).1
  have b31 := (hex_val h31).1
  have b32 := (hex_val h32).1
  have b33 := (hex_val h33).1
  have b34 := (hex_val h34).1
  have b35 := (hex_val h35).1
  have s0 : ∀ x, x < 16 → ∀ a ∈ [val t0, val t1, val t2, val t3, val t4, val t5, val t6, val t7, val t9, val t10, val t11, val t12, val t15, val t16, val t17, x], a < 16 := by
    intro x hx a ha
    simp only [List.mem_cons, List.not_mem_nil, or_false] at ha
    rcases ha with rfl | rfl | rfl | rfl | rfl | rfl | rfl | rfl | rfl | rfl | rfl | rfl | rfl | rfl | rfl | rfl <;> assumption
  have s1 : ∀ x, x < 16 → ∀ a ∈ [x, val t20, val t21, val t22, val t24, val t25, val t26, val t27, val t28, val t29, val t30, val t31, val t32, val t33, val t34, val t35], a < 16 := by
    intro x hx a ha
    simp only [List.mem_cons, List.not_mem_nil, or_false] at ha
    rcases ha with rfl | rfl | rfl | rfl | rfl | rfl | rfl | rfl | rfl | rfl | rfl | rfl | rfl | rfl | rfl | rfl <;> assumption
  refine ⟨fun i => (num [val t0, val t1, val t2, val t3, val t4, val t5, val t6, val t7, val t9, val t10, val t11, val t12, val t15, val t16, val t17, i.val / 4], num [val t19 - 8 + 4 * (i.val % 4), val t20, val t21, val t22, val t24, val t25, val t26, val t27, val t28, val t29, val t30, val t31, val t32, val t33, val t34, val t35]), ?_, ?_⟩
  · intro i j e
    simp only [Prod.mk.injEq] at e
    obtain ⟨e1, e2⟩ := e
    have e1 := num_inj _ _ (s0 (i.val / 4) (quot_lt i.isLt)) (s0 (j.val / 4) (quot_lt j.isLt)) rfl e1
    have e2 := num_inj _ _ (s1 (val t19 - 8 + 4 * (i.val % 4)) (low_lt v19)) (s1 (val t19 - 8 + 4 * (j.val % 4)) (low_lt v19)) rfl e2
    simp only [List.cons.injEq, true_and, and_true] at e1 e2
    exact pair_ext e1 e2
  · intro q0 q1
    have key : randomUuid q0 q1 = [t0, t1, t2, t3, t4, t5, t6, t7, t8, t9, t10, t11, t12, t13, t14, t15, t16, t17, t18, t19, t20, t21, t22, t23, t24, t25, t26, t27, t28, t29, t30, t31, t32, t33, t34, t35] ↔
        (q0 / 16 ^ 0 % 16 = val t0 ∧ q0 / 16 ^ 1 % 16 = val t1 ∧ q0 / 16 ^ 2 % 16 = val t2 ∧ q0 / 16 ^ 3 % 16 = val t3 ∧ q0 / 16 ^ 4 % 16 = val t4 ∧
          q0 / 16 ^ 5 % 16 = val t5 ∧ q0 / 16 ^ 6 % 16 = val t6 ∧ q0 / 16 ^ 7 % 16 = val t7 ∧ q0 / 16 ^ 8 % 16 = val t9 ∧ q0 / 16 ^ 9 % 16 = val t10 ∧
          q0 / 16 ^ 10 % 16 = val t11 ∧ q0 / 16 ^ 11 % 16 = val t12 ∧ q0 / 16 ^ 12 % 16 = val t15 ∧ q0 / 16 ^ 13 % 16 = val t16 ∧ q0 / 16 ^ 14 % 16 = val t17) ∧
        (8 + q1 % 4 = val t19 ∧ q1 / 16 ^ 1 % 16 = val t20 ∧ q1 / 16 ^ 2 % 16 = val t21 ∧ q1 / 16 ^ 3 % 16 = val t22 ∧ q1 / 16 ^ 4 % 16 = val t24 ∧
          q1 / 16 ^ 5 % 16 = val t25 ∧ q1 / 16 ^ 6 % 16 = val t26 ∧ q1 / 16 ^ 7 % 16 = val t27 ∧ q1 / 16 ^ 8 % 16 = val t28 ∧ q1 / 16 ^ 9 % 16 = val t29 ∧
          q1 / 16 ^ 10 % 16 = val t30 ∧ q1 / 16 ^ 11 % 16 = val t31 ∧ q1 / 16 ^ 12 % 16 = val t32 ∧ q1 / 16 ^ 13 % 16 = val t33 ∧ q1 / 16 ^ 14 % 16 = val t34 ∧
          q1 / 16 ^ 15 % 16 = val t35) := by
      unfold randomUuid
      simp only [List.cons.injEq, y_eq, low_bits, f8, f13, f14, f18, f23, true_and, and_true,
        dig_eq (lt _) h0, dig_eq (lt _) h1, dig_eq (lt _) h2, dig_eq (lt _) h3, dig_eq (lt _) h4, dig_eq (lt _) h5, dig_eq (lt _) h6, dig_eq (lt _) h7,
        dig_eq (lt _) h9, dig_eq (lt _) h10, dig_eq (lt _) h11, dig_eq (lt _) h12, dig_eq (lt _) h15, dig_eq (lt _) h16, dig_eq (lt _) h17,
        dig_eq (show 8 + q1 % 4 < 16 by omega) g19, dig_eq (lt _) h20, dig_eq (lt _) h21, dig_eq (lt _) h22, dig_eq (lt _) h24, dig_eq (lt _) h25, dig_eq (lt _) h26,
        dig_eq (lt _) h27, dig_eq (lt _) h28, dig_eq (lt _) h29, dig_eq (lt _) h30, dig_eq (lt _) h31, dig_eq (lt _) h32, dig_eq (lt _) h33, dig_eq (lt _) h34,
        dig_eq (lt _) h35, and_assoc]
    rw [key]
    clear key
    have d0 : ∀ x, x < 16 → (num [val t0, val t1, val t2, val t3, val t4, val t5, val t6, val t7, val t9, val t10, val t11, val t12, val t15, val t16, val t17, x] = q0 ↔ Digs q0 [val t0, val t1, val t2, val t3, val t4, val t5, val t6, val t7, val t9, val t10, val t11, val t12, val t15, val t16, val t17, x]) := fun x hx => (digs_num _ (s0 x hx) q0).symm
    have d1 : ∀ x, x < 16 → (num [x, val t20, val t21, val t22, val t24, val t25, val t26, val t27, val t28, val t29, val t30, val t31, val t32, val t33, val t34, val t35] = q1 ↔ Digs q1 [x, val t20, val t21, val t22, val t24, val t25, val t26, val t27, val t28, val t29, val t30, val t31, val t32, val t33, val t34, val t35]) := fun x hx => (digs_num _ (s1 x hx) q1).symm
    simp only [Digs, Nat.div_div_eq_div_mul, Nat.reduceMul] at d0 d1
    simp only [Nat.reducePow, Nat.div_one, Prod.mk.injEq]
    constructor
    · rintro ⟨l0, l1, hA, hB⟩
      obtain ⟨a0, a1, a2, a3, a4, a5, a6, a7, a8, a9, a10, a11, a12, a13, a14⟩ := hA
      obtain ⟨c0, c1, c2, c3, c4, c5, c6, c7, c8, c9, c10, c11, c12, c13, c14, c15⟩ := hB
      refine ⟨⟨4 * (q0 / 1152921504606846976 % 16) + q1 / 4 % 4, pair_lt⟩, ?_, ?_⟩
      · rw [d0 _ (quot_lt pair_lt)]
        exact ⟨a0, a1, a2, a3, a4, a5, a6, a7, a8, a9, a10, a11, a12, a13, a14, top_digit l0⟩
      · rw [d1 _ (low_lt v19)]
        obtain ⟨r0, r1⟩ := low_digit (d := q0 / 1152921504606846976 % 16) l1 c0
        exact ⟨r0, c1, c2, c3, c4, c5, c6, c7, c8, c9, c10, c11, c12, c13, c14, c15, r1⟩
    · rintro ⟨⟨i, hi⟩, e0, e1⟩
      rw [d0 _ (quot_lt hi)] at e0
      rw [d1 _ (low_lt v19)] at e1
      obtain ⟨a0, a1, a2, a3, a4, a5, a6, a7, a8, a9, a10, a11, a12, a13, a14, _, z0⟩ := e0
      obtain ⟨c0, c1, c2, c3, c4, c5, c6, c7, c8, c9, c10, c11, c12, c13, c14, c15, z1⟩ := e1
      refine ⟨lt_of_zero z0, lt_of_zero z1, ⟨a0, a1, a2, a3, a4, a5, a6, a7, a8, a9, a10, a11, a12, a13, a14⟩, ?_, c1, c2, c3, c4, c5, c6, c7, c8, c9, c10, c11, c12, c13, c14, c15⟩
      exact low_digit' u19 v19 c0

/-- A case of C132. -/
example : randomUuid 0xFEDCBA9876543210 0x0123456789ABCDEF = "01234567-89ab-4cde-bedc-ba9876543210".toUTF8.toList := by decide +kernel

end Asteria.Uuid
