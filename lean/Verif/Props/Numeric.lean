import Verif.Model.Numeric
import Mathlib.Tactic.ByContra
import Mathlib.Tactic.NormNum
import Mathlib.Tactic.Ring

/-!
# Properties of rotation, packing and random numbers (C29 - C31)
-/

namespace Asteria.Numeric

/-! ## C29 -/

/-- `x` truncated to `8 * w` bits and sign-extended: the representative of `x` modulo `2 ^ (8 * w)`
in `[-2 ^ (8 * w - 1), 2 ^ (8 * w - 1))`. -/
def wrapTo (w : Nat) (x : Int) : Int := Int.bmod x (2 ^ (8 * w))

theorem storeLE_length (w v : Nat) : (storeLE w v).length = w := by
  induction w generalizing v with
  | zero => rfl
  | succ w ih => simp [storeLE, ih]

theorem storeBE_length (w v : Nat) : (storeBE w v).length = w := by
  simp [storeBE, storeLE_length]

theorem loadLE_storeLE (w v : Nat) (h : v < 2 ^ (8 * w)) : loadLE (storeLE w v) = v := by
  induction w generalizing v with
  | zero => simp at h; subst h; rfl
  | succ w ih =>
    rw [Nat.mul_add, Nat.pow_add] at h
    simp only [storeLE, loadLE]
    rw [ih _ (by rw [Nat.div_lt_iff_lt_mul (by omega)]; simpa using h), UInt8.toNat_ofNat']
    omega

theorem loadBE_storeBE (w v : Nat) (h : v < 2 ^ (8 * w)) : loadBE (storeBE w v) = v := by
  rw [loadBE, storeBE, List.reverse_reverse, loadLE_storeLE w v h]

theorem castU_lt (w : Nat) (x : Int) : castU w x < 2 ^ (8 * w) := by
  unfold castU
  have h0 : (0 : Int) < 2 ^ (8 * w) := by positivity
  have h1 := Int.emod_lt_of_pos x h0
  have h2 := Int.emod_nonneg x (by omega : (2 : Int) ^ (8 * w) ≠ 0)
  have : ((x % 2 ^ (8 * w)).toNat : Int) < ((2 ^ (8 * w) : Nat) : Int) := by
    rw [Int.toNat_of_nonneg h2]; push_cast; exact h1
  exact_mod_cast this

theorem castS_castU (w : Nat) (hw : 0 < w) (x : Int) : castS w (castU w x) = wrapTo w x := by
  have h0 : (0 : Int) < 2 ^ (8 * w) := by positivity
  have h2 := Int.emod_nonneg x (by omega : (2 : Int) ^ (8 * w) ≠ 0)
  have hu : ((castU w x : Nat) : Int) = x % 2 ^ (8 * w) := Int.toNat_of_nonneg h2
  unfold castS wrapTo Int.bmod
  push_cast
  simp only [hu]
  have hdiv : ((2 ^ (8 * w) / 2 : Nat) : Int) = 2 ^ (8 * w) / 2 := by push_cast; rfl
  have key : castU w x < 2 ^ (8 * w) / 2 ↔ x % 2 ^ (8 * w) < 2 ^ (8 * w) / 2 := by
    rw [← hu, ← hdiv]; exact Int.ofNat_lt.symm
  · have heven : (2 ^ (8 * w) + 1 : Int) / 2 = 2 ^ (8 * w) / 2 := by
      obtain ⟨k, hk⟩ : ∃ k, 8 * w = k + 1 := ⟨8 * w - 1, by omega⟩
      rw [hk, pow_succ]; omega
    simp only [key, heven]

/-- What the packing functions need of a byte order. -/
structure Order (store : Nat → Nat → Bytes) (load : Bytes → Nat) : Prop where
  length : ∀ w v, (store w v).length = w
  load_store : ∀ w v, v < 2 ^ (8 * w) → load (store w v) = v

theorem order_LE : Order storeLE loadLE := ⟨storeLE_length, loadLE_storeLE⟩
theorem order_BE : Order storeBE loadBE := ⟨storeBE_length, loadBE_storeBE⟩

theorem pack_eq (store : Nat → Nat → Bytes) (w : Nat) (xs : List Int) :
    pack store w xs = xs.flatMap fun x => store w (castU w x) := by
  have : ∀ acc, xs.foldl (fun text value => text ++ store w (castU w value)) acc =
      acc ++ xs.flatMap fun x => store w (castU w x) := by
    induction xs with
    | nil => simp
    | cons x xs ih => intro acc; simp [ih]
  simpa [pack] using this []

theorem unpackLoop_pack {store load} (o : Order store load) (w : Nat) (hw : 0 < w) (xs acc : List Int) :
    unpackLoop load w acc (xs.flatMap fun x => store w (castU w x)) = .ok (acc ++ xs.map (wrapTo w)) := by
  induction xs generalizing acc with
  | nil => unfold unpackLoop; simp
  | cons x xs ih =>
    have hl := o.length w (castU w x)
    unfold unpackLoop
    rw [List.flatMap_cons, if_neg (by
      intro h; rw [List.append_eq_nil_iff] at h; rw [h.1] at hl; simp at hl; omega),
      if_pos ⟨hw, by simp; omega⟩, List.take_left' hl, List.drop_left' hl, ih,
      o.load_store _ _ (castU_lt w x), castS_castU w hw]
    simp

theorem flatMap_length {store load} (o : Order store load) (w : Nat) (xs : List Int) :
    (xs.flatMap fun x => store w (castU w x)).length = w * xs.length := by
  induction xs with
  | nil => rfl
  | cons x xs ih => rw [List.flatMap_cons, List.length_append, ih, o.length, List.length_cons]; ring

theorem unpack_pack {store load} (o : Order store load) (w : Nat) (hw : 0 < w) (xs : List Int) :
    unpack load w (pack store w xs) = .ok (xs.map (wrapTo w)) := by
  unfold unpack
  rw [pack_eq, flatMap_length o, if_neg (by simp), unpackLoop_pack o w hw]
  simp

/-- C29: unpacking what was packed returns each integer truncated to the width and sign-extended, for
both byte orders and every width. -/
theorem C29_round_trip (w : Nat) (hw : 0 < w) (xs : List Int) :
    unpack loadBE w (pack storeBE w xs) = .ok (xs.map (wrapTo w)) ∧
      unpack loadLE w (pack storeLE w xs) = .ok (xs.map (wrapTo w)) :=
  ⟨unpack_pack order_BE w hw xs, unpack_pack order_LE w hw xs⟩

/-- C29: integers in the range of the type come back unchanged. -/
theorem C29_in_range (w : Nat) (hw : 0 < w) (xs : List Int)
    (h : ∀ x ∈ xs, -2 ^ (8 * w - 1) ≤ x ∧ x < 2 ^ (8 * w - 1)) :
    unpack loadBE w (pack storeBE w xs) = .ok xs ∧ unpack loadLE w (pack storeLE w xs) = .ok xs := by
  have : xs.map (wrapTo w) = xs := by
    rw [List.map_congr_left (g := id), List.map_id]
    intro x hx
    obtain ⟨h1, h2⟩ := h x hx
    have e : (2 ^ (8 * w) : Nat) = 2 * 2 ^ (8 * w - 1) := by
      obtain ⟨k, hk⟩ : ∃ k, 8 * w = k + 1 := ⟨8 * w - 1, by omega⟩
      rw [hk, pow_succ]; simp; ring
    unfold wrapTo
    rw [e]
    exact Int.bmod_eq_of_le (by push_cast; omega) (by push_cast; omega)
  have h2 := C29_round_trip w hw xs
  rwa [this] at h2

/-- C29: a byte string is accepted iff its length is divisible by the width, and then no byte is read
out of bounds and the number of results is the quotient. -/
theorem C29_length (load : Bytes → Nat) (w : Nat) (hw : 0 < w) (text : Bytes) :
    (text.length % w ≠ 0 ∧ unpack load w text = .throw) ∨
      (text.length % w = 0 ∧ ∃ xs, unpack load w text = .ok xs ∧ xs.length = text.length / w) := by
  by_cases h : text.length % w = 0
  · right
    refine ⟨h, ?_⟩
    unfold unpack
    rw [if_neg (by simpa using h)]
    have key : ∀ (n : Nat) (text : Bytes) (acc : List Int), text.length = w * n →
        ∃ xs, unpackLoop load w acc text = .ok xs ∧ xs.length = acc.length + n := by
      intro n
      induction n with
      | zero =>
        intro text acc hl
        rw [Nat.mul_zero, List.length_eq_zero_iff] at hl
        subst hl
        unfold unpackLoop
        exact ⟨acc, by simp, rfl⟩
      | succ n ih =>
        intro text acc hl
        rw [Nat.mul_add, Nat.mul_one] at hl
        obtain ⟨xs, h1, h2⟩ := ih (text.drop w) (acc ++ [castS w (load (text.take w))]) (by simp; omega)
        unfold unpackLoop
        rw [if_neg (by intro h; subst h; simp at hl; omega), if_pos ⟨hw, by omega⟩, h1]
        exact ⟨xs, rfl, by simp at h2; omega⟩
    obtain ⟨xs, h1, h2⟩ := key (text.length / w) text []
      (by have := Nat.div_add_mod text.length w; omega)
    exact ⟨xs, h1, by simpa using h2⟩
  · exact Or.inl ⟨h, by unfold unpack; rw [if_pos h]⟩

/-- C29: the two byte orders differ by the reversal of the bytes of each element. -/
theorem C29_orders (w : Nat) (x : Int) : pack storeBE w [x] = (pack storeLE w [x]).reverse := by
  simp [pack, storeBE]

/-- C29: the big-endian text of a non-negative value is its representation in base 256. -/
theorem C29_digits (w v i : Nat) (hi : i < w) :
    (storeLE w v)[i]? = some (UInt8.ofNat (v / 256 ^ i)) := by
  induction w generalizing v i with
  | zero => omega
  | succ w ih =>
    cases i with
    | zero => simp [storeLE]
    | succ i =>
      simp only [storeLE, List.getElem?_cons_succ]
      rw [ih _ _ (by omega), Nat.div_div_eq_div_mul, Nat.pow_succ, Nat.mul_comm]

example : pack storeBE 2 [1, -2, 70000] = [0, 1, 255, 254, 17, 112] ∧
    unpack loadBE 2 [0, 1, 255, 254, 17, 112] = .ok [1, -2, 4464] ∧
    unpack loadLE 4 [1, 2, 3] = .throw := by decide +kernel

/-! ## C30 -/

theorem mask_bit : ∀ m i : Fin 64, (((2 : BitVec 64) <<< m.val) - 1).getLsbD i = decide (i ≤ m) := by
  decide +kernel

theorem signMask_eq (sh m : Int) (h1 : -64 < sh) (h2 : sh < 64) (h3 : 0 ≤ m) (h4 : m ≤ 64) :
    signMask sh m = if sh < 0 then m else 0 := by
  have : ∀ s : Fin 127, ∀ m : Fin 65, signMask ((s.val : Int) - 63) m.val =
      if (s.val : Int) - 63 < 0 then (m.val : Int) else 0 := by decide +kernel
  have := this ⟨(sh + 63).toNat, by omega⟩ ⟨m.toNat, by omega⟩
  simp only at this
  rw [show (((sh + 63).toNat : Nat) : Int) - 63 = sh by omega, Int.toNat_of_nonneg h3] at this
  exact this

/-- The bits of an `int64_t`. -/
def bit (x : Int) (i : Nat) : Bool := (BitVec.ofInt 64 x).getLsbD i

/-- The specification of a rotation to the left by `n`: bit `i` of the result is bit `(i - n) mod m` of
the operand for `i < m`; the other bits are clear. -/
def Rotated (m : Nat) (x n r : Int) : Prop :=
  -2 ^ 63 ≤ r ∧ r < 2 ^ 63 ∧
    ∀ i : Nat, i < 64 → bit r i = (decide (i < m) && bit x (((i : Int) - n) % m).toNat)

theorem toInt_spec (b : BitVec 64) (i : Nat) : bit b.toInt i = b.getLsbD i := by
  unfold bit; rw [BitVec.ofInt_toInt]

theorem toInt_range (b : BitVec 64) : -2 ^ 63 ≤ b.toInt ∧ b.toInt < 2 ^ 63 :=
  ⟨by have := BitVec.le_toInt b; simpa using this, by have := @BitVec.toInt_lt 64 b; simpa using this⟩

theorem norm_shift (m n : Int) (hm : 0 < m) (hm2 : m ≤ 64) :
    n.tmod m + signMask (n.tmod m) m = n % m := by
  have hub : n.tmod m < m := Int.tmod_lt_of_pos _ hm
  have hlb : -m < n.tmod m := by have := Int.lt_tmod_of_pos n hm; omega
  rw [signMask_eq _ _ (by omega) (by omega) (by omega) hm2]
  have hmod : n % m = n.tmod m % m := by
    conv => lhs; rw [← Int.mul_tdiv_add_tmod n m]
    rw [Int.add_comm, Int.add_mul_emod_self_left]
  rw [hmod]
  split
  · rw [show n.tmod m = n.tmod m + m - m by omega, Int.sub_emod_right,
      Int.emod_eq_of_lt (by omega) (by omega)]; omega
  · rw [Int.emod_eq_of_lt (by omega) hub]; omega

/-- C30: `rotl` on `m` bits. -/
theorem C30_rotl (m x n : Int) (h1 : 0 < m) (h2 : m ≤ 64) :
    ∃ r, rotl m x n = .ok r ∧ Rotated m.toNat x n r := by
  unfold rotl
  rw [if_neg (by omega), if_neg (by omega)]
  unfold shl64
  rw [if_pos (by omega)]
  simp only [Res.bind]
  have hmask : ∀ i : Nat, i < 64 → (((2 : BitVec 64) <<< (m - 1).toNat) - 1).getLsbD i = decide (i < m.toNat) := by
    intro i hi
    have := mask_bit ⟨(m - 1).toNat, by omega⟩ ⟨i, hi⟩
    rw [this]
    simp only [Fin.le_def, decide_eq_decide]; omega
  have hn := norm_shift m n h1 h2
  have hmodlt := Int.emod_lt_of_pos n h1
  have hmod0 := Int.emod_nonneg n (show m ≠ 0 by omega)
  have hcast : ((m.toNat : Nat) : Int) = m := by omega
  split
  · next hne =>
    rw [hn]
    have hne0 : n % m ≠ 0 := by
      intro h0
      exact hne (Int.tmod_eq_zero_of_dvd (Int.dvd_of_emod_eq_zero h0))
    unfold shr64
    rw [if_pos (by omega), if_pos (by omega)]
    refine ⟨_, rfl, (toInt_range _).1, (toInt_range _).2, fun i hi => ?_⟩
    rw [toInt_spec]
    simp only [BitVec.getLsbD_and, BitVec.getLsbD_or, BitVec.getLsbD_shiftLeft,
      BitVec.getLsbD_ushiftRight]
    rw [hmask i hi]
    by_cases him : i < m.toNat
    · simp only [him, decide_true, Bool.and_true, hi, Bool.true_and]
      by_cases hlt : i < (n % m).toNat
      · have e : (((i : Int) - n) % m).toNat = (m - n % m).toNat + i := by
          have : ((i : Int) - n) % m = (i : Int) - n % m + m := by
            rw [Int.sub_emod, Int.emod_eq_of_lt (by omega : (0:Int) ≤ i) (by omega),
              show (i : Int) - n % m = (i : Int) - n % m + m - m by omega, Int.sub_emod_right,
              Int.emod_eq_of_lt (by omega) (by omega)]
            omega
          rw [this]; omega
        rw [hcast, e, hmask _ (by omega)]
        simp only [hlt, decide_true, Bool.not_true, Bool.false_and, Bool.false_or, bit]
        rw [show decide ((m - n % m).toNat + i < m.toNat) = true by simp; omega]
        simp
      · have e : (((i : Int) - n) % m).toNat = i - (n % m).toNat := by
          have : ((i : Int) - n) % m = (i : Int) - n % m := by
            rw [Int.sub_emod, Int.emod_eq_of_lt (by omega : (0:Int) ≤ i) (by omega),
              Int.emod_eq_of_lt (by omega) (by omega)]
          rw [this]; omega
        rw [hcast, e]
        have hz : (((2 : BitVec 64) <<< (m - 1).toNat) - 1).getLsbD ((m - n % m).toNat + i) = false := by
          by_cases h64 : (m - n % m).toNat + i < 64
          · rw [hmask _ h64]; simp; omega
          · exact BitVec.getLsbD_of_ge _ _ (by omega)
        rw [hz]
        simp [hlt, bit]
    · simp [him]
  · next h0 =>
    have h0 : n.tmod m = 0 := by simpa using h0
    have hn0 : n % m = 0 := Int.emod_eq_zero_of_dvd (Int.dvd_of_tmod_eq_zero h0)
    refine ⟨_, rfl, (toInt_range _).1, (toInt_range _).2, fun i hi => ?_⟩
    rw [toInt_spec, BitVec.getLsbD_and, hmask i hi, Bool.and_comm]
    by_cases him : i < m.toNat
    · have e : (((i : Int) - n) % m).toNat = i := by
        rw [Int.sub_emod, hn0, Int.sub_zero, Int.emod_emod, Int.emod_eq_of_lt (by omega) (by omega)]
        rfl
      rw [hcast, e]; rfl
    · simp [him]

/-- C30: `rotr` is a rotation to the left by the opposite count. -/
theorem C30_rotr (m x n : Int) (h1 : 0 < m) (h2 : m ≤ 64) :
    ∃ r, rotr m x n = .ok r ∧ Rotated m.toNat x (-n) r := by
  unfold rotr
  rw [if_neg (by omega), if_neg (by omega)]
  unfold shl64
  rw [if_pos (by omega)]
  simp only [Res.bind]
  have hmask : ∀ i : Nat, i < 64 → (((2 : BitVec 64) <<< (m - 1).toNat) - 1).getLsbD i = decide (i < m.toNat) := by
    intro i hi
    have := mask_bit ⟨(m - 1).toNat, by omega⟩ ⟨i, hi⟩
    rw [this]
    simp only [Fin.le_def, decide_eq_decide]; omega
  have hn := norm_shift m n h1 h2
  have hmodlt := Int.emod_lt_of_pos n h1
  have hmod0 := Int.emod_nonneg n (show m ≠ 0 by omega)
  have hcast : ((m.toNat : Nat) : Int) = m := by omega
  split
  · next hne =>
    rw [hn]
    have hne0 : n % m ≠ 0 := by
      intro h0
      exact hne (Int.tmod_eq_zero_of_dvd (Int.dvd_of_emod_eq_zero h0))
    unfold shr64
    rw [if_pos (by omega), if_pos (by omega)]
    refine ⟨_, rfl, (toInt_range _).1, (toInt_range _).2, fun i hi => ?_⟩
    rw [toInt_spec]
    simp only [BitVec.getLsbD_and, BitVec.getLsbD_or, BitVec.getLsbD_shiftLeft,
      BitVec.getLsbD_ushiftRight]
    rw [hmask i hi, Int.sub_neg]
    by_cases him : i < m.toNat
    · simp only [him, decide_true, Bool.and_true, hi, Bool.true_and]
      by_cases hlt : i < (m - n % m).toNat
      · have e : (((i : Int) + n) % m).toNat = (n % m).toNat + i := by
          have : ((i : Int) + n) % m = (i : Int) + n % m := by
            rw [Int.add_emod, Int.emod_eq_of_lt (by omega : (0:Int) ≤ i) (by omega),
              Int.emod_eq_of_lt (by omega) (by omega)]
          rw [this]; omega
        rw [hcast, e, hmask _ (by omega)]
        simp only [hlt, decide_true, Bool.not_true, Bool.false_and, Bool.or_false, bit]
        rw [show decide ((n % m).toNat + i < m.toNat) = true by simp; omega]
        simp
      · have e : (((i : Int) + n) % m).toNat = i - (m - n % m).toNat := by
          have : ((i : Int) + n) % m = (i : Int) + n % m - m := by
            rw [Int.add_emod, Int.emod_eq_of_lt (by omega : (0:Int) ≤ i) (by omega),
              show (i : Int) + n % m = (i : Int) + n % m - m + m by omega, Int.add_emod_right,
              Int.emod_eq_of_lt (by omega) (by omega)]
            omega
          rw [this]; omega
        rw [hcast, e]
        have hz : (((2 : BitVec 64) <<< (m - 1).toNat) - 1).getLsbD ((n % m).toNat + i) = false := by
          by_cases h64 : (n % m).toNat + i < 64
          · rw [hmask _ h64]; simp; omega
          · exact BitVec.getLsbD_of_ge _ _ (by omega)
        rw [hz]
        simp [hlt, bit]
    · simp [him]
  · next h0 =>
    have h0 : n.tmod m = 0 := by simpa using h0
    have hn0 : n % m = 0 := Int.emod_eq_zero_of_dvd (Int.dvd_of_tmod_eq_zero h0)
    refine ⟨_, rfl, (toInt_range _).1, (toInt_range _).2, fun i hi => ?_⟩
    rw [toInt_spec, BitVec.getLsbD_and, hmask i hi, Bool.and_comm, Int.sub_neg]
    by_cases him : i < m.toNat
    · have e : (((i : Int) + n) % m).toNat = i := by
        rw [Int.add_emod, hn0, Int.add_zero, Int.emod_emod, Int.emod_eq_of_lt (by omega) (by omega)]
        rfl
      rw [hcast, e]; rfl
    · simp [him]

theorem eq_of_bits (x y : Int) (hx : -2 ^ 63 ≤ x ∧ x < 2 ^ 63) (hy : -2 ^ 63 ≤ y ∧ y < 2 ^ 63)
    (h : ∀ i, i < 64 → bit x i = bit y i) : x = y := by
  have : BitVec.ofInt 64 x = BitVec.ofInt 64 y := by
    apply BitVec.eq_of_getLsbD_eq
    intro i hi; exact h i hi
  have h2 := congrArg BitVec.toInt this
  rw [BitVec.toInt_ofInt, BitVec.toInt_ofInt, Int.bmod_eq_of_le (by omega) (by omega),
    Int.bmod_eq_of_le (by omega) (by omega)] at h2
  exact h2

/-- C30: rotating right undoes rotating left: what remains are the low `m` bits. -/
theorem C30_inverse (m x n : Int) (h1 : 0 < m) (h2 : m ≤ 64) :
    ((rotl m x n).bind fun r => rotr m r n) = rotl m x 0 := by
  obtain ⟨r, e1, g1, g2, g3⟩ := C30_rotl m x n h1 h2
  obtain ⟨q, e2, q1, q2, q3⟩ := C30_rotr m r n h1 h2
  obtain ⟨p, e3, p1, p2, p3⟩ := C30_rotl m x 0 h1 h2
  rw [e1]
  simp only [Res.bind]
  rw [e2, e3]
  congr 1
  refine eq_of_bits _ _ ⟨q1, q2⟩ ⟨p1, p2⟩ (fun i hi => ?_)
  rw [q3 i hi, p3 i hi]
  by_cases him : i < m.toNat
  · have hcast : ((m.toNat : Nat) : Int) = m := by omega
    rw [hcast]
    rw [Int.sub_neg]
    have b1 := Int.emod_lt_of_pos ((i : Int) + n) h1
    have b0 := Int.emod_nonneg ((i : Int) + n) (show m ≠ 0 by omega)
    rw [g3 _ (by omega), hcast]
    have : decide ((((i : Int) + n) % m).toNat < m.toNat) = true := by simp; omega
    rw [this, Int.toNat_of_nonneg b0, Bool.true_and]
    have e : (((i : Int) + n) % m - n) % m = ((i : Int) - 0) % m := by
      rw [Int.sub_emod, Int.emod_emod, ← Int.sub_emod]; congr 1; omega
    rw [e]
  · simp [him]

/-- C30: the remaining cases. -/
theorem C30_other (m x n : Int) :
    (m < 0 ∨ 64 < m → rotl m x n = .throw ∧ rotr m x n = .throw) ∧
      rotl 0 x n = .ok 0 ∧ rotr 0 x n = .ok 0 := by
  refine ⟨fun h => ?_, by simp [rotl], by simp [rotr]⟩
  unfold rotl rotr
  exact ⟨if_pos (by omega), if_pos (by omega)⟩

example : rotl 8 0x81 1 = .ok 3 ∧ rotr 8 0x81 1 = .ok 0xC0 ∧ rotl 64 (-2) (-1) = .ok (2 ^ 63 - 1) ∧
    rotl 12 0xABC (-8) = .ok 0xBCA := by decide +kernel

/-! ## C31 -/

/-- The invariant of the engine: the arrays have 256 words and the counter is at most 256.  It holds
after construction (src/runtime/random_engine.cpp:11-21). -/
def Engine.Valid (g : Engine) : Prop :=
  g.randcnt ≤ 256 ∧ g.randrsl.length = 256 ∧ g.randmem.length = 256

theorem ind_ok (mm : List (BitVec 32)) (h : mm.length = 256) (x : BitVec 32) : ∃ w, ind mm x = .ok w := by
  unfold ind
  have hlt : (x &&& 0x3FC).toNat / 4 < mm.length := by
    have : (x &&& 0x3FC).toNat ≤ 0x3FC := by
      rw [BitVec.toNat_and]; exact Nat.and_le_right
    omega
  rw [List.getElem?_eq_getElem hlt]
  exact ⟨_, rfl⟩

theorem rngstep_ok (i : Nat) (hi : i < 256) (g : Engine) (h1 : g.randrsl.length = 256)
    (h2 : g.randmem.length = 256) :
    ∃ g', rngstep i g = .ok g' ∧ g'.randrsl.length = 256 ∧ g'.randmem.length = 256 ∧
      g'.randcnt = g.randcnt := by
  unfold rngstep
  obtain ⟨w, hw⟩ : ∃ w, g.randmem[if i < 128 then i + 128 else i - 128]? = some w :=
    ⟨_, List.getElem?_eq_getElem (by split <;> omega)⟩
  rw [List.getElem?_eq_getElem (show i < g.randmem.length by omega), hw]
  simp only
  obtain ⟨u, hu⟩ := ind_ok g.randmem h2 g.randmem[i]
  rw [hu]
  simp only [Res.bind]
  generalize hy : u + _ + g.randb = y
  obtain ⟨v, hv⟩ := ind_ok (g.randmem.set i y) (by simp [h2]) (y >>> 8)
  rw [hv]
  simp only
  rw [if_pos (by omega)]
  exact ⟨_, rfl, by simp [h1], by simp [h2], rfl⟩

theorem isaacLoop_ok (k : Nat) (hk : k ≤ 256) (g : Engine) (h1 : g.randrsl.length = 256)
    (h2 : g.randmem.length = 256) :
    ∃ g', isaacLoop k g = .ok g' ∧ g'.randrsl.length = 256 ∧ g'.randmem.length = 256 := by
  induction k generalizing g with
  | zero => exact ⟨g, rfl, h1, h2⟩
  | succ k ih =>
    obtain ⟨g1, e1, a1, a2, -⟩ := rngstep_ok (255 - k) (by omega) g h1 h2
    unfold isaacLoop
    rw [e1]
    exact ih (by omega) g1 a1 a2

/-- C31: the engine never indexes out of bounds, and its invariant is preserved. -/
theorem C31_bump (g : Engine) (h : g.Valid) : ∃ r g', bump g = .ok (r, g') ∧ g'.Valid := by
  obtain ⟨h0, h1, h2⟩ := h
  unfold bump
  have key : ∀ g : Engine, g.randcnt ≤ 256 → g.randrsl.length = 256 → g.randmem.length = 256 →
      g.randcnt ≠ 0 → ∃ r g', (if g.randcnt - 1 < 256 then
        match g.randrsl[g.randcnt - 1]? with
        | some r => Res.ok (r, { g with randcnt := g.randcnt - 1 })
        | none => .ub
        else .ub) = .ok (r, g') ∧ g'.Valid := by
    intro g h0 h1 h2 h3
    rw [if_pos (by omega), List.getElem?_eq_getElem (by omega)]
    exact ⟨_, _, rfl, by simp; omega, h1, h2⟩
  split
  · obtain ⟨g1, e1, a1, a2⟩ := isaacLoop_ok 256 (Nat.le_refl _)
      { g with randc := g.randc + 1, randb := g.randb + (g.randc + 1) } h1 h2
    unfold isaac
    rw [e1]
    exact key { g1 with randcnt := 256 } (Nat.le_refl _) a1 a2 (by simp)
  · next hne => exact key g h0 h1 h2 hne

/-- C31: the register from which `random` makes its ratio is less than `2 ^ 53`, so that it is exactly
representable and the ratio `ireg * 2 ^ -53` lies in `[0, 1)`; the computation is always defined. -/
theorem C31_unit (g : Engine) (h : g.Valid) :
    ∃ r g', randomBits g = .ok (r, g') ∧ g'.Valid ∧ 0 ≤ r.toInt ∧ r.toInt < 2 ^ 53 := by
  obtain ⟨a, g1, e1, h1⟩ := C31_bump g h
  obtain ⟨b, g2, e2, h2⟩ := C31_bump g1 h1
  have hlt : ((a.setWidth 64 <<< 21) ^^^ b.setWidth 64).toNat < 2 ^ 53 := by
    rw [BitVec.toNat_xor]
    apply Nat.xor_lt_two_pow
    · rw [BitVec.toNat_shiftLeft, BitVec.toNat_setWidth, Nat.shiftLeft_eq]
      have := a.isLt
      omega
    · rw [BitVec.toNat_setWidth]
      have := b.isLt
      omega
  refine ⟨(a.setWidth 64 <<< 21) ^^^ b.setWidth 64, g2, by
    unfold randomBits; rw [e1]; simp only [Res.bind]; rw [e2], h2, ?_⟩
  rw [BitVec.toInt_eq_toNat_cond, if_pos (by omega)]
  omega

/-- C31: every value below `2 ^ 53` is attained for some pair of outputs (the ratio can be any multiple
of `2 ^ -53` in the unit interval). -/
theorem C31_onto (v : BitVec 64) (hv : v.toNat < 2 ^ 53) :
    ∃ a b : BitVec 32, (a.setWidth 64 <<< 21) ^^^ b.setWidth 64 = v := by
  refine ⟨(v >>> 21).setWidth 32, (v &&& 0x1FFFFF).setWidth 32, ?_⟩
  apply BitVec.eq_of_getLsbD_eq
  intro i hi
  have hmask : ∀ j : Fin 64, (0x1FFFFF : BitVec 64).getLsbD j = decide (j.val < 21) := by decide +kernel
  have hbig : ∀ j, 53 ≤ j → v.getLsbD j = false := by
    intro j hj
    rw [BitVec.getLsbD, Nat.testBit_lt_two_pow (Nat.lt_of_lt_of_le hv (Nat.pow_le_pow_right (by omega) hj))]
  simp only [BitVec.getLsbD_xor, BitVec.getLsbD_shiftLeft, BitVec.getLsbD_setWidth,
    BitVec.getLsbD_ushiftRight, BitVec.getLsbD_and, hi, decide_true, Bool.true_and]
  have hm := hmask ⟨i, hi⟩
  simp only at hm
  rw [hm]
  by_cases h21 : i < 21
  · simp [h21, show i < 32 by omega]
  · have e : 21 + (i - 21) = i := by omega
    rw [e]
    by_cases h53 : i < 53
    · simp [h21, show i - 21 < 32 by omega, show i - 21 < 64 by omega]
    · rw [hbig i (by omega)]
      simp

example : (⟨256, List.replicate 256 7, List.replicate 256 0, 0, 0, 0⟩ : Engine).Valid ∧
    (randomBits ⟨256, List.replicate 256 7, List.replicate 256 0, 0, 0, 0⟩).map Prod.fst =
      .ok 14680071 := by
  unfold Engine.Valid; decide +kernel

end Asteria.Numeric
