import Verif.Model.Codec

namespace Asteria.Codec

/-! ## Arithmetic of registers -/

theorem shl_eq (w r k : Nat) : shl w r k = r * 2 ^ k % 2 ^ w := by
  simp [shl, Nat.shiftLeft_eq]

theorem or_eq_add {a b k : Nat} (h : b < 2 ^ k) : (a * 2 ^ k) ||| b = a * 2 ^ k + b := by
  rw [← Nat.shiftLeft_eq, Nat.shiftLeft_add_eq_or_of_lt h]

theorem byte_and (x : UInt8) : x.toNat &&& 0xFF = x.toNat := by
  have h : x.toNat < 256 := x.toNat_lt
  have := Nat.and_two_pow_sub_one_of_lt_two_pow (n := 8) (x := x.toNat) h
  simpa using this

theorem and_pow_of_lt {r k : Nat} (h : r < 2 ^ k) : r &&& 2 ^ k = 0 := by
  apply Nat.eq_of_testBit_eq
  intro i
  rw [Nat.testBit_and, Nat.testBit_two_pow]
  by_cases hi : k = i
  · subst hi; simp [Nat.testBit_lt_two_pow h]
  · simp [hi]

theorem and_pow_ne {r k : Nat} (h1 : 2 ^ k ≤ r) (h2 : r < 2 ^ (k + 1)) : r &&& 2 ^ k ≠ 0 := by
  intro h
  have : (r &&& 2 ^ k).testBit k = false := by rw [h]; simp
  rw [Nat.testBit_and, Nat.testBit_two_pow] at this
  simp at this
  have h3 : r / 2 ^ k = 1 := by
    apply Nat.div_eq_of_lt_le <;> (simp [Nat.pow_succ] at *; omega)
  simp [Nat.testBit_eq_decide_div_mod_eq, h3] at this

/-! ## Table facts (whole tables, by kernel evaluation) -/

theorem b16_table : ∀ d : Fin 16, ∃ c, tableAt base16Table (2 * d.val) = some c ∧
    xstrchr spaces c = none ∧ (xstrchr base16Table c).map (· / 2) = some d.val := by
  decide

theorem b16_lookup {d : Nat} (h : d < 16) : ∃ c, tableAt base16Table (2 * d) = some c ∧
    xstrchr spaces c = none ∧ ∃ p, xstrchr base16Table c = some p ∧ p / 2 = d := by
  obtain ⟨c, h1, h2, h3⟩ := b16_table ⟨d, h⟩
  refine ⟨c, h1, h2, ?_⟩
  simpa using h3

theorem and_fe : ∀ d : Fin 128, d.val &&& 0xFE = 2 * (d.val / 2) := by decide

/-! ## hex -/

theorem hexEmit_succ {n reg : Nat} (h : reg < 2 ^ 32) :
    ∃ c, hexEmit (n + 1) reg = (hexEmit n (reg * 2 ^ 4 % 2 ^ 32)).map (c :: ·) ∧
      xstrchr spaces c = none ∧ ∃ p, xstrchr base16Table c = some p ∧ p / 2 = reg / 2 ^ 28 := by
  have hd : reg / 2 ^ 28 < 16 := by omega
  obtain ⟨c, h1, h2, h3⟩ := b16_lookup hd
  refine ⟨c, ?_, h2, h3⟩
  have e : (reg >>> 27) &&& 0xFE = 2 * (reg / 2 ^ 28) := by
    have hx : reg >>> 27 < 128 := by rw [Nat.shiftRight_eq_div_pow]; omega
    have := and_fe ⟨reg >>> 27, hx⟩
    simp only at this
    rw [this, Nat.shiftRight_eq_div_pow]; omega
  rw [hexEmit, e, h1, shl_eq]
  simp only [need, Res.bind_eq, Res.pure_eq, Res.bind]
  cases hexEmit n (reg * 2 ^ 4 % 2 ^ 32) <;> rfl

theorem hexDecode_digit {reg p : Nat} {c : UInt8} (cs : Bytes) (hr : reg < 2 ^ 28)
    (h2 : xstrchr spaces c = none) (h3 : xstrchr base16Table c = some p) (hp : p / 2 < 16) :
    hexDecodeLoop reg (c :: cs) =
      if (reg * 16 + p / 2) &&& 0x100 = 0 then hexDecodeLoop (reg * 16 + p / 2) cs
      else (hexDecodeLoop 1 cs).map (UInt8.ofNat (reg * 16 + p / 2) :: ·) := by
  have e : shl 32 reg 4 ||| (p / 2) = reg * 16 + p / 2 := by
    rw [shl_eq, Nat.mod_eq_of_lt (by omega), or_eq_add (by omega)]
  rw [hexDecodeLoop]
  simp only [h2, h3, e, Option.isSome_none, Bool.false_eq_true, if_false]
  split
  · rfl
  · cases hexDecodeLoop 1 cs <;> rfl

theorem hex_byte (x : UInt8) (rest : Bytes) :
    ∃ h l, hexEmit 2 (shl 32 (x.toNat &&& 0xFF) 24) = .ok [h, l] ∧
      hexDecodeLoop 1 (h :: l :: rest) = (hexDecodeLoop 1 rest).map (x :: ·) := by
  have hx : x.toNat < 256 := x.toNat_lt
  rw [byte_and, shl_eq]
  have e1 : x.toNat * 2 ^ 24 % 2 ^ 32 = x.toNat * 2 ^ 24 := by omega
  rw [e1]
  obtain ⟨h, a1, a2, p, a3, a4⟩ := hexEmit_succ (n := 1) (reg := x.toNat * 2 ^ 24) (by omega)
  obtain ⟨l, b1, b2, q, b3, b4⟩ :=
    hexEmit_succ (n := 0) (reg := x.toNat * 2 ^ 24 * 2 ^ 4 % 2 ^ 32) (by omega)
  refine ⟨h, l, ?_, ?_⟩
  · rw [a1, b1]; simp [hexEmit]
  · have hp : p / 2 = x.toNat / 16 := by omega
    have hq : q / 2 = x.toNat % 16 := by omega
    rw [hexDecode_digit _ (by omega) a2 a3 (by omega), hp]
    rw [if_pos (and_pow_of_lt (k := 8) (by omega))]
    rw [hexDecode_digit _ (by omega) b2 b3 (by omega), hq]
    rw [if_neg (and_pow_ne (k := 8) (by omega) (by omega))]
    have : UInt8.ofNat ((1 * 16 + x.toNat / 16) * 16 + x.toNat % 16) = x := by
      apply UInt8.toNat_inj.mp
      simp [UInt8.toNat_ofNat']; omega
    rw [this]

theorem xstrchr_isSome {t : List UInt8} {c : UInt8} : (xstrchr t c).isSome ↔ c ∈ t := by
  induction t with
  | nil => simp [xstrchr]
  | cons x xs ih =>
    simp only [xstrchr]
    split
    · simp_all
    · rename_i h; simp [ih, Ne.symm h]

theorem hexDecode_spaces (d rest : Bytes) (h : ∀ c ∈ d, c ∈ spaces) :
    hexDecodeLoop 1 (d ++ rest) = hexDecodeLoop 1 rest := by
  induction d with
  | nil => rfl
  | cons c cs ih =>
    have hc : (xstrchr spaces c).isSome := xstrchr_isSome.mpr (h c (by simp))
    rw [List.cons_append, hexDecodeLoop, if_pos hc]
    simpa using ih (fun x hx => h x (by simp [hx]))

theorem hexEncodeLoop_ok (d : Bytes) (h : ∀ c ∈ d, c ∈ spaces) (first : Bool) (s : Bytes) :
    ∃ t, hexEncodeLoop d first s = .ok t ∧ hexDecodeLoop 1 t = .ok s := by
  induction s generalizing first with
  | nil => exact ⟨[], rfl, rfl⟩
  | cons x xs ih =>
    obtain ⟨t, h1, h2⟩ := ih false
    obtain ⟨a, b, e1, e2⟩ := hex_byte x t
    refine ⟨(if first then [] else d) ++ [a, b] ++ t, ?_, ?_⟩
    · rw [hexEncodeLoop]; simp only [e1, h1, Res.bind_eq, Res.bind, Res.pure_eq]
    · rw [List.append_assoc, hexDecode_spaces]
      · simp only [List.cons_append, List.nil_append]; rw [e2, h2]; rfl
      · intro c hc; cases first <;> simp_all

/-! ## base64 -/

theorem b64_table : ∀ d : Fin 64, ∃ c, tableAt base64Table d.val = some c ∧
    xstrchr spaces c = none ∧ ¬ some c = tableAt base64Table 64 ∧
    xstrchr base64Table c = some d.val := by
  decide

theorem b64_pad : tableAt base64Table 64 = some 61 := by decide

theorem b64Emit_succ {n reg : Nat} (h : reg < 2 ^ 32) :
    ∃ c, b64Emit (n + 1) reg = (b64Emit n (reg * 2 ^ 6 % 2 ^ 32)).map (c :: ·) ∧
      xstrchr spaces c = none ∧ ¬ some c = tableAt base64Table 64 ∧
      xstrchr base64Table c = some (reg / 2 ^ 26) := by
  have hd : reg / 2 ^ 26 < 64 := by omega
  obtain ⟨c, h1, h2, h3⟩ := b64_table ⟨_, hd⟩
  refine ⟨c, ?_, h2, h3⟩
  have e : (reg >>> 26) &&& 0xFF = reg / 2 ^ 26 := by
    rw [Nat.shiftRight_eq_div_pow]
    exact Nat.and_two_pow_sub_one_of_lt_two_pow (n := 8) (by omega)
  rw [b64Emit, e, h1, shl_eq]
  simp only [need, Res.bind_eq, Res.pure_eq, Res.bind]
  cases b64Emit n (reg * 2 ^ 6 % 2 ^ 32) <;> rfl

theorem b64Decode_digit {reg p : Nat} {c : UInt8} (cs : Bytes) (hr : reg < 2 ^ 18)
    (h2 : xstrchr spaces c = none) (h4 : ¬ some c = tableAt base64Table 64)
    (h3 : xstrchr base64Table c = some p) (hp : p < 64) :
    b64DecodeLoop reg 0 (c :: cs) = b64DecodeLoop (reg * 64 + p) 0 cs := by
  have e : shl 32 reg 6 ||| p = reg * 64 + p := by
    rw [shl_eq, Nat.mod_eq_of_lt (by omega), or_eq_add (by omega)]
  rw [b64DecodeLoop]
  simp only [h2, h3, h4, e, Option.isSome_none, Bool.false_eq_true, if_false]
  simp only [ne_eq, not_true_eq_false, if_false]
  rw [if_pos (and_pow_of_lt (k := 24) (by omega))]

theorem b64Decode_last {reg p : Nat} {c : UInt8} (cs : Bytes) (hr : reg < 2 ^ 19)
    (hr' : 2 ^ 18 ≤ reg)
    (h2 : xstrchr spaces c = none) (h4 : ¬ some c = tableAt base64Table 64)
    (h3 : xstrchr base64Table c = some p) (hp : p < 64) :
    b64DecodeLoop reg 0 (c :: cs) =
      (b64DecodeLoop 1 0 cs).map (emitBytes 32 24 3 (reg * 64 + p) ++ ·) := by
  have e : shl 32 reg 6 ||| p = reg * 64 + p := by
    rw [shl_eq, Nat.mod_eq_of_lt (by omega), or_eq_add (by omega)]
  rw [b64DecodeLoop]
  simp only [h2, h3, h4, e, Option.isSome_none, Bool.false_eq_true, if_false]
  simp only [ne_eq, not_true_eq_false, if_false]
  rw [if_neg (and_pow_ne (k := 24) (by omega) (by omega))]
  simp only [Nat.zero_mul, Nat.sub_zero, Nat.reduceDiv, Res.bind_eq, Res.pure_eq]
  cases b64DecodeLoop 1 0 cs <;> rfl

theorem b64Decode_pad1 {reg n : Nat} (cs : Bytes) (hr : reg < 2 ^ 18) (hr' : 2 ^ 6 ≤ reg) :
    b64DecodeLoop reg n (61 :: cs) = b64DecodeLoop (reg * 64) (n + 1) cs := by
  have e : shl 32 reg 6 = reg * 64 := by
    rw [shl_eq, Nat.mod_eq_of_lt (by omega)]
  rw [b64DecodeLoop, if_neg (by decide)]
  simp only [e, b64_pad, if_true]
  rw [if_neg (by omega)]
  simp only
  rw [if_pos (and_pow_of_lt (k := 24) (by omega))]

theorem b64Decode_padlast {reg n : Nat} (cs : Bytes) (hr : reg < 2 ^ 19) (hr' : 2 ^ 18 ≤ reg)
    (hn : n < 2) :
    b64DecodeLoop reg n (61 :: cs) =
      (b64DecodeLoop 1 0 cs).map (emitBytes 32 24 (2 - n) (reg * 64) ++ ·) := by
  have e : shl 32 reg 6 = reg * 64 := by
    rw [shl_eq, Nat.mod_eq_of_lt (by omega)]
  rw [b64DecodeLoop, if_neg (by decide)]
  simp only [e, b64_pad, if_true]
  rw [if_neg (by omega)]
  simp only
  rw [if_neg (and_pow_ne (k := 24) (by omega) (by omega))]
  have e1 : (24 - (n + 1) * 6) / 8 = 2 - n := by omega
  rw [e1, if_neg (by omega)]
  cases b64DecodeLoop 1 0 cs <;> rfl

theorem ofNat_mod (x : UInt8) (n : Nat) (h : n % 256 = x.toNat) : UInt8.ofNat n = x := by
  apply UInt8.toNat_inj.mp
  simp [UInt8.toNat_ofNat', h]

theorem readBytes_eq {w : Nat} (xs : Bytes) : ∀ (reg k : Nat), reg < 2 ^ k →
    k + 8 * xs.length ≤ w →
    readBytes w reg xs = xs.foldl (fun a x => a * 256 + x.toNat) reg := by
  induction xs with
  | nil => intros; rfl
  | cons x xs ih =>
    intro reg k h1 h2
    have hx : x.toNat < 2 ^ 8 := x.toNat_lt
    simp only [List.length_cons] at h2
    have h3 : reg * 2 ^ 8 + x.toNat < 2 ^ (k + 8) := by rw [Nat.pow_add]; omega
    have h4 : 2 ^ (k + 8) ≤ 2 ^ w := Nat.pow_le_pow_right (by omega) (by omega)
    have h5 : reg * 2 ^ 8 < 2 ^ w := Nat.lt_of_le_of_lt (Nat.le_add_right _ _) (Nat.lt_of_lt_of_le h3 h4)
    rw [readBytes, byte_and, shl_eq, Nat.mod_eq_of_lt h5, or_eq_add hx,
      ih _ (k + 8) h3 (by omega)]
    rfl

theorem b64_group3 (x0 x1 x2 : UInt8) (rest : Bytes) :
    ∃ e, b64Emit 4 (shl 32 (readBytes 32 0 [x0, x1, x2]) 8) = .ok e ∧ e.length = 4 ∧
      Nat.repeat (fun r => shl 32 r 6) 4 (shl 32 (readBytes 32 0 [x0, x1, x2]) 8) = 0 ∧
      b64DecodeLoop 1 0 (e ++ rest) = (b64DecodeLoop 1 0 rest).map ([x0, x1, x2] ++ ·) := by
  have h0 : x0.toNat < 256 := x0.toNat_lt
  have h1 : x1.toNat < 256 := x1.toNat_lt
  have h2 : x2.toNat < 256 := x2.toNat_lt
  rw [readBytes_eq _ 0 0 (by decide) (by simp)]
  simp only [List.foldl]
  generalize hv : ((0 * 256 + x0.toNat) * 256 + x1.toNat) * 256 + x2.toNat = v
  have hvl : v < 2 ^ 24 := by omega
  obtain ⟨c0, a1, a2, a3, a4⟩ := b64Emit_succ (n := 3) (reg := shl 32 v 8) (by rw [shl_eq]; omega)
  obtain ⟨c1, b1, b2, b3, b4⟩ := b64Emit_succ (n := 2)
    (reg := shl 32 v 8 * 2 ^ 6 % 2 ^ 32) (by omega)
  obtain ⟨c2, d1, d2, d3, d4⟩ := b64Emit_succ (n := 1)
    (reg := shl 32 v 8 * 2 ^ 6 % 2 ^ 32 * 2 ^ 6 % 2 ^ 32) (by omega)
  obtain ⟨c3, e1, e2, e3, e4⟩ := b64Emit_succ (n := 0)
    (reg := shl 32 v 8 * 2 ^ 6 % 2 ^ 32 * 2 ^ 6 % 2 ^ 32 * 2 ^ 6 % 2 ^ 32) (by omega)
  refine ⟨[c0, c1, c2, c3], ?_, rfl, ?_, ?_⟩
  · rw [a1, b1, d1, e1]; simp [b64Emit]
  · simp only [Nat.repeat, shl_eq]; omega
  · simp only [shl_eq] at a4 b4 d4 e4
    simp only [List.cons_append, List.nil_append]
    rw [b64Decode_digit _ (by omega) a2 a3 a4 (by omega),
      b64Decode_digit _ (by omega) b2 b3 b4 (by omega),
      b64Decode_digit _ (by omega) d2 d3 d4 (by omega),
      b64Decode_last _ (by omega) (by omega) e2 e3 e4 (by omega)]
    congr 1
    funext t
    simp only [emitBytes, shl_eq, Nat.shiftRight_eq_div_pow]
    rw [ofNat_mod x0 _ (by omega), ofNat_mod x1 _ (by omega), ofNat_mod x2 _ (by omega)]
    rfl

theorem b64_group2 (x0 x1 : UInt8) :
    ∃ e, b64Emit 3 (shl 32 (readBytes 32 0 [x0, x1]) 16) = .ok e ∧ e.length = 3 ∧
      b64DecodeLoop 1 0 (e ++ [61]) = .ok [x0, x1] := by
  have h0 : x0.toNat < 256 := x0.toNat_lt
  have h1 : x1.toNat < 256 := x1.toNat_lt
  rw [readBytes_eq _ 0 0 (by decide) (by simp)]
  simp only [List.foldl]
  generalize hv : (0 * 256 + x0.toNat) * 256 + x1.toNat = v
  have hvl : v < 2 ^ 16 := by omega
  obtain ⟨c0, a1, a2, a3, a4⟩ := b64Emit_succ (n := 2) (reg := shl 32 v 16) (by rw [shl_eq]; omega)
  obtain ⟨c1, b1, b2, b3, b4⟩ := b64Emit_succ (n := 1)
    (reg := shl 32 v 16 * 2 ^ 6 % 2 ^ 32) (by omega)
  obtain ⟨c2, d1, d2, d3, d4⟩ := b64Emit_succ (n := 0)
    (reg := shl 32 v 16 * 2 ^ 6 % 2 ^ 32 * 2 ^ 6 % 2 ^ 32) (by omega)
  refine ⟨[c0, c1, c2], ?_, rfl, ?_⟩
  · rw [a1, b1, d1]; simp [b64Emit]
  · simp only [shl_eq] at a4 b4 d4
    simp only [List.cons_append, List.nil_append]
    rw [b64Decode_digit _ (by omega) a2 a3 a4 (by omega),
      b64Decode_digit _ (by omega) b2 b3 b4 (by omega),
      b64Decode_digit _ (by omega) d2 d3 d4 (by omega),
      b64Decode_padlast _ (by omega) (by omega) (by omega)]
    simp only [b64DecodeLoop, emitBytes, shl_eq, Nat.shiftRight_eq_div_pow, Nat.sub_zero]
    rw [ofNat_mod x0 _ (by omega), ofNat_mod x1 _ (by omega)]
    rfl

theorem b64_group1 (x0 : UInt8) :
    ∃ e, b64Emit 2 (shl 32 (readBytes 32 0 [x0]) 24) = .ok e ∧ e.length = 2 ∧
      b64DecodeLoop 1 0 (e ++ [61, 61]) = .ok [x0] := by
  have h0 : x0.toNat < 256 := x0.toNat_lt
  rw [readBytes_eq _ 0 0 (by decide) (by simp)]
  simp only [List.foldl]
  generalize hv : (0 * 256 + x0.toNat) = v
  have hvl : v < 2 ^ 8 := by omega
  obtain ⟨c0, a1, a2, a3, a4⟩ := b64Emit_succ (n := 1) (reg := shl 32 v 24) (by rw [shl_eq]; omega)
  obtain ⟨c1, b1, b2, b3, b4⟩ := b64Emit_succ (n := 0)
    (reg := shl 32 v 24 * 2 ^ 6 % 2 ^ 32) (by omega)
  refine ⟨[c0, c1], ?_, rfl, ?_⟩
  · rw [a1, b1]; simp [b64Emit]
  · simp only [shl_eq] at a4 b4
    simp only [List.cons_append, List.nil_append]
    rw [b64Decode_digit _ (by omega) a2 a3 a4 (by omega),
      b64Decode_digit _ (by omega) b2 b3 b4 (by omega),
      b64Decode_pad1 _ (by omega) (by omega),
      b64Decode_padlast _ (by omega) (by omega) (by omega)]
    simp only [b64DecodeLoop, emitBytes, shl_eq, Nat.shiftRight_eq_div_pow, Nat.reduceSub,
      Nat.zero_add]
    rw [ofNat_mod x0 _ (by omega)]
    rfl

theorem b64Encode_ok : ∀ s : Bytes, ∃ t, b64EncodeLoop 0 s = .ok t ∧
    t.length = 4 * ((s.length + 2) / 3) ∧ b64DecodeLoop 1 0 t = .ok s
  | [] => ⟨[], rfl, rfl, rfl⟩
  | [x0] => by
    obtain ⟨e, h1, h2, h3⟩ := b64_group1 x0
    refine ⟨e ++ [61, 61], ?_, by simp [h2], h3⟩
    rw [b64EncodeLoop]
    · simp [h1, need, b64_pad]
    · simp
    · simp
  | [x0, x1] => by
    obtain ⟨e, h1, h2, h3⟩ := b64_group2 x0 x1
    refine ⟨e ++ [61], ?_, by simp [h2], h3⟩
    rw [b64EncodeLoop]
    · simp [h1, need, b64_pad]
    · simp
    · simp
  | x0 :: x1 :: x2 :: s => by
    obtain ⟨t, h1, h2, h3⟩ := b64Encode_ok s
    obtain ⟨e, g1, g2, g3, g4⟩ := b64_group3 x0 x1 x2 t
    refine ⟨e ++ t, ?_, ?_, ?_⟩
    · rw [b64EncodeLoop]; simp only [g1, g3, h1, Res.bind_eq, Res.bind, Res.pure_eq]
    · simp only [List.length_append, List.length_cons, g2, h2]; omega
    · rw [g4, h3]; rfl

/-! ## base32 -/

theorem b32_table : ∀ d : Fin 32, ∃ c, tableAt base32Table (2 * d.val) = some c ∧
    xstrchr spaces c = none ∧ ¬ some c = tableAt base32Table 64 ∧
    (xstrchr base32Table c).map (· / 2) = some d.val := by
  decide

theorem b32_pad : tableAt base32Table 64 = some 61 := by decide

theorem b32Emit_succ {n reg : Nat} (h : reg < 2 ^ 64) :
    ∃ c, b32Emit (n + 1) reg = (b32Emit n (reg * 2 ^ 5 % 2 ^ 64)).map (c :: ·) ∧
      xstrchr spaces c = none ∧ (¬ some c = tableAt base32Table 64) ∧
      ∃ p, xstrchr base32Table c = some p ∧ p / 2 = reg / 2 ^ 59 := by
  have hd : reg / 2 ^ 59 < 32 := by omega
  obtain ⟨c, h1, h2, h4, h3⟩ := b32_table ⟨_, hd⟩
  refine ⟨c, ?_, h2, h4, by simpa using h3⟩
  have e : (reg >>> 58) &&& 0xFE = 2 * (reg / 2 ^ 59) := by
    have hx : reg >>> 58 < 128 := by rw [Nat.shiftRight_eq_div_pow]; omega
    have := and_fe ⟨reg >>> 58, hx⟩
    simp only at this
    rw [this, Nat.shiftRight_eq_div_pow]; omega
  rw [b32Emit, e, h1, shl_eq]
  simp only [need, Res.bind_eq, Res.pure_eq, Res.bind]
  cases b32Emit n (reg * 2 ^ 5 % 2 ^ 64) <;> rfl

theorem b32Decode_digit {reg p : Nat} {c : UInt8} (cs : Bytes) (hr : reg < 2 ^ 35)
    (h2 : xstrchr spaces c = none) (h4 : ¬ some c = tableAt base32Table 64)
    (h3 : xstrchr base32Table c = some p) (hp : p / 2 < 32) :
    b32DecodeLoop reg 0 (c :: cs) = b32DecodeLoop (reg * 32 + p / 2) 0 cs := by
  have e : shl 64 reg 5 ||| p / 2 = reg * 32 + p / 2 := by
    rw [shl_eq, Nat.mod_eq_of_lt (by omega), or_eq_add (by omega)]
  rw [b32DecodeLoop]
  simp only [h2, h3, h4, e, Option.isSome_none, Bool.false_eq_true, if_false]
  simp only [ne_eq, not_true_eq_false, if_false]
  rw [if_pos (and_pow_of_lt (k := 40) (by omega))]

theorem b32Decode_last {reg p : Nat} {c : UInt8} (cs : Bytes) (hr : reg < 2 ^ 36)
    (hr' : 2 ^ 35 ≤ reg)
    (h2 : xstrchr spaces c = none) (h4 : ¬ some c = tableAt base32Table 64)
    (h3 : xstrchr base32Table c = some p) (hp : p / 2 < 32) :
    b32DecodeLoop reg 0 (c :: cs) =
      (b32DecodeLoop 1 0 cs).map (emitBytes 64 40 5 (reg * 32 + p / 2) ++ ·) := by
  have e : shl 64 reg 5 ||| p / 2 = reg * 32 + p / 2 := by
    rw [shl_eq, Nat.mod_eq_of_lt (by omega), or_eq_add (by omega)]
  rw [b32DecodeLoop]
  simp only [h2, h3, h4, e, Option.isSome_none, Bool.false_eq_true, if_false]
  simp only [ne_eq, not_true_eq_false, if_false]
  rw [if_neg (and_pow_ne (k := 40) (by omega) (by omega))]
  simp only [Nat.zero_mul, Nat.sub_zero, Nat.reduceDiv, Res.bind_eq, Res.pure_eq]
  cases b32DecodeLoop 1 0 cs <;> rfl

theorem b32Decode_pad1 {reg n : Nat} (cs : Bytes) (hr : reg < 2 ^ 35) (hr' : 2 ^ 5 ≤ reg) :
    b32DecodeLoop reg n (61 :: cs) = b32DecodeLoop (reg * 32) (n + 1) cs := by
  have e : shl 64 reg 5 = reg * 32 := by
    rw [shl_eq, Nat.mod_eq_of_lt (by omega)]
  rw [b32DecodeLoop, if_neg (by decide)]
  simp only [e, b32_pad, if_true]
  rw [if_neg (by omega)]
  simp only
  rw [if_pos (and_pow_of_lt (k := 40) (by omega))]

theorem b32Decode_padlast {reg n m : Nat} (cs : Bytes) (hr : reg < 2 ^ 36) (hr' : 2 ^ 35 ≤ reg)
    (hm : (40 - (n + 1) * 5) / 8 = m) (hn : (m * 8 + 4) / 5 + (n + 1) = 8) :
    b32DecodeLoop reg n (61 :: cs) =
      (b32DecodeLoop 1 0 cs).map (emitBytes 64 40 m (reg * 32) ++ ·) := by
  have e : shl 64 reg 5 = reg * 32 := by
    rw [shl_eq, Nat.mod_eq_of_lt (by omega)]
  rw [b32DecodeLoop, if_neg (by decide)]
  simp only [e, b32_pad, if_true]
  rw [if_neg (by omega)]
  simp only
  rw [if_neg (and_pow_ne (k := 40) (by omega) (by omega)), hm, if_neg (by omega)]
  cases b32DecodeLoop 1 0 cs <;> rfl


theorem b32_digit_arith (reg n : Nat) (_h : reg < 2 ^ 64) (hn : n < 8) :
    (reg / 2 ^ 59) * 32 ^ n + (reg * 2 ^ 5 % 2 ^ 64) / 2 ^ (64 - 5 * n) =
      reg / 2 ^ (64 - 5 * (n + 1)) := by
  have : n = 0 ∨ n = 1 ∨ n = 2 ∨ n = 3 ∨ n = 4 ∨ n = 5 ∨ n = 6 ∨ n = 7 := by omega
  rcases this with rfl | rfl | rfl | rfl | rfl | rfl | rfl | rfl <;> simp only [Nat.reduceMul,
    Nat.reduceSub, Nat.reduceAdd, Nat.reducePow] <;> omega

theorem b32_emit_decode : ∀ (n reg A : Nat), n ≤ 8 → reg < 2 ^ 64 → (A + 1) * 32 ^ n ≤ 2 ^ 40 →
    ∃ e, b32Emit n reg = .ok e ∧ e.length = n ∧ ∀ rest, b32DecodeLoop A 0 (e ++ rest) =
      b32DecodeLoop (A * 32 ^ n + reg / 2 ^ (64 - 5 * n)) 0 rest := by
  intro n
  induction n with
  | zero =>
    intro reg A _ h _
    refine ⟨[], rfl, rfl, fun rest => ?_⟩
    have : reg / 2 ^ (64 - 5 * 0) = 0 := Nat.div_eq_of_lt (by simpa using h)
    rw [this]; simp
  | succ n ih =>
    intro reg A hn h hA
    obtain ⟨c, a1, a2, a3, p, a4, a5⟩ := b32Emit_succ (n := n) h
    have hp : p / 2 < 32 := by omega
    have hpow : 1 ≤ 32 ^ n := Nat.one_le_pow _ _ (by omega)
    have hA' : (A * 32 + p / 2 + 1) * 32 ^ n ≤ 2 ^ 40 := by
      refine Nat.le_trans ?_ hA
      rw [Nat.pow_succ, Nat.mul_comm (32 ^ n), ← Nat.mul_assoc]
      exact Nat.mul_le_mul_right _ (by omega)
    have hA2 : A < 2 ^ 35 := by
      have : (A + 1) * 32 ≤ 2 ^ 40 := by
        refine Nat.le_trans ?_ hA
        rw [Nat.pow_succ, Nat.mul_comm (32 ^ n), ← Nat.mul_assoc]
        exact Nat.le_mul_of_pos_right _ hpow
      omega
    obtain ⟨e, e1, e2, e3⟩ := ih (reg * 2 ^ 5 % 2 ^ 64) (A * 32 + p / 2) (by omega) (by omega) hA'
    refine ⟨c :: e, by rw [a1, e1]; rfl, by simp [e2], fun rest => ?_⟩
    rw [List.cons_append, b32Decode_digit _ hA2 a2 a3 a4 hp, e3, a5, ← b32_digit_arith reg n h (by omega),
      Nat.add_mul, Nat.pow_succ' (m := 32), Nat.mul_assoc, Nat.add_assoc]

theorem b32_regs (k reg : Nat) (h : reg < 2 ^ 64) :
    Nat.repeat (fun r => shl 64 r 5) k reg = reg * 32 ^ k % 2 ^ 64 := by
  induction k with
  | zero => rw [Nat.repeat, Nat.pow_zero, Nat.mul_one, Nat.mod_eq_of_lt h]
  | succ k ih =>
    rw [Nat.repeat, ih, shl_eq, Nat.pow_succ (m := k), ← Nat.mul_assoc, Nat.mod_mul_mod]

theorem b32Emit_add (m : Nat) (e2 : Bytes) : ∀ (n reg : Nat) (e1 : Bytes), reg < 2 ^ 64 →
    b32Emit n reg = .ok e1 →
    b32Emit m (reg * 32 ^ n % 2 ^ 64) = .ok e2 → b32Emit (n + m) reg = .ok (e1 ++ e2) := by
  intro n
  induction n with
  | zero =>
    intro reg e1 h h1 h2
    rw [Nat.pow_zero, Nat.mul_one, Nat.mod_eq_of_lt h] at h2
    simp only [b32Emit, Res.ok.injEq] at h1
    subst h1; simpa using h2
  | succ n ih =>
    intro reg e1 h h1 h2
    have hn : n + 1 + m = (n + m) + 1 := by omega
    have h3 : reg * 32 ^ (n + 1) % 2 ^ 64 = (shl 64 reg 5) * 32 ^ n % 2 ^ 64 := by
      rw [shl_eq, Nat.pow_succ' (m := 32), ← Nat.mul_assoc, Nat.mod_mul_mod]
    rw [h3] at h2
    rw [b32Emit] at h1
    rw [hn, b32Emit]
    simp only [Res.bind_eq, Res.pure_eq] at h1 ⊢
    cases hc : need (tableAt base32Table (reg >>> 58 &&& 254)) with
    | throw => simp [hc] at h1
    | ub => simp [hc] at h1
    | ok c =>
      cases he : b32Emit n (shl 64 reg 5) with
      | throw => simp [hc, he] at h1
      | ub => simp [hc, he] at h1
      | ok e =>
        simp only [hc, he, Res.bind, Res.ok.injEq] at h1
        subst h1
        have := ih (shl 64 reg 5) e (by rw [shl_eq]; exact Nat.mod_lt _ (by decide)) he h2
        simp [this]

theorem b32_group5 (x0 x1 x2 x3 x4 : UInt8) :
    ∃ e, b32Emit 8 (shl 64 (readBytes 64 0 [x0, x1, x2, x3, x4]) 24) = .ok e ∧ e.length = 8 ∧
      Nat.repeat (fun r => shl 64 r 5) 8 (shl 64 (readBytes 64 0 [x0, x1, x2, x3, x4]) 24) = 0 ∧
      ∀ rest, b32DecodeLoop 1 0 (e ++ rest) =
        (b32DecodeLoop 1 0 rest).map ([x0, x1, x2, x3, x4] ++ ·) := by
  have h0 : x0.toNat < 256 := x0.toNat_lt
  have h1 : x1.toNat < 256 := x1.toNat_lt
  have h2 : x2.toNat < 256 := x2.toNat_lt
  have h3 : x3.toNat < 256 := x3.toNat_lt
  have h4 : x4.toNat < 256 := x4.toNat_lt
  rw [readBytes_eq _ 0 0 (by decide) (by simp)]
  simp only [List.foldl]
  generalize hv : ((((0 * 256 + x0.toNat) * 256 + x1.toNat) * 256 + x2.toNat) * 256 + x3.toNat)
    * 256 + x4.toNat = v
  have hvl : v < 2 ^ 40 := by omega
  have hs : shl 64 v 24 = v * 2 ^ 24 := by rw [shl_eq, Nat.mod_eq_of_lt (by omega)]
  rw [hs]
  obtain ⟨e, e1, e2, e3⟩ := b32_emit_decode 7 (v * 2 ^ 24) 1 (by omega) (by omega) (by omega)
  obtain ⟨c, c1, c2, c3, p, c4, c5⟩ := b32Emit_succ (n := 0)
    (reg := v * 2 ^ 24 * 32 ^ 7 % 2 ^ 64) (by omega)
  have c6 := b32Emit_add 1 [c] 7 (v * 2 ^ 24) e (by omega) e1 (by rw [c1]; rfl)
  refine ⟨e ++ [c], c6, by simp [e2], ?_, fun rest => ?_⟩
  · rw [b32_regs _ _ (by omega)]; omega
  · have hA : 1 * 32 ^ 7 + v * 2 ^ 24 / 2 ^ (64 - 5 * 7) = 2 ^ 35 + v / 32 := by
      simp only [Nat.reduceMul, Nat.reduceSub, Nat.reducePow]; omega
    have hp : p / 2 = v % 32 := by omega
    rw [hA] at e3
    rw [List.append_assoc, e3, List.cons_append, List.nil_append,
      b32Decode_last _ (by omega) (by omega) c2 c3 c4 (by omega), hp]
    have hw : (2 ^ 35 + v / 32) * 32 + v % 32 = 2 ^ 40 + v := by omega
    have hb : emitBytes 64 40 5 (2 ^ 40 + v) = [x0, x1, x2, x3, x4] := by
      clear c5 c6 hw hp c4 e3 hA c1
      simp only [emitBytes, shl_eq, Nat.shiftRight_eq_div_pow]
      rw [ofNat_mod x0 _ (by omega), ofNat_mod x1 _ (by omega), ofNat_mod x2 _ (by omega),
        ofNat_mod x3 _ (by omega), ofNat_mod x4 _ (by omega)]
    rw [hw, hb]

/-- A trailing group of `m` bytes: `v` is the number the bytes form. -/
theorem b32_tail (m p n : Nat) (v : Nat) (hv : v < 2 ^ (8 * m))
    (h : (m = 1 ∧ p = 2 ∧ n = 5) ∨ (m = 2 ∧ p = 4 ∧ n = 3) ∨ (m = 3 ∧ p = 5 ∧ n = 2) ∨
      (m = 4 ∧ p = 7 ∧ n = 0)) :
    ∃ e, b32Emit p (shl 64 v (64 - m * 8)) = .ok e ∧ e.length = p ∧
      b32DecodeLoop 1 0 (e ++ List.replicate (n + 1) 61) =
        .ok (emitBytes 64 40 m ((2 ^ (8 * m) + v) * 2 ^ (40 - 8 * m))) := by
  have hs : shl 64 v (64 - m * 8) = v * 2 ^ (64 - m * 8) ∧ v * 2 ^ (64 - m * 8) < 2 ^ 64 ∧
      p ≤ 8 ∧ (1 + 1) * 32 ^ p ≤ 2 ^ 40 := by
    rw [shl_eq]
    rcases h with ⟨rfl, rfl, rfl⟩ | ⟨rfl, rfl, rfl⟩ | ⟨rfl, rfl, rfl⟩ | ⟨rfl, rfl, rfl⟩ <;>
    · simp only [Nat.reduceMul, Nat.reduceSub, Nat.reducePow, Nat.reduceAdd] at *
      omega
  obtain ⟨hs1, hs2, hs3, hs4⟩ := hs
  rw [hs1]
  obtain ⟨e, e1, e2, e3⟩ := b32_emit_decode p (v * 2 ^ (64 - m * 8)) 1 hs3 hs2 hs4
  refine ⟨e, e1, e2, ?_⟩
  rw [e3]
  clear e1 e2 e3 hs1 hs2 hs3 hs4
  have key : ∀ k, k < n + 1 → ∀ A : Nat, (A + 1) * 32 ^ k ≤ 2 ^ 40 → 2 ^ 5 ≤ A →
      ∀ rest (j : Nat), b32DecodeLoop A j (List.replicate k 61 ++ rest) =
        b32DecodeLoop (A * 32 ^ k) (j + k) rest := by
    intro k
    induction k with
    | zero => intros; simp
    | succ k ih =>
      intro hk A hA hA2 rest j
      have h1 : (A * 32 + 1) * 32 ^ k ≤ 2 ^ 40 := by
        refine Nat.le_trans ?_ hA
        rw [Nat.pow_succ' (m := 32), ← Nat.mul_assoc]
        exact Nat.mul_le_mul_right _ (by omega)
      have h2 : (A + 1) * 32 ≤ 2 ^ 40 := by
        refine Nat.le_trans ?_ hA
        rw [Nat.pow_succ' (m := 32), ← Nat.mul_assoc]
        exact Nat.le_mul_of_pos_right _ (Nat.one_le_pow _ _ (by omega))
      rw [List.replicate_succ, List.cons_append, b32Decode_pad1 _ (by omega) hA2,
        ih (by omega) _ h1 (by omega), Nat.pow_succ' (m := 32), Nat.mul_assoc]
      congr 1; omega
  have hpad : List.replicate (n + 1) (61 : UInt8) = List.replicate n 61 ++ [61] := by
    rw [List.replicate_succ']
  rw [hpad]
  rcases h with ⟨rfl, rfl, rfl⟩ | ⟨rfl, rfl, rfl⟩ | ⟨rfl, rfl, rfl⟩ | ⟨rfl, rfl, rfl⟩ <;>
  · simp only [Nat.reduceMul, Nat.reduceSub, Nat.reducePow] at *
    rw [key _ (by omega) _ (by omega) (by omega),
      b32Decode_padlast (m := _) _ (by omega) (by omega) rfl (by decide)]
    simp only [b32DecodeLoop, ne_eq, not_true_eq_false, if_false, Res.map, List.append_nil]
    congr 2
    omega

theorem b32Encode_ok : ∀ s : Bytes, ∃ t, b32EncodeLoop 0 s = .ok t ∧
    t.length = 8 * ((s.length + 4) / 5) ∧ b32DecodeLoop 1 0 t = .ok s
  | [] => ⟨[], rfl, rfl, rfl⟩
  | [x0] => by
    have h0 : x0.toNat < 256 := x0.toNat_lt
    obtain ⟨e, h1, h2, h3⟩ := b32_tail 1 2 5 (readBytes 64 0 [x0])
      (by rw [readBytes_eq _ 0 0 (by decide) (by simp)]; simp only [List.foldl]; omega) (by simp)
    refine ⟨e ++ List.replicate 6 61, ?_, by simp [h2], ?_⟩
    · rw [b32EncodeLoop]
      · simp only [List.length, Nat.zero_add, Nat.reduceAdd, Nat.reduceMul, Nat.reduceDiv] at h1 ⊢
        rw [h1]; simp [need, b32_pad]
      · simp
      · simp
    · rw [h3, readBytes_eq _ 0 0 (by decide) (by simp)]
      simp only [List.foldl, emitBytes, shl_eq, Nat.shiftRight_eq_div_pow]
      rw [ofNat_mod x0 _ (by omega)]
  | [x0, x1] => by
    have h0 : x0.toNat < 256 := x0.toNat_lt
    have h0 : x1.toNat < 256 := x1.toNat_lt
    obtain ⟨e, h1, h2, h3⟩ := b32_tail 2 4 3 (readBytes 64 0 [x0, x1])
      (by rw [readBytes_eq _ 0 0 (by decide) (by simp)]; simp only [List.foldl]; omega) (by simp)
    refine ⟨e ++ List.replicate 4 61, ?_, by simp [h2], ?_⟩
    · rw [b32EncodeLoop]
      · simp only [List.length, Nat.zero_add, Nat.reduceAdd, Nat.reduceMul, Nat.reduceDiv] at h1 ⊢
        rw [h1]; simp [need, b32_pad]
      · simp
      · simp
    · rw [h3, readBytes_eq _ 0 0 (by decide) (by simp)]
      simp only [List.foldl, emitBytes, shl_eq, Nat.shiftRight_eq_div_pow]
      rw [ofNat_mod x0 _ (by omega), ofNat_mod x1 _ (by omega)]
  | [x0, x1, x2] => by
    have h0 : x0.toNat < 256 := x0.toNat_lt
    have h0 : x1.toNat < 256 := x1.toNat_lt
    have h0 : x2.toNat < 256 := x2.toNat_lt
    obtain ⟨e, h1, h2, h3⟩ := b32_tail 3 5 2 (readBytes 64 0 [x0, x1, x2])
      (by rw [readBytes_eq _ 0 0 (by decide) (by simp)]; simp only [List.foldl]; omega) (by simp)
    refine ⟨e ++ List.replicate 3 61, ?_, by simp [h2], ?_⟩
    · rw [b32EncodeLoop]
      · simp only [List.length, Nat.zero_add, Nat.reduceAdd, Nat.reduceMul, Nat.reduceDiv] at h1 ⊢
        rw [h1]; simp [need, b32_pad]
      · simp
      · simp
    · rw [h3, readBytes_eq _ 0 0 (by decide) (by simp)]
      simp only [List.foldl, emitBytes, shl_eq, Nat.shiftRight_eq_div_pow]
      rw [ofNat_mod x0 _ (by omega), ofNat_mod x1 _ (by omega), ofNat_mod x2 _ (by omega)]
  | [x0, x1, x2, x3] => by
    have h0 : x0.toNat < 256 := x0.toNat_lt
    have h0 : x1.toNat < 256 := x1.toNat_lt
    have h0 : x2.toNat < 256 := x2.toNat_lt
    have h0 : x3.toNat < 256 := x3.toNat_lt
    obtain ⟨e, h1, h2, h3⟩ := b32_tail 4 7 0 (readBytes 64 0 [x0, x1, x2, x3])
      (by rw [readBytes_eq _ 0 0 (by decide) (by simp)]; simp only [List.foldl]; omega) (by simp)
    refine ⟨e ++ List.replicate 1 61, ?_, by simp [h2], ?_⟩
    · rw [b32EncodeLoop]
      · simp only [List.length, Nat.zero_add, Nat.reduceAdd, Nat.reduceMul, Nat.reduceDiv] at h1 ⊢
        rw [h1]; simp [need, b32_pad]
      · simp
      · simp
    · rw [h3, readBytes_eq _ 0 0 (by decide) (by simp)]
      simp only [List.foldl, emitBytes, shl_eq, Nat.shiftRight_eq_div_pow]
      rw [ofNat_mod x0 _ (by omega), ofNat_mod x1 _ (by omega), ofNat_mod x2 _ (by omega),
        ofNat_mod x3 _ (by omega)]
  | x0 :: x1 :: x2 :: x3 :: x4 :: s => by
    obtain ⟨t, h1, h2, h3⟩ := b32Encode_ok s
    obtain ⟨e, g1, g2, g3, g4⟩ := b32_group5 x0 x1 x2 x3 x4
    refine ⟨e ++ t, ?_, ?_, ?_⟩
    · rw [b32EncodeLoop]; simp only [g1, g3, h1, Res.bind_eq, Res.bind, Res.pure_eq]
    · simp only [List.length_append, List.length_cons, g2, h2]; omega
    · rw [g4, h3]; rfl

end Asteria.Codec
