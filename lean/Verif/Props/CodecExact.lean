import Verif.Props.Codec

/-!
# Property C80: the text that the encoders write

The specifications are those of RFC 4648 and RFC 3986: groups of bytes are read as big-endian numbers, and digits are taken
from the most significant one on.
-/

namespace Asteria.Codec

namespace Spec

/-- The number that the bytes form, most significant byte first. -/
def be (d : Bytes) : Nat := d.foldl (fun a x => 256 * a + x.toNat) 0

/-- Upper-case hexadecimal digit. -/
def hexDigit (n : Nat) : UInt8 := UInt8.ofNat (if n < 10 then 48 + n else 55 + n)

/-- RFC 4648, table 3: `A`–`Z`, `2`–`7`. -/
def digit32 (n : Nat) : UInt8 := UInt8.ofNat (if n < 26 then 65 + n else 24 + n)

/-- RFC 4648, table 1: `A`–`Z`, `a`–`z`, `0`–`9`, `+`, `/`. -/
def digit64 (n : Nat) : UInt8 :=
  UInt8.ofNat (if n < 26 then 65 + n else if n < 52 then 71 + n else if n < 62 then n - 4 else if n = 62 then 43 else 47)

/-- The first `p` of the eight base32 digits of a 40-bit number. -/
def digits32 (v p : Nat) : Bytes := (List.range p).map fun i => digit32 (v / 32 ^ (7 - i) % 32)

/-- The first `p` of the four base64 digits of a 24-bit number. -/
def digits64 (v p : Nat) : Bytes := (List.range p).map fun i => digit64 (v / 64 ^ (3 - i) % 64)

/-- RFC 4648, section 6. -/
def base32 : Bytes → Bytes
  | a :: b :: c :: d :: e :: s => digits32 (be [a, b, c, d, e]) 8 ++ base32 s
  | [a, b, c, d] => digits32 (be [a, b, c, d, 0]) 7 ++ [61]
  | [a, b, c] => digits32 (be [a, b, c, 0, 0]) 5 ++ [61, 61, 61]
  | [a, b] => digits32 (be [a, b, 0, 0, 0]) 4 ++ [61, 61, 61, 61]
  | [a] => digits32 (be [a, 0, 0, 0, 0]) 2 ++ [61, 61, 61, 61, 61, 61]
  | [] => []

/-- RFC 4648, section 4. -/
def base64 : Bytes → Bytes
  | a :: b :: c :: s => digits64 (be [a, b, c]) 4 ++ base64 s
  | [a, b] => digits64 (be [a, b, 0]) 3 ++ [61]
  | [a] => digits64 (be [a, 0, 0]) 2 ++ [61, 61]
  | [] => []

/-- Two digits for each byte. -/
def hexByte (c : UInt8) : Bytes := [hexDigit (c.toNat / 16), hexDigit (c.toNat % 16)]

/-- RFC 3986, section 2. -/
def urlByte (c : UInt8) : Bytes := if Unreserved c then [c] else 37 :: hexByte c

/-- Alike for queries, where a blank is `+`, and `~` is not left alone. -/
def urlQueryByte (c : UInt8) : Bytes :=
  if c = 32 then [43] else if Unreserved c ∧ c ≠ 126 then [c] else 37 :: hexByte c

end Spec

open Spec

/-! ## Lemmas -/

theorem range_map_succ {α : Type} (f : Nat → α) (n : Nat) :
    (List.range (n + 1)).map f = f 0 :: (List.range n).map (fun i => f (i + 1)) := by
  rw [List.range_succ_eq_map, List.map_cons, List.map_map]; rfl

theorem b16_digit : ∀ d : Fin 16, tableAt base16Table (2 * d.val) = some (hexDigit d.val) := by decide
theorem b32_digit : ∀ d : Fin 32, tableAt base32Table (2 * d.val) = some (digit32 d.val) := by decide
theorem b64_digit : ∀ d : Fin 64, tableAt base64Table d.val = some (digit64 d.val) := by decide

theorem shift_digit {k w i : Nat} (reg : Nat) (h : k * (i + 2) ≤ w) :
    reg * 2 ^ k % 2 ^ w / 2 ^ (w - k - k * i) % 2 ^ k = reg / 2 ^ (w - k - k * (i + 1)) % 2 ^ k := by
  have e1 : w - k - k * i = (w - k - k * (i + 1)) + k := by
    rw [Nat.mul_add, Nat.mul_one]
    rw [Nat.mul_add] at h
    omega
  have e2 : w = k * (i + 1) + (w - k * (i + 1)) := by rw [Nat.mul_add] at h ⊢; omega
  have h3 : w = (w - k - k * i) + k * (i + 1) := by rw [Nat.mul_add] at h ⊢; omega
  have h4 : 2 ^ w = 2 ^ (w - k - k * i) * 2 ^ (k * (i + 1)) := by rw [← Nat.pow_add, ← h3]
  rw [h4, Nat.mod_mul_right_div_self, Nat.mod_mod_of_dvd]
  · rw [e1, Nat.pow_add, ← Nat.div_div_eq_div_mul, Nat.mul_comm, ]
    rw [Nat.div_div_eq_div_mul, Nat.mul_comm (2 ^ _) (2 ^ k), Nat.mul_div_mul_left _ _ (Nat.pos_of_ne_zero (by simp))]
  · exact Nat.pow_dvd_pow 2 (by rw [Nat.mul_add]; omega)

theorem hexEmit_eq : ∀ (n reg : Nat), n ≤ 8 → reg < 2 ^ 32 →
    hexEmit n reg = .ok ((List.range n).map fun i => hexDigit (reg / 2 ^ (32 - 4 - 4 * i) % 2 ^ 4))
  | 0, _, _, _ => rfl
  | n + 1, reg, hn, hr => by
    have hd : reg / 2 ^ 28 < 16 := by omega
    have e : (reg >>> 27) &&& 0xFE = 2 * (reg / 2 ^ 28) := by
      have hx : reg >>> 27 < 128 := by rw [Nat.shiftRight_eq_div_pow]; omega
      have := and_fe ⟨reg >>> 27, hx⟩
      simp only at this
      rw [this, Nat.shiftRight_eq_div_pow]; omega
    rw [hexEmit, e, b16_digit ⟨_, hd⟩, shl_eq, hexEmit_eq n _ (by omega) (Nat.mod_lt _ (by decide)), range_map_succ]
    simp only [need, Res.bind_eq, Res.pure_eq, Res.bind, Res.ok.injEq, List.cons.injEq]
    refine ⟨by congr 1; omega, ?_⟩
    apply List.map_congr_left
    intro i hi
    rw [List.mem_range] at hi
    rw [shift_digit reg (by omega)]

theorem b32Emit_eq : ∀ (n reg : Nat), n ≤ 8 → reg < 2 ^ 64 →
    b32Emit n reg = .ok ((List.range n).map fun i => digit32 (reg / 2 ^ (64 - 5 - 5 * i) % 2 ^ 5))
  | 0, _, _, _ => rfl
  | n + 1, reg, hn, hr => by
    have hd : reg / 2 ^ 59 < 32 := by omega
    have e : (reg >>> 58) &&& 0xFE = 2 * (reg / 2 ^ 59) := by
      have hx : reg >>> 58 < 128 := by rw [Nat.shiftRight_eq_div_pow]; omega
      have := and_fe ⟨reg >>> 58, hx⟩
      simp only at this
      rw [this, Nat.shiftRight_eq_div_pow]; omega
    rw [b32Emit, e, b32_digit ⟨_, hd⟩, shl_eq, b32Emit_eq n _ (by omega) (Nat.mod_lt _ (by decide)), range_map_succ]
    simp only [need, Res.bind_eq, Res.pure_eq, Res.bind, Res.ok.injEq, List.cons.injEq]
    refine ⟨by congr 1; omega, ?_⟩
    apply List.map_congr_left
    intro i hi
    rw [List.mem_range] at hi
    rw [shift_digit reg (by omega)]

theorem b64Emit_eq : ∀ (n reg : Nat), n ≤ 4 → reg < 2 ^ 32 →
    b64Emit n reg = .ok ((List.range n).map fun i => digit64 (reg / 2 ^ (32 - 6 - 6 * i) % 2 ^ 6))
  | 0, _, _, _ => rfl
  | n + 1, reg, hn, hr => by
    have hd : reg / 2 ^ 26 < 64 := by omega
    have e : (reg >>> 26) &&& 0xFF = reg / 2 ^ 26 := by
      rw [Nat.shiftRight_eq_div_pow]
      exact Nat.and_two_pow_sub_one_of_lt_two_pow (n := 8) (by omega)
    rw [b64Emit, e, b64_digit ⟨_, hd⟩, shl_eq, b64Emit_eq n _ (by omega) (Nat.mod_lt _ (by decide)), range_map_succ]
    simp only [need, Res.bind_eq, Res.pure_eq, Res.bind, Res.ok.injEq, List.cons.injEq]
    refine ⟨by congr 1; omega, ?_⟩
    apply List.map_congr_left
    intro i hi
    rw [List.mem_range] at hi
    rw [shift_digit reg (by omega)]

theorem b32_digits {p v reg : Nat} (hp : p ≤ 8) (hv : v < 2 ^ 40) (hr : reg = v * 2 ^ 24) :
    b32Emit p reg = .ok (digits32 v p) := by
  subst hr
  rw [b32Emit_eq p _ hp (by omega)]
  unfold digits32
  congr 1
  apply List.map_congr_left
  intro i hi
  rw [List.mem_range] at hi
  have e : (32 : Nat) ^ (7 - i) = 2 ^ (5 * (7 - i)) := by rw [Nat.pow_mul]
  have e2 : 64 - 5 - 5 * i = 5 * (7 - i) + 24 := by omega
  rw [e, e2, Nat.pow_add, Nat.mul_div_mul_right _ _ (by decide)]

theorem b64_digits {p v reg : Nat} (hp : p ≤ 4) (hv : v < 2 ^ 24) (hr : reg = v * 2 ^ 8) :
    b64Emit p reg = .ok (digits64 v p) := by
  subst hr
  rw [b64Emit_eq p _ hp (by omega)]
  unfold digits64
  congr 1
  apply List.map_congr_left
  intro i hi
  rw [List.mem_range] at hi
  have e : (64 : Nat) ^ (3 - i) = 2 ^ (6 * (3 - i)) := by rw [Nat.pow_mul]
  have e2 : 32 - 6 - 6 * i = 6 * (3 - i) + 8 := by omega
  rw [e, e2, Nat.pow_add, Nat.mul_div_mul_right _ _ (by decide)]

/-! ## C80 -/

theorem hexEncodeLoop_eq (delim : Bytes) : ∀ (s : Bytes) (first : Bool), hexEncodeLoop delim first s =
    .ok ((if first || s.isEmpty then [] else delim) ++ List.intercalate delim (s.map hexByte))
  | [], first => by simp [hexEncodeLoop, List.intercalate]
  | x :: xs, first => by
    have hx : x.toNat < 256 := x.toNat_lt
    have e : hexEmit 2 (shl 32 (x.toNat &&& 0xFF) 24) = .ok (hexByte x) := by
      rw [byte_and, shl_eq, hexEmit_eq 2 _ (by omega) (Nat.mod_lt _ (by decide))]
      simp only [List.range, List.range.loop, List.map, hexByte, Res.ok.injEq, List.cons.injEq, and_true]
      constructor <;> · congr 1; omega
    rw [hexEncodeLoop, e, hexEncodeLoop_eq delim xs false]
    simp only [Res.bind_eq, Res.pure_eq, Res.bind, Res.ok.injEq, List.isEmpty_cons, Bool.or_false, Bool.false_or]
    cases xs with
    | nil => cases first <;> simp [List.intercalate]
    | cons y ys => cases first <;> simp [List.intercalate, List.intersperse]

/-- **C80 (hex).** Each byte becomes two upper-case hexadecimal digits; the delimiter is put between them. -/
theorem C80_hex (s : Bytes) (delim : Option Bytes) :
    hexEncode s delim = .ok (List.intercalate (delim.getD []) (s.map hexByte)) := by
  rw [hexEncode, hexEncodeLoop_eq]; simp

/-- **C80 (base32).** -/
theorem C80_base32 : ∀ s : Bytes, b32Encode s = .ok (Spec.base32 s)
  | [] => rfl
  | [a] => by
    have h0 : a.toNat < 256 := a.toNat_lt
    have e := b32_digits (p := 2) (v := be [a, 0, 0, 0, 0]) (reg := shl 64 (readBytes 64 0 [a]) (64 - 1 * 8)) (by omega)
      (by simp [be]; omega)
      (by rw [readBytes_eq _ 0 0 (by decide) (by simp), shl_eq]; simp [be]; omega)
    rw [b32Encode, b32EncodeLoop, Spec.base32]
    · simp only [List.length, Nat.zero_add, Nat.reduceAdd, Nat.reduceMul, Nat.reduceDiv] at e ⊢
      rw [e]; simp [need, b32_pad, List.replicate]
    · simp
    · simp
  | [a, b] => by
    have h0 : a.toNat < 256 := a.toNat_lt
    have h1 : b.toNat < 256 := b.toNat_lt
    have e := b32_digits (p := 4) (v := be [a, b, 0, 0, 0]) (reg := shl 64 (readBytes 64 0 [a, b]) (64 - 2 * 8)) (by omega)
      (by simp [be]; omega)
      (by rw [readBytes_eq _ 0 0 (by decide) (by simp), shl_eq]; simp [be]; omega)
    rw [b32Encode, b32EncodeLoop, Spec.base32]
    · simp only [List.length, Nat.zero_add, Nat.reduceAdd, Nat.reduceMul, Nat.reduceDiv] at e ⊢
      rw [e]; simp [need, b32_pad, List.replicate]
    · simp
    · simp
  | [a, b, c] => by
    have h0 : a.toNat < 256 := a.toNat_lt
    have h1 : b.toNat < 256 := b.toNat_lt
    have h2 : c.toNat < 256 := c.toNat_lt
    have e := b32_digits (p := 5) (v := be [a, b, c, 0, 0]) (reg := shl 64 (readBytes 64 0 [a, b, c]) (64 - 3 * 8)) (by omega)
      (by simp [be]; omega)
      (by rw [readBytes_eq _ 0 0 (by decide) (by simp), shl_eq]; simp [be]; omega)
    rw [b32Encode, b32EncodeLoop, Spec.base32]
    · simp only [List.length, Nat.zero_add, Nat.reduceAdd, Nat.reduceMul, Nat.reduceDiv] at e ⊢
      rw [e]; simp [need, b32_pad, List.replicate]
    · simp
    · simp
  | [a, b, c, d] => by
    have h0 : a.toNat < 256 := a.toNat_lt
    have h1 : b.toNat < 256 := b.toNat_lt
    have h2 : c.toNat < 256 := c.toNat_lt
    have h3 : d.toNat < 256 := d.toNat_lt
    have e := b32_digits (p := 7) (v := be [a, b, c, d, 0]) (reg := shl 64 (readBytes 64 0 [a, b, c, d]) (64 - 4 * 8))
      (by omega) (by simp [be]; omega)
      (by rw [readBytes_eq _ 0 0 (by decide) (by simp), shl_eq]; simp [be]; omega)
    rw [b32Encode, b32EncodeLoop, Spec.base32]
    · simp only [List.length, Nat.zero_add, Nat.reduceAdd, Nat.reduceMul, Nat.reduceDiv] at e ⊢
      rw [e]; simp [need, b32_pad, List.replicate]
    · simp
    · simp
  | x0 :: x1 :: x2 :: x3 :: x4 :: s => by
    have h0 : x0.toNat < 256 := x0.toNat_lt
    have h1 : x1.toNat < 256 := x1.toNat_lt
    have h2 : x2.toNat < 256 := x2.toNat_lt
    have h3 : x3.toNat < 256 := x3.toNat_lt
    have h4 : x4.toNat < 256 := x4.toNat_lt
    have ih := C80_base32 s
    rw [b32Encode] at ih
    obtain ⟨_, _, _, g3, _⟩ := b32_group5 x0 x1 x2 x3 x4
    have e := b32_digits (p := 8) (v := be [x0, x1, x2, x3, x4])
      (reg := shl 64 (readBytes 64 0 [x0, x1, x2, x3, x4]) 24) (by omega) (by simp [be]; omega)
      (by rw [readBytes_eq _ 0 0 (by decide) (by simp), shl_eq]; simp [be]; omega)
    rw [b32Encode, b32EncodeLoop]
    simp only [e, g3, ih, Res.bind_eq, Res.bind, Res.pure_eq, Spec.base32]

/-- **C80 (base64).** -/
theorem C80_base64 : ∀ s : Bytes, b64Encode s = .ok (Spec.base64 s)
  | [] => rfl
  | [a] => by
    have h0 : a.toNat < 256 := a.toNat_lt
    have e := b64_digits (p := 2) (v := be [a, 0, 0]) (reg := shl 32 (readBytes 32 0 [a]) (32 - 1 * 8)) (by omega)
      (by simp [be]; omega)
      (by rw [readBytes_eq _ 0 0 (by decide) (by simp), shl_eq]; simp [be]; omega)
    rw [b64Encode, b64EncodeLoop, Spec.base64]
    · simp only [List.length, Nat.zero_add, Nat.reduceAdd, Nat.reduceMul, Nat.reduceDiv] at e ⊢
      rw [e]; simp [need, b64_pad, List.replicate]
    · simp
    · simp
  | [a, b] => by
    have h0 : a.toNat < 256 := a.toNat_lt
    have h1 : b.toNat < 256 := b.toNat_lt
    have e := b64_digits (p := 3) (v := be [a, b, 0]) (reg := shl 32 (readBytes 32 0 [a, b]) (32 - 2 * 8)) (by omega)
      (by simp [be]; omega)
      (by rw [readBytes_eq _ 0 0 (by decide) (by simp), shl_eq]; simp [be]; omega)
    rw [b64Encode, b64EncodeLoop, Spec.base64]
    · simp only [List.length, Nat.zero_add, Nat.reduceAdd, Nat.reduceMul, Nat.reduceDiv] at e ⊢
      rw [e]; simp [need, b64_pad, List.replicate]
    · simp
    · simp
  | x0 :: x1 :: x2 :: s => by
    have h0 : x0.toNat < 256 := x0.toNat_lt
    have h1 : x1.toNat < 256 := x1.toNat_lt
    have h2 : x2.toNat < 256 := x2.toNat_lt
    have ih := C80_base64 s
    rw [b64Encode] at ih
    obtain ⟨_, _, _, g3, _⟩ := b64_group3 x0 x1 x2 []
    have e := b64_digits (p := 4) (v := be [x0, x1, x2])
      (reg := shl 32 (readBytes 32 0 [x0, x1, x2]) 8) (by omega) (by simp [be]; omega)
      (by rw [readBytes_eq _ 0 0 (by decide) (by simp), shl_eq]; simp [be]; omega)
    rw [b64Encode, b64EncodeLoop]
    simp only [e, g3, ih, Res.bind_eq, Res.bind, Res.pure_eq, Spec.base64]

theorem urlEscape_eq : ∀ c : UInt8, urlEscape c = .ok (37 :: hexByte c) := by decide +kernel

/-- **C80 (URL).** -/
theorem C80_url (s : Bytes) : urlEncode s = .ok (s.flatMap urlByte) := by
  induction s with
  | nil => rfl
  | cons c cs ih =>
    rw [urlEncode, ih, urlEscape_eq, List.flatMap_cons, urlByte]
    by_cases hc : urlPlain c = true
    · rw [if_pos hc, if_pos ((urlPlain_iff c).mp hc)]; rfl
    · rw [if_neg hc, if_neg (fun h => hc ((urlPlain_iff c).mpr h))]; rfl

theorem urlQueryPlain_iff : ∀ c : UInt8, urlQueryPlain c = true ↔ (Unreserved c ∧ c ≠ 126) := by decide +kernel

/-- **C80 (URL query).** A blank becomes `+`. -/
theorem C80_url_query (s : Bytes) : urlQueryEncode s = .ok (s.flatMap urlQueryByte) := by
  induction s with
  | nil => rfl
  | cons c cs ih =>
    rw [urlQueryEncode, ih, urlEscape_eq, List.flatMap_cons, urlQueryByte]
    by_cases h32 : c = 32
    · subst h32; rfl
    · rw [if_neg h32, if_neg h32]
      by_cases hc : urlQueryPlain c = true
      · rw [if_pos hc, if_pos ((urlQueryPlain_iff c).mp hc)]; rfl
      · rw [if_neg hc, if_neg (fun h => hc ((urlQueryPlain_iff c).mpr h))]; rfl

example : Spec.base32 [102, 111, 111, 98, 97, 114] = [77, 90, 88, 87, 54, 89, 84, 66, 79, 73, 61, 61, 61, 61, 61, 61] ∧
    Spec.base64 [102, 111, 111, 98, 255] = [90, 109, 57, 118, 89, 118, 56, 61] ∧
    List.intercalate [32] ([10, 255].map hexByte) = [48, 65, 32, 70, 70] := by decide +kernel

example : [97, 32, 126, 43].flatMap urlQueryByte = [97, 43, 37, 55, 69, 37, 50, 66] := by decide +kernel

end Asteria.Codec
