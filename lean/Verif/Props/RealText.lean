import Verif.Proof.RealPrint

/-!
# The text of real numbers

A double-precision number is given by its bit pattern, as a sign and a pattern without a sign; the finite numbers other than zero
are the patterns from 1 up to, and not including, `2047 * 2 ^ 52`.
-/

namespace Asteria.RealText

open Asteria.NumText

/-- The sign bit. -/
def signBit (sign : Bool) : Nat := if sign then 2 ^ 63 else 0

/-- `parse_D` of a whole text and `cast_D`, as they are used in numeric.cpp:509-518 (and, by `parse_DD`, in json.cpp:632-634): the bit
pattern of a number that is not an infinity or a NaN. -/
def readBack (t : Bytes) : Res Nat :=
  match parseD t with
  | some (g, []) => if g.special then .throw else (castD g).map fun r => r.bits
  | _ => .throw

/-! ### C94: a real number that is printed reads back as the same number -/

/-- A real number that is printed reads back as itself or one of its two neighbours.  It reads back as itself if its mantissa is even
and not zero, or if it is subnormal and even, or the least normal number.  What is missing: odd mantissas, and the other powers of
two; for both there are counterexamples. -/
theorem C94_partial (sign : Bool) (b : Nat) (hb : 0 < b) (hb' : b < 2047 * 2 ^ 52) :
    ∃ t p, putDD (signBit sign + b) = .ok t ∧ readBack t = .ok (signBit sign + p) ∧ b ≤ p + 1 ∧ p ≤ b + 1 ∧
      (b % 2 = 0 → (b % 2 ^ 52 ≠ 0 ∨ b ≤ 2 ^ 52) → p = b) := by
  obtain ⟨t, mant, exp, r, p, h1, h2, _, _, _, h6, h7, h8⟩ := putDD_near b hb hb' sign
  refine ⟨t, p, h1, ?_, h8.1.1, h8.1.2, h8.2⟩
  unfold readBack
  rw [h2]
  simp only [Bool.false_eq_true, if_false]
  rw [h6, Res.map, h7]
  rfl

/-- Both functions agree that zero is `0`. -/
theorem C94_zero (sign : Bool) : ∃ t, putDD (signBit sign) = .ok t ∧ readBack t = .ok (signBit sign) := by
  cases sign
  · exact ⟨[48], by decide +kernel, by decide +kernel⟩
  · exact ⟨[45, 48], by decide +kernel, by decide +kernel⟩

/-- The printer alone: the decimal number that is printed differs from the real number by half a unit in the last place at most. -/
theorem C94_digits (sign : Bool) (b : Nat) (hb : 0 < b) (hb' : b < 2047 * 2 ^ 52) :
    ∃ t mant exp, putDD (signBit sign + b) = .ok t ∧ parseD t = some (⟨false, sign, 10, exp, mant, false⟩, []) ∧
      value b - (2 : ℚ) ^ ulpExp b / 2 ≤ mant * (10 : ℚ) ^ exp ∧ mant * (10 : ℚ) ^ exp ≤ value b + (2 : ℚ) ^ ulpExp b / 2 := by
  obtain ⟨t, mant, exp, r, p, h1, h2, _, h4, h5, _⟩ := putDD_near b hb hb' sign
  refine ⟨t, mant, exp, h1, h2, le_trans (le_of_eq ?_) h4, le_trans h5 (le_of_eq ?_)⟩
  · have := sig_pos b hb
    rw [lower, value, Nat.cast_sub (by omega), zpow_sub₀ (by norm_num)]
    push_cast
    ring
  · rw [upper, value, zpow_sub₀ (by norm_num)]
    push_cast
    ring

/-- The power of two with the exponent -44 is printed as `5.684341886080801e-14`, which reads back as the number below. -/
theorem C94_false : ∃ b t p, b < 2047 * 2 ^ 52 ∧ b % 2 = 0 ∧ putDD b = .ok t ∧ readBack t = .ok p ∧ p < b :=
  ⟨0x3D30000000000000, [53, 46, 54, 56, 52, 51, 52, 49, 56, 56, 54, 48, 56, 48, 56, 48, 49, 101, 45, 49, 52], 0x3D2FFFFFFFFFFFFF,
    by decide +kernel, by decide +kernel, by decide +kernel, by decide +kernel, by decide +kernel⟩

/-- The number `0x453375d506f0b6f9` is printed as `2.352603710776214e+25`, which reads back as the number below. -/
theorem C94_false_odd : ∃ b t p, b < 2047 * 2 ^ 52 ∧ b % 2 = 1 ∧ putDD b = .ok t ∧ readBack t = .ok p ∧ p ≠ b :=
  ⟨0x453375D506F0B6F9, [50, 46, 51, 53, 50, 54, 48, 51, 55, 49, 48, 55, 55, 54, 50, 49, 52, 101, 43, 50, 53], 0x453375D506F0B6F8,
    by decide +kernel, by decide +kernel, by decide +kernel, by decide +kernel, by decide +kernel⟩

/-- `3.141592653589793` -/
example : putDD 0x400921FB54442D18 = .ok [51, 46, 49, 52, 49, 53, 57, 50, 54, 53, 51, 53, 56, 57, 55, 57, 51] ∧
    readBack [51, 46, 49, 52, 49, 53, 57, 50, 54, 53, 51, 53, 56, 57, 55, 57, 51] = .ok 0x400921FB54442D18 := by decide +kernel

/-- `-2.225073858507201e-308`, a subnormal number -/
example : putDD (signBit true + 0xFFFFFFFFFFFFF) = .ok [45, 50, 46, 50, 50, 53, 48, 55, 51, 56, 53, 56, 53, 48, 55, 50, 48, 49, 101, 45, 51, 48, 56] := by
  decide +kernel

example : 0 < 0x400921FB54442D18 ∧ 0x400921FB54442D18 < 2047 * 2 ^ 52 ∧ 0x400921FB54442D18 % 2 = 0 ∧ 0x400921FB54442D18 % 2 ^ 52 ≠ 0 := by
  decide

/-! ### C89: the text of a finite number is a number in the grammar of JSON -/

/-- The text that is printed for a finite real number is a number by RFC 8259, and the parser of decimal numbers takes all of it. -/
theorem C89 (sign : Bool) (b : Nat) (hb : b < 2047 * 2 ^ 52) :
    ∃ t g, putDD (signBit sign + b) = .ok t ∧ RfcNumber.Number t ∧ parseBase 10 t = some (g, []) ∧ g.special = false ∧ g.sign = sign := by
  rcases Nat.eq_zero_or_pos b with rfl | h0
  · cases sign
    · refine ⟨[48], ⟨false, false, 10, 0, 0, false⟩, by decide +kernel, ⟨[], [48], [], [], .inl rfl, .inl rfl, .inl rfl, .inl rfl, rfl⟩,
        by decide +kernel, rfl, rfl⟩
    · refine ⟨[45, 48], ⟨false, true, 10, 0, 0, false⟩, by decide +kernel, ⟨[45], [48], [], [], .inr rfl, .inl rfl, .inl rfl, .inl rfl, rfl⟩,
        by decide +kernel, rfl, rfl⟩
  · obtain ⟨t, mant, exp, r, p, h1, _, h3, _⟩ := putDD_near b h0 hb sign
    obtain ⟨t', h1', h2'⟩ := putDD_json b h0 hb sign
    have : t = t' := by
      rw [h1] at h1'
      exact Res.ok.inj h1'
    subst this
    exact ⟨t, _, h1, h2', h3, rfl, rfl⟩

/-- An infinity is not. -/
example : putDD (2047 * 2 ^ 52) = .ok "infinity".toUTF8.toList := by decide +kernel

end Asteria.RealText
