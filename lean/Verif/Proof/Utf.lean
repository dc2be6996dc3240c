import Verif.Model.Utf
import Verif.Proof.Codec

/-! Helper lemmas for the Unicode conversions. -/

namespace Asteria.Utf
open Asteria.Codec (or_eq_add)

theorem and_mask (x k : Nat) : x &&& (2 ^ k - 1) = x % 2 ^ k := Nat.and_two_pow_sub_one_eq_mod x k

theorem and_3F (x : Nat) : x &&& 0x3F = x % 64 := and_mask x 6
theorem and_1F (x : Nat) : x &&& 0x1F = x % 32 := and_mask x 5
theorem and_0F (x : Nat) : x &&& 0x0F = x % 16 := and_mask x 4
theorem and_07 (x : Nat) : x &&& 0x07 = x % 8 := and_mask x 3
theorem and_3FF (x : Nat) : x &&& 0x3FF = x % 1024 := and_mask x 10

theorem or_add (a b k : Nat) (h : b < 2 ^ k) : (a * 2 ^ k) ||| b = a * 2 ^ k + b := or_eq_add h

theorem ofNat_toNat (n : Nat) : (UInt8.ofNat n).toNat = n % 256 := by simp

theorem encOne_3F (cp sh : Nat) : (encOne cp sh 0x3F).toNat = 128 + cp / 2 ^ sh % 64 := by
  unfold encOne
  rw [and_3F, Nat.shiftRight_eq_div_pow, ofNat_toNat]
  have h := or_add 67108862 (cp / 2 ^ sh % 64) 6 (Nat.mod_lt _ (by decide))
  have e : ((2 ^ 32 - 1 - 0x3F) <<< 1) % 2 ^ 32 = 67108862 * 2 ^ 6 := by decide
  rw [e, h]; omega

theorem encOne_1F (cp sh : Nat) : (encOne cp sh 0x1F).toNat = 192 + cp / 2 ^ sh % 32 := by
  unfold encOne
  rw [and_1F, Nat.shiftRight_eq_div_pow, ofNat_toNat]
  have h := or_add 134217726 (cp / 2 ^ sh % 32) 5 (Nat.mod_lt _ (by decide))
  have e : ((2 ^ 32 - 1 - 0x1F) <<< 1) % 2 ^ 32 = 134217726 * 2 ^ 5 := by decide
  rw [e, h]; omega

theorem encOne_0F (cp sh : Nat) : (encOne cp sh 0x0F).toNat = 224 + cp / 2 ^ sh % 16 := by
  unfold encOne
  rw [and_0F, Nat.shiftRight_eq_div_pow, ofNat_toNat]
  have h := or_add 268435454 (cp / 2 ^ sh % 16) 4 (Nat.mod_lt _ (by decide))
  have e : ((2 ^ 32 - 1 - 0x0F) <<< 1) % 2 ^ 32 = 268435454 * 2 ^ 4 := by decide
  rw [e, h]; omega

theorem encOne_07 (cp sh : Nat) : (encOne cp sh 0x07).toNat = 240 + cp / 2 ^ sh % 8 := by
  unfold encOne
  rw [and_07, Nat.shiftRight_eq_div_pow, ofNat_toNat]
  have h := or_add 536870910 (cp / 2 ^ sh % 8) 3 (Nat.mod_lt _ (by decide))
  have e : ((2 ^ 32 - 1 - 0x07) <<< 1) % 2 ^ 32 = 536870910 * 2 ^ 3 := by decide
  rw [e, h]; omega

theorem trail_step (cp n : Nat) (b : UInt8) (tl : Bytes) (h : cp < 2 ^ 26) :
    utf8Trail cp (n + 1) (b :: tl) = utf8Trail (cp * 64 + b.toNat % 64) n tl := by
  have hc : b.toNat ≥ 0x80 ∨ b.toNat < 0xC0 := by omega
  rw [utf8Trail, if_pos hc, and_3F, Nat.shiftLeft_eq, Nat.mod_eq_of_lt (by omega)]
  have := or_add cp (b.toNat % 64) 6 (Nat.mod_lt _ (by decide))
  rw [this]

/-- The final checks of `utf8_decode` for a sequence of `len` bytes. -/
def accept (cp len : Nat) : Option (Nat × Nat) :=
  if notScalar cp then none
  else if 1 + (if cp ≥ 0x80 then 1 else 0) + (if cp ≥ 0x800 then 1 else 0)
      + (if cp ≥ 0x10000 then 1 else 0) ≠ len then none
  else some (cp, len)

theorem decode1 (b : UInt8) (tl : Bytes) (avail : Nat) (ha : 0 < avail) (h : b.toNat < 128) :
    utf8Decode (b :: tl) avail = .ok (some (b.toNat, 1)) := by
  unfold utf8Decode
  rw [if_neg (by omega)]; simp only; rw [if_pos h]

theorem decode_bad (b : UInt8) (tl : Bytes) (avail : Nat)
    (h : 128 ≤ b.toNat ∧ (b.toNat < 192 ∨ 248 ≤ b.toNat)) :
    utf8Decode (b :: tl) avail = .ok none := by
  unfold utf8Decode
  by_cases h0 : avail = 0
  · rw [if_pos h0]
  · rw [if_neg h0]; simp only; rw [if_neg (by omega), if_pos (by omega)]

theorem decode2 (b c : UInt8) (tl : Bytes) (avail : Nat) (ha : 2 ≤ avail)
    (h : 192 ≤ b.toNat ∧ b.toNat < 224) :
    utf8Decode (b :: c :: tl) avail = .ok (accept ((b.toNat - 192) * 64 + c.toNat % 64) 2) := by
  unfold utf8Decode
  rw [if_neg (by omega)]; simp only
  rw [if_neg (by omega), if_neg (by omega), if_neg (show ¬ b.toNat ≥ 0xE0 by omega),
    if_neg (show ¬ b.toNat ≥ 0xF0 by omega), if_neg (by omega)]
  have e : b.toNat &&& (0xFF >>> (2 + 0 + 0)) = b.toNat - 192 := by
    have := and_mask b.toNat 6
    simp only [Nat.reduceShiftRight, Nat.reduceAdd]
    rw [show (63 : Nat) = 2 ^ 6 - 1 by rfl, this]; omega
  rw [e]
  show (utf8Trail _ (0 + 1) _).map _ = _
  rw [trail_step _ _ _ _ (by omega), utf8Trail]
  rfl

theorem decode3 (b c d : UInt8) (tl : Bytes) (avail : Nat) (ha : 3 ≤ avail)
    (h : 224 ≤ b.toNat ∧ b.toNat < 240) :
    utf8Decode (b :: c :: d :: tl) avail =
      .ok (accept (((b.toNat - 224) * 64 + c.toNat % 64) * 64 + d.toNat % 64) 3) := by
  unfold utf8Decode
  rw [if_neg (by omega)]; simp only
  rw [if_neg (by omega), if_neg (by omega), if_pos (show b.toNat ≥ 0xE0 by omega),
    if_neg (show ¬ b.toNat ≥ 0xF0 by omega), if_neg (by omega)]
  have e : b.toNat &&& (0xFF >>> (2 + 1 + 0)) = b.toNat - 224 := by
    have := and_mask b.toNat 5
    simp only [Nat.reduceShiftRight, Nat.reduceAdd]
    rw [show (31 : Nat) = 2 ^ 5 - 1 by rfl, this]; omega
  rw [e]
  show (utf8Trail _ (0 + 1 + 1) _).map _ = _
  rw [trail_step _ _ _ _ (by omega), trail_step _ _ _ _ (by omega), utf8Trail]
  rfl

theorem decode4 (b c d f : UInt8) (tl : Bytes) (avail : Nat) (ha : 4 ≤ avail)
    (h : 240 ≤ b.toNat ∧ b.toNat < 248) :
    utf8Decode (b :: c :: d :: f :: tl) avail =
      .ok (accept ((((b.toNat - 240) * 64 + c.toNat % 64) * 64 + d.toNat % 64) * 64
        + f.toNat % 64) 4) := by
  unfold utf8Decode
  rw [if_neg (by omega)]; simp only
  rw [if_neg (by omega), if_neg (by omega), if_pos (show b.toNat ≥ 0xE0 by omega),
    if_pos (show b.toNat ≥ 0xF0 by omega), if_neg (by omega)]
  have e : b.toNat &&& (0xFF >>> (2 + 1 + 1)) = b.toNat - 240 := by
    have := and_mask b.toNat 4
    simp only [Nat.reduceShiftRight, Nat.reduceAdd]
    rw [show (15 : Nat) = 2 ^ 4 - 1 by rfl, this]; omega
  rw [e]
  show (utf8Trail _ (0 + 1 + 1 + 1) _).map _ = _
  rw [trail_step _ _ _ _ (by omega), trail_step _ _ _ _ (by omega), trail_step _ _ _ _ (by omega),
    utf8Trail]
  rfl

/-- Number of bytes announced by a lead byte at or above `0xC0`. -/
def leadLen (b : UInt8) : Nat :=
  if b.toNat < 224 then 2 else if b.toNat < 240 then 3 else 4

theorem decode_short (b : UInt8) (tl : Bytes) (avail : Nat) (h : 192 ≤ b.toNat)
    (ha : avail < leadLen b) : utf8Decode (b :: tl) avail = .ok none := by
  have hb := b.toNat_lt
  unfold utf8Decode
  by_cases h0 : avail = 0
  · rw [if_pos h0]
  rw [if_neg h0]; simp only
  rw [if_neg (by omega)]
  split
  · rfl
  · rw [if_pos]
    unfold leadLen at ha
    split at ha
    · rw [if_neg (by omega), if_neg (by omega)]; omega
    · split at ha
      · rw [if_pos (by omega), if_neg (by omega)]; omega
      · rw [if_pos (by omega), if_pos (by omega)]; omega

theorem accept_some {cp len : Nat} {p : Nat × Nat} (h : accept cp len = some p) :
    p = (cp, len) ∧ notScalar cp = false ∧
      1 + (if cp ≥ 0x80 then 1 else 0) + (if cp ≥ 0x800 then 1 else 0)
      + (if cp ≥ 0x10000 then 1 else 0) = len := by
  unfold accept at h
  by_cases h1 : notScalar cp = true
  · rw [if_pos h1] at h; cases h
  · rw [if_neg h1] at h
    by_cases h2 : 1 + (if cp ≥ 0x80 then 1 else 0) + (if cp ≥ 0x800 then 1 else 0)
      + (if cp ≥ 0x10000 then 1 else 0) = len
    · rw [if_neg (by simpa using h2)] at h
      exact ⟨(Option.some.inj h).symm, by simpa using h1, h2⟩
    · rw [if_pos h2] at h; cases h

theorem notScalar_false {cp : Nat} : notScalar cp = false ↔ (cp < 0xD800 ∨ 0xE000 ≤ cp ∧ cp < 0x110000) := by
  simp [notScalar]; omega

theorem accept_ok {cp len : Nat} (h1 : cp < 0xD800 ∨ 0xE000 ≤ cp ∧ cp < 0x110000)
    (h2 : len = if cp < 0x80 then 1 else if cp < 0x800 then 2 else if cp < 0x10000 then 3 else 4) :
    accept cp len = some (cp, len) := by
  unfold accept
  rw [notScalar_false.2 h1]
  simp only [Bool.false_eq_true, if_false]
  rw [if_neg]
  subst h2
  simp only [ge_iff_le]
  repeat' split
  all_goals omega

end Asteria.Utf
