import Verif.Proof.RealLiteral
import Verif.Props.LexExact

/-!
# The accuracy of literals of real numbers

C111: `cast_D` has a result for every numeral, which is within 0.51 units of the exact number if it is decimal, and is the
nearest if it is hexadecimal or binary.
-/

namespace Asteria.Lexer

open Spec (IsPrefix IsSign Parts Numeral Meaning number Reads ReadsNearest Token Extent Unary tick)
open NumText (NumGet)
open RealText (value Nearly Nearest maximum minimum)

/-- **C111.**  The token of a literal is the number that is written, or differs from it by at most 0.51 times the distance
to the next number.  The integral and fractional digits and those of the exponent may be as many as one likes. -/
theorem C111 {prev : List (Tok Nat)} {bits : Nat} {w rest : Bytes} (h : Token Source.realOf prev (.real bits) w rest) :
    ∃ sgn neg u p, w = sgn ++ u ∧ IsSign sgn neg ∧ Extent u rest ∧ Numeral (u.filter fun c => !tick c) p ∧ Reads neg p.exact bits := by
  cases h with
  | real h1 h2 h3 h4 h5 h6 h7 => exact ⟨_, _, _, _, rfl, h1, h3, h4, realOf_reads h4 h6 h7⟩

/-- **C111**: the nearest number, if the literal is hexadecimal or binary; a tie goes to the even one. -/
theorem C111_nearest {prev : List (Tok Nat)} {bits : Nat} {w rest : Bytes} (h : Token Source.realOf prev (.real bits) w rest) :
    ∃ sgn neg u p, w = sgn ++ u ∧ IsSign sgn neg ∧ Extent u rest ∧ Numeral (u.filter fun c => !tick c) p ∧
      (p.base ≠ 10 → ReadsNearest neg p.exact bits) := by
  cases h with
  | real h1 h2 h3 h4 h5 h6 h7 => exact ⟨_, _, _, _, rfl, h1, h3, h4, fun hb => realOf_nearest h4 h6 hb h7⟩

/-- **C111**: a literal between the least positive number and the largest finite number is a token; so is zero. -/
theorem C111_range {prev : List (Tok Nat)} {sgn u rest : Bytes} {neg : Bool} {p : Parts} (h1 : IsSign sgn neg) (h2 : Unary prev sgn)
    (h3 : Extent u rest) (h4 : Numeral (u.filter fun c => !tick c) p) (h5 : p.frac ≠ none)
    (h6 : p.exact = 0 ∨ minimum ≤ p.exact ∧ p.exact ≤ maximum) : ∃ bits, Token Source.realOf prev (.real bits) (sgn ++ u) rest := by
  obtain ⟨g, hg⟩ := meaning_exists neg p
  obtain ⟨bits, hb⟩ := realOf_range h4 hg h6
  exact ⟨bits, .real h1 h2 h3 h4 h5 hg hb⟩

/-- **C111**: a literal that is exactly a number of the type is that number. -/
theorem C111_exact {prev : List (Tok Nat)} {sgn u rest : Bytes} {neg : Bool} {p : Parts} {b : Nat} (h1 : IsSign sgn neg)
    (h2 : Unary prev sgn) (h3 : Extent u rest) (h4 : Numeral (u.filter fun c => !tick c) p) (h5 : p.frac ≠ none) (hb : 0 < b)
    (hb' : b < 2047 * 2 ^ 52) (h6 : p.exact = value b) :
    Token Source.realOf prev (.real ((if neg then 2 ^ 63 else 0) + b)) (sgn ++ u) rest := by
  obtain ⟨g, hg⟩ := meaning_exists neg p
  have hmin : minimum ≤ value b := by
    refine le_trans (le_of_eq ?_) (RealText.value_mono hb)
    have := RealText.value_lin 1 1 (by decide) (by decide) (.inl rfl)
    norm_num at this
    rw [this, minimum]
    norm_num
  have hmax : value b ≤ maximum := by
    refine le_trans (RealText.value_mono (show b ≤ 2047 * 2 ^ 52 - 1 by omega)) (le_of_eq ?_)
    have := RealText.value_lin 2046 (2 ^ 53 - 1) (by decide) (by decide) (.inr (by decide))
    rw [show 2047 * 2 ^ 52 - 1 = (2046 - 1) * 2 ^ 52 + (2 ^ 53 - 1) by norm_num, this, maximum]
    norm_num
  obtain ⟨bits, hbits⟩ := realOf_range h4 hg (.inr ⟨h6 ▸ hmin, h6 ▸ hmax⟩)
  have hr := realOf_reads h4 hg hbits
  rcases hr with ⟨h7, _⟩ | ⟨c, c1, c2, c3, c4⟩
  · rw [h6] at h7
    have : 0 < minimum := by unfold minimum; positivity
    linarith
  · rw [h6] at c4
    have := nearly_exact c4 c1
    subst this
    exact c3 ▸ .real h1 h2 h3 h4 h5 hg hbits

/-- **C111**: no numeral makes `cast_D` do anything undefined, such as access an element that does not exist. -/
theorem C111_no_ub {t : Bytes} {p : Parts} {neg : Bool} {g : NumGet} (hn : Numeral t p) (hm : Meaning neg p g) :
    ∃ r, RealText.castD g = .ok r := by
  rcases castD_meaning hn hm with ⟨_, i, h⟩ | ⟨_, r, h, _⟩
  · exact ⟨_, h⟩
  · exact ⟨_, h⟩

/-! ### Concrete cases -/

theorem digitText (base : Nat) (t : Bytes) (ds : List Nat) (h : (decide (t.map Spec.hexDigit = ds.map some) && ds.all (· < base)) = true) :
    Spec.DigitText base t ds := by
  rw [Bool.and_eq_true, decide_eq_true_eq, List.all_eq_true] at h
  exact ⟨h.1, fun d hd => by simpa using h.2 d hd⟩

/-- The literal `2.5e-1`. -/
def quarter : Parts := ⟨10, [2], some [5], some (true, [1])⟩

theorem quarter_numeral : Numeral (Spec.bytes "2.5e-1") quarter := by
  rw [show Spec.bytes "2.5e-1" = [] ++ ([50] ++ ((46 :: [53]) ++ (101 :: ([45] ++ [49])))) by decide +kernel]
  exact .mk (base := 10) ⟨.inl ⟨rfl, rfl⟩⟩ (digitText _ _ _ (by decide +kernel))
    (.some (digitText _ _ _ (by decide +kernel))) (.some (by unfold Spec.isExpo; simp) ⟨.inr (.inr ⟨rfl, rfl⟩)⟩ (digitText _ _ _ (by decide +kernel)) (by decide))
    (by decide)

theorem quarter_exact : quarter.exact = 1 / 4 := by
  norm_num [Parts.exact, quarter, Parts.digits, Parts.radix, Parts.step, Parts.written, number]

theorem quarter_value : value 0x3FD0000000000000 = 1 / 4 := by
  norm_num [value, RealText.sig, RealText.ulpExp]

theorem quarter_extent : Extent (Spec.bytes "2.5e-1") [59] := by
  rw [show Spec.bytes "2.5e-1" = [] ++ ([50] ++ ((46 :: [53]) ++ ((101 :: ([45] ++ [49])) ++ []))) by decide +kernel]
  refine .mk (hex := false) (.plain ?_ ⟨50, _, rfl, by decide⟩) ⟨by decide +kernel, ?_⟩ (.some ⟨by decide +kernel, ?_⟩)
    (.some (by unfold Spec.isExpo; simp) (neg := true) ⟨.inr (.inr ⟨rfl, rfl⟩)⟩ nofun ⟨by decide +kernel, ?_⟩) ⟨by decide +kernel, ?_⟩
  · intro pre h hp
    rcases h.prop with rfl | rfl | rfl | rfl <;> revert hp <;> decide
  all_goals
    intro c t h
    cases h
    decide +kernel

/-- The hypotheses of C111_exact and, with them, of the others: `2.5e-1` is 0.25. -/
example : Token Source.realOf [] (.real 0x3FD0000000000000) ([] ++ Spec.bytes "2.5e-1") [59] := by
  refine C111_exact (neg := false) ⟨.inl ⟨rfl, rfl⟩⟩ (.inl rfl) quarter_extent (p := quarter) ?_ (by decide) (by decide) (by decide)
    (quarter_exact.trans quarter_value.symm)
  have : (Spec.bytes "2.5e-1").filter (fun c => !tick c) = Spec.bytes "2.5e-1" := by decide +kernel
  rw [this]
  exact quarter_numeral

/-- It is a token. -/
example : Token Source.realOf [] (.real 0x3FD0000000000000) (Spec.bytes "2.5e-1") (Spec.bytes ";") := by
  obtain ⟨w, h1, h2⟩ := (C109_token C109_conversion ([] : List (Tok Nat)) (Spec.bytes "2.5e-1;") (by decide +kernel) (by decide +kernel) (by decide +kernel)
    (.real 0x3FD0000000000000) (Spec.bytes ";")).mp (by decide +kernel)
  have : w = Spec.bytes "2.5e-1" := List.append_cancel_right (bs := Spec.bytes ";") (by rw [← h1]; decide +kernel)
  rwa [this] at h2

/-! ### Decimals are not always rounded to the nearest -/

/-- `468070599835588.7813` -/
def near : Parts := ⟨10, [4, 6, 8, 0, 7, 0, 5, 9, 9, 8, 3, 5, 5, 8, 8], some [7, 8, 1, 3], none⟩

theorem near_numeral : Numeral (Spec.bytes "468070599835588.7813") near := by
  rw [show Spec.bytes "468070599835588.7813" =
    [] ++ ([52, 54, 56, 48, 55, 48, 53, 57, 57, 56, 51, 53, 53, 56, 56] ++ ((46 :: [55, 56, 49, 51]) ++ [])) by decide +kernel]
  exact .mk (base := 10)
    ⟨.inl ⟨rfl, rfl⟩⟩ (digitText _ _ _ (by decide +kernel)) (.some (digitText _ _ _ (by decide +kernel))) .none (by decide)

/-- The literal `468070599835588.7813` is read as 468070599835588.75, but 468070599835588.8125 is nearer. -/
theorem C111_decimal_false : Lexer.reload Source.realOf (Spec.bytes "468070599835588.7813") = .ok [.real 4826340730883800140] ∧
    Numeral (Spec.bytes "468070599835588.7813") near ∧ Nearest near.exact 4826340730883800141 ∧ ¬ Nearest near.exact 4826340730883800140 := by
  have e : near.exact = 4680705998355887813 / 10000 := by
    norm_num [Parts.exact, near, Parts.digits, Parts.radix, Parts.step, Parts.written, number]
  have v0 : value 4826340730883800139 = 468070599835588 + 11 / 16 := by norm_num [value, RealText.sig, RealText.ulpExp]
  have v1 : value 4826340730883800140 = 468070599835588 + 12 / 16 := by norm_num [value, RealText.sig, RealText.ulpExp]
  have v2 : value 4826340730883800141 = 468070599835588 + 13 / 16 := by norm_num [value, RealText.sig, RealText.ulpExp]
  have v3 : value 4826340730883800142 = 468070599835588 + 14 / 16 := by norm_num [value, RealText.sig, RealText.ulpExp]
  refine ⟨gives (by decide +kernel), near_numeral, ⟨?_, ?_, fun _ => ⟨?_, ?_⟩⟩, fun h => ?_⟩
  · rw [e, v2, show 4826340730883800141 - 1 = 4826340730883800140 from rfl, v1]; norm_num
  · rw [e, v2, show 4826340730883800141 + 1 = 4826340730883800142 from rfl, v3]; norm_num
  · rw [e, v2, show 4826340730883800141 - 1 = 4826340730883800140 from rfl, v1]; norm_num
  · rw [e, v2, show 4826340730883800141 + 1 = 4826340730883800142 from rfl, v3]; norm_num
  · have := h.upper
    rw [e, v1, show 4826340730883800140 + 1 = 4826340730883800141 from rfl, v2] at this
    norm_num at this

/-! ### A number that is rejected -/

/-- `0x1.0000000000000001p-1075` -/
def tiny : Parts := ⟨16, [1], some [0, 0, 0, 0, 0, 0, 0, 0, 0, 0, 0, 0, 0, 0, 0, 1], some (true, [1, 0, 7, 5])⟩

theorem tiny_numeral : Numeral (Spec.bytes "0x1.0000000000000001p-1075") tiny := by
  rw [show Spec.bytes "0x1.0000000000000001p-1075" =
    [48, 120] ++ ([49] ++ ((46 :: [48, 48, 48, 48, 48, 48, 48, 48, 48, 48, 48, 48, 48, 48, 48, 49]) ++ (112 :: ([45] ++ [49, 48, 55, 53])))) by
      decide +kernel]
  exact .mk (base := 16) ⟨.inr (.inr ⟨rfl, .inl rfl⟩)⟩ (digitText _ _ _ (by decide +kernel))
    (.some (digitText _ _ _ (by decide +kernel)))
    (.some (by unfold Spec.isExpo; simp) ⟨.inr (.inr ⟨rfl, rfl⟩)⟩ (digitText _ _ _ (by decide +kernel)) (by decide)) (by decide)

/-- The literal `0x1.0000000000000001p-1075` is nearer to the least positive number than to zero, but is rejected as an
underflow, though `0x1.000000000000001p-1075` is not: a digit that does not fit into 64 bits is not considered here. -/
theorem C111_underflow_false : (∀ toks, Lexer.reload Source.realOf (Spec.bytes "0x1.0000000000000001p-1075") ≠ .ok toks) ∧
    Numeral (Spec.bytes "0x1.0000000000000001p-1075") tiny ∧ Nearest tiny.exact 1 ∧
    Lexer.reload Source.realOf (Spec.bytes "0x1.000000000000001p-1075") = .ok [.real 1] := by
  have e : tiny.exact = (1 / 2 + 1 / 2 ^ 65) * (2 : ℚ) ^ (-1074 : ℤ) := by
    have : tiny.exact = (2 ^ 64 + 1) * (2 : ℚ) ^ (-1139 : ℤ) := by
      have h1 : number tiny.base tiny.digits = 2 ^ 64 + 1 := by decide +kernel
      have h2 : tiny.written - tiny.step * ((tiny.frac.getD []).length : ℤ) = -1139 := by decide +kernel
      have h3 : tiny.radix = 2 := rfl
      unfold Parts.exact
      rw [h1, h2, h3]
      congr 1
      norm_num
    rw [this, show (-1074 : ℤ) = -1139 + ((65 : Nat) : ℤ) by norm_num, RealText.two_zpow_add]
    norm_num
    ring
  have hu := RealText.two_zpow_pos (-1074)
  have v : ∀ q : Nat, q ≤ 2 → value q = q * (2 : ℚ) ^ (-1074 : ℤ) := by
    intro q hq
    have := RealText.value_lin 1 q (by decide) (by omega) (.inl rfl)
    simpa using this
  have v0 := v 0 (by decide)
  have v1 := v 1 (by decide)
  have v2 := v 2 (by decide)
  have w0 : value (1 - 1) = 0 := by rw [show (1 - 1 : Nat) = 0 from rfl, v0]; simp
  have w1 : value 1 = (2 : ℚ) ^ (-1074 : ℤ) := by rw [v1]; simp
  have w2 : value (1 + 1) = 2 * (2 : ℚ) ^ (-1074 : ℤ) := by rw [show (1 + 1 : Nat) = 2 from rfl, v2]; simp
  generalize (2 : ℚ) ^ (-1074 : ℤ) = x at hu e w0 w1 w2
  refine ⟨fails (by decide +kernel), tiny_numeral, ⟨?_, ?_, fun _ => ⟨?_, ?_⟩⟩, gives (by decide +kernel)⟩
  · rw [e, w0, w1]; linarith
  · rw [e, w1, w2]; linarith
  · rw [e, w0, w1]; intro hc; linarith
  · rw [e, w1, w2]; intro hc; linarith

end Asteria.Lexer
