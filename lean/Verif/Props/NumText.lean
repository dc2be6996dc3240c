import Verif.Proof.NumText

/-! # Integers as text: the properties

`format` is `std.numeric.format`, `parse` is `std.numeric.parse`. -/

namespace Asteria.NumText

/-- The range of `int64_t`. -/
def Int64 (x : Int) : Prop := -0x8000000000000000 ≤ x ∧ x ≤ 0x7FFFFFFFFFFFFFFF

/-- The character for each digit. -/
def charOf (d : Nat) : UInt8 := if d < 10 then UInt8.ofNat (48 + d) else UInt8.ofNat (55 + d)

/-- The usual notation of an integer: a minus sign, the prefix of the base, the digits with the most
significant one first (`Nat.digits` lists them the other way round). -/
def notation' (base : Nat) (x : Int) : Bytes :=
  (if x < 0 then [45] else []) ++ (if base = 2 then [48, 98] else if base = 16 then [48, 120] else []) ++
    (if x = 0 then [48] else (Nat.digits base x.natAbs).reverse.map charOf)

theorem charOf_eq (d : Nat) (h : d < 16) : digitChar d = charOf d := by
  have : ∀ d : Fin 16, digitChar d = charOf d := by decide +kernel
  exact this ⟨d, h⟩

theorem map_charOf (base : Nat) (hb : base ≤ 16) (ds : List Nat) (h : ∀ d ∈ ds, d < base) :
    ds.map digitChar = ds.map charOf := by
  apply List.map_congr_left
  intro d hd
  exact charOf_eq d (by have := h d hd; omega)

/-- What `format` gives without an exponent. -/
theorem C32_format (x : Int) (hx : Int64 x) (base : Nat) (hb : base = 2 ∨ base = 10 ∨ base = 16) :
    format x base none = .ok (notation' base x) := by
  obtain ⟨h1, h2⟩ := hx
  have ha := absValue_spec x (by omega) (by omega)
  have key : writeDigits base (absValue x) 1 =
      (if x = 0 then [48] else (Nat.digits base x.natAbs).reverse.map charOf) := by
    rw [writeDigits_eq base (by omega) _ (by
      rw [ha]; exact lt_of_lt_of_le (show x.natAbs < 2 ^ 64 by omega) (Nat.pow_le_pow_left (by omega) 64)), ha]
    by_cases h0 : x = 0
    · simp [h0]; rfl
    · rw [if_neg (by omega), if_neg h0]
      exact map_charOf base (by omega) _ fun d hd => Nat.digits_lt_base (by omega) (List.mem_reverse.1 hd)
  rcases hb with rfl | rfl | rfl
  · simp only [format, putBI, notation', ← key]; rfl
  · simp only [format, putDI, notation', ← key]; simp
  · simp only [format, putXI, notation', ← key]; rfl

theorem blank_isSpace (w : Bytes) (h : ∀ c ∈ w, c ∈ [32, 9, 10, 11, 12, 13]) : ∀ c ∈ w, isSpace c = true := by
  intro c hc
  have := h c hc
  simp only [List.mem_cons, List.not_mem_nil, or_false] at this
  rcases this with rfl | rfl | rfl | rfl | rfl | rfl <;> rfl

/-- Formatting an integer in base 2, 10 or 16 and reading the text back gives the integer, with any blank
characters around the text. -/
theorem C32_round_trip (x : Int) (hx : Int64 x) (base : Int) (hb : base = 2 ∨ base = 10 ∨ base = 16)
    (w1 w2 : Bytes) (h1 : ∀ c ∈ w1, c ∈ [32, 9, 10, 11, 12, 13]) (h2 : ∀ c ∈ w2, c ∈ [32, 9, 10, 11, 12, 13]) :
    ∃ text, format x base none = .ok text ∧ parse (w1 ++ text ++ w2) = .ok (.int x) := by
  obtain ⟨l, u⟩ := hx
  have key : ∀ b : Nat, b = 2 ∨ b = 10 ∨ b = 16 →
      parse (w1 ++ (if b = 2 then putBI x 1 else if b = 16 then putXI x 1 else putDI x 1) ++ w2) = .ok (.int x) := by
    intro b hb
    obtain ⟨ds, e1, e2, e3, e4⟩ := putI_text b hb x (by omega) (by omega) 1 (le_refl _)
    rw [e1, parse_numText b hb _ ds e2 e3 none (fun es hes => by cases hes) (by simp [expValue]) (by
      rw [e4]; simp only [expValue, Nat.pow_zero, Nat.mul_one]
      by_cases hn : x < 0 <;> simp [hn] <;> omega) w1 w2 (blank_isSpace w1 h1) (blank_isSpace w2 h2)]
    simp only [e4, expValue, Nat.pow_zero, Nat.mul_one, natAbs_cases]
  rcases hb with rfl | rfl | rfl
  · exact ⟨_, rfl, key 2 (by decide)⟩
  · exact ⟨_, rfl, key 10 (by decide)⟩
  · exact ⟨_, rfl, key 16 (by decide)⟩

/-- The same with an exponent: powers of two after binary and hexadecimal digits, powers of ten after decimal
digits. -/
theorem C32_round_trip_exponent (x : Int) (hx : Int64 x) (base : Int) (hb : base = 2 ∨ base = 10 ∨ base = 16) :
    ∃ text, format x base (some (if base = 10 then 10 else 2)) = .ok text ∧ parse text = .ok (.int x) := by
  obtain ⟨l, u⟩ := hx
  have key : ∀ b : Nat, b = 2 ∨ b = 10 ∨ b = 16 → ∀ (m : Int) (k : Nat), k ≤ 64 →
      x = m * (if b = 10 then 10 else 2) ^ k →
      parse ((if b = 2 then putBI m 1 else if b = 16 then putXI m 1 else putDI m 1) ++
        exponent (if b = 10 then 101 else 112) k) = .ok (.int x) := by
    intro b hb m k hk hxm
    have hB : (1 : Int) ≤ (if b = 10 then 10 else 2) ^ k := by
      have : (0 : Int) < (if b = 10 then 10 else 2) ^ k := by split <;> positivity
      omega
    have hnat : x.natAbs = m.natAbs * (if b = 10 then 10 else 2) ^ k := by
      rw [hxm, Int.natAbs_mul, Int.natAbs_pow]; congr 2; split <;> rfl
    have hle : m.natAbs ≤ x.natAbs := by
      rw [hnat]; exact Nat.le_mul_of_pos_right _ (Nat.pow_pos (by split <;> omega))
    have hsign : decide (m < 0) = decide (x < 0) := by
      have : m < 0 ↔ x < 0 := by
        rw [hxm]; constructor
        · intro h; nlinarith
        · intro h; by_contra hc; nlinarith
      simp [this]
    have hmr : -2 ^ 63 ≤ m ∧ m < 2 ^ 63 := by
      have : m < 0 ↔ x < 0 := by simpa using hsign
      omega
    obtain ⟨ds, e1, e2, e3, e4⟩ := putI_text b hb m hmr.1 hmr.2 1 (le_refl _)
    obtain ⟨es, f1, f2, f3, f4⟩ := exponent_text k (by omega) (if b = 10 then 101 else 112)
    have ht : numText b (decide (m < 0)) ds none ++ (if b = 10 then 101 else 112) :: 43 :: es.map digitChar =
        numText b (decide (m < 0)) ds (some es) := by
      simp [numText, expText]
    have hp := parse_numText b hb (decide (m < 0)) ds e2 e3 (some es) (fun es' hes => by
      cases hes; exact ⟨f2, f3⟩) (by simp only [expValue, f4]; omega) (by
      simp only [e4, expValue, f4, ← hnat, hsign]
      by_cases hn : x < 0 <;> simp [hn] <;> omega) [] [] (by simp) (by simp)
    rw [e1, f1, ht]
    simp only [List.nil_append, List.append_nil] at hp
    rw [hp]
    simp only [e4, expValue, f4, ← hnat, hsign, natAbs_cases]
  rcases hb with rfl | rfl | rfl
  · obtain ⟨m, k, e1, e2, e3⟩ := decompose_spec 2 64 x 0
    refine ⟨putBI m 1 ++ exponent 112 k, ?_, key 2 (by decide) m k e3 e2⟩
    simp [format, e1]
  · obtain ⟨m, k, e1, e2, e3⟩ := decompose_spec 10 64 x 0
    refine ⟨putDI m 1 ++ exponent 101 k, ?_, key 10 (by decide) m k e3 e2⟩
    simp [format, e1]
  · obtain ⟨m, k, e1, e2, e3⟩ := decompose_spec 2 64 x 0
    refine ⟨putXI m 1 ++ exponent 112 k, ?_, key 16 (by decide) m k e3 e2⟩
    simp [format, e1]

/-- Any other base, and any other base of the exponent, is an error. -/
theorem C32_bases (x base : Int) (ebase : Option Int) :
    format x base ebase = .throw ↔ ¬ (base = 2 ∨ base = 10 ∨ base = 16) ∨
      ∃ e, ebase = some e ∧ e ≠ if base = 10 then 10 else 2 := by
  by_cases h2 : base = 2
  · subst h2; cases ebase <;> simp [format]
  · by_cases h10 : base = 10
    · subst h10; cases ebase <;> simp [format]
    · by_cases h16 : base = 16
      · subst h16; cases ebase <;> simp [format]
      · simp [format, h2, h10, h16]

/-- Reading digits, of any number: the integer when it is an `int64_t`, otherwise a real number. -/
theorem C32_digits (base : Nat) (hb : base = 2 ∨ base = 10 ∨ base = 16) (neg : Bool) (ds : List Nat)
    (hd : ∀ d ∈ ds, d < base) (hne : ds ≠ []) (value : Int)
    (hvalue : value = (if neg then -1 else 1) * (Nat.ofDigits base ds.reverse : Nat)) :
    parse ((if neg then [45] else []) ++ (if base = 2 then [48, 98] else if base = 16 then [48, 120] else []) ++
      ds.map charOf) = .ok (if -0x8000000000000000 ≤ value ∧ value ≤ 0x7FFFFFFFFFFFFFFF then .int value else .real) := by
  have ht : (if neg then [45] else []) ++ (if base = 2 then [48, 98] else if base = 16 then [48, 120] else []) ++
      ds.map charOf = [] ++ numText base neg ds none ++ [] := by
    rw [← map_charOf base (by omega) ds hd]; simp [numText, prefixText, expText]
  rw [ht]
  rw [← valueOf_ofDigits] at hvalue
  by_cases hv : valueOf base 0 ds ≤ if neg then 2 ^ 63 else 2 ^ 63 - 1
  · rw [parse_numText base hb neg ds hd hne none (fun es hes => by cases hes) (by simp [expValue]) (by
      simpa [expValue] using hv) [] [] (by simp) (by simp)]
    simp only [expValue, Nat.pow_zero, Nat.mul_one]
    cases neg <;> simp at hv hvalue ⊢ <;> rw [if_pos (by omega), hvalue]
  · rw [parse_large base hb neg ds hd (by omega) [] [] (by simp) (by simp), if_neg]
    cases neg <;> simp at hv hvalue ⊢ <;> omega

/-! ### Cases -/

/-- The smallest integer in all notations. -/
example : Int64 (-0x8000000000000000) ∧
    format (-0x8000000000000000) 16 none = .ok "-0x8000000000000000".toUTF8.toList ∧
    format (-0x8000000000000000) 16 (some 2) = .ok "-0x1p+63".toUTF8.toList ∧
    parse "-0x1p+63".toUTF8.toList = .ok (.int (-0x8000000000000000)) ∧
    format 1200 10 (some 10) = .ok "12e+02".toUTF8.toList ∧
    parse "\t 12e+02\r\n".toUTF8.toList = .ok (.int 1200) := by
  refine ⟨by unfold Int64; omega, ?_⟩
  decide +kernel

/-- Integers next to the range, and text that is no number. -/
example : parse "9223372036854775807".toUTF8.toList = .ok (.int 9223372036854775807) ∧
    parse "9223372036854775808".toUTF8.toList = .ok .real ∧
    parse "-9223372036854775808".toUTF8.toList = .ok (.int (-9223372036854775808)) ∧
    parse "100000000000000000000000000000000000000000000".toUTF8.toList = .ok .real ∧
    parse " ".toUTF8.toList = .throw ∧ parse "12x".toUTF8.toList = .throw ∧ parse "".toUTF8.toList = .throw := by
  decide +kernel

end Asteria.NumText
