import Verif.Model.NumText
import Mathlib.Tactic.Linarith
import Mathlib.Tactic.Ring
import Mathlib.Data.Nat.Digits.Defs
import Mathlib.Data.List.Induction

/-! Lemmas about the text of integers. -/

namespace Asteria.NumText

/-- The value of a list of digits that follow the number `m`. -/
def valueOf (base m : Nat) (ds : List Nat) : Nat := ds.foldl (fun m d => m * base + d) m

theorem valueOf_append (base m : Nat) (a b : List Nat) :
    valueOf base m (a ++ b) = valueOf base (valueOf base m a) b := by
  simp [valueOf]

theorem valueOf_lin (base : Nat) (ds : List Nat) : ∀ m, valueOf base m ds = m * base ^ ds.length + valueOf base 0 ds := by
  induction ds with
  | nil => intro m; simp [valueOf]
  | cons d ds ih =>
    intro m
    have h1 := ih (m * base + d)
    have h2 := ih d
    simp only [valueOf, List.foldl_cons, List.length_cons, Nat.zero_mul, Nat.zero_add] at *
    rw [h1, h2]; ring

theorem le_valueOf (base m : Nat) (hb : 0 < base) (ds : List Nat) : m ≤ valueOf base m ds := by
  rw [valueOf_lin]
  have : 0 < base ^ ds.length := Nat.pow_pos hb
  nlinarith

theorem valueOf_zeros (base n : Nat) : valueOf base 0 (List.replicate n 0) = 0 := by
  induction n with
  | zero => rfl
  | succ n ih => simpa [List.replicate_succ, valueOf] using ih

theorem digits_spec (base : Nat) (hb : 2 ≤ base) : ∀ fuel v acc, v < base ^ fuel →
    ∃ ds : List Nat, digits base fuel v acc = ds.map digitChar ++ acc ∧ (∀ d ∈ ds, d < base) ∧
      valueOf base 0 ds = v ∧ (v ≠ 0 → ds ≠ []) := by
  intro fuel
  induction fuel with
  | zero =>
    intro v acc hv
    exact ⟨[], rfl, by simp, by simp at hv; simp [valueOf, hv], by simp at hv; simp [hv]⟩
  | succ n ih =>
    intro v acc hv
    unfold digits
    by_cases h0 : v = 0
    · exact ⟨[], by simp [h0], by simp, by simp [valueOf, h0], fun h => absurd h0 h⟩
    · rw [if_neg h0]
      have hlt : v / base < base ^ n := by
        rw [Nat.div_lt_iff_lt_mul (by omega)]; rwa [← Nat.pow_succ]
      obtain ⟨ds, e1, e2, e3, _⟩ := ih (v / base) (digitChar (v % base) :: acc) hlt
      refine ⟨ds ++ [v % base], ?_, ?_, ?_, ?_⟩
      · rw [e1]; simp
      · intro d hd
        rcases List.mem_append.1 hd with hd | hd
        · exact e2 d hd
        · simp at hd; subst hd; exact Nat.mod_lt _ (by omega)
      · rw [valueOf_append, e3]; simp only [valueOf, List.foldl_cons, List.foldl_nil]
        rw [Nat.mul_comm]; exact Nat.div_add_mod v base
      · simp

theorem writeDigits_spec (base v prec : Nat) (hb : 2 ≤ base) (hv : v < base ^ 64) (hp : 1 ≤ prec) :
    ∃ ds : List Nat, writeDigits base v prec = ds.map digitChar ∧ (∀ d ∈ ds, d < base) ∧
      valueOf base 0 ds = v ∧ ds ≠ [] := by
  obtain ⟨ds, e1, e2, e3, e4⟩ := digits_spec base hb 64 v [] hv
  refine ⟨List.replicate (prec - ds.length) 0 ++ ds, ?_, ?_, ?_, ?_⟩
  · unfold writeDigits
    simp only [e1, List.append_nil, List.map_append, List.map_replicate, List.length_map]
    rfl
  · intro d hd
    rcases List.mem_append.1 hd with hd | hd
    · have := List.eq_of_mem_replicate hd; omega
    · exact e2 d hd
  · rw [valueOf_append, valueOf_zeros, e3]
  · intro h
    have := congrArg List.length h
    simp at this
    rcases ds with _ | ⟨d, ds⟩
    · simp at this; omega
    · simp at this

/-- What the reader makes of each character that the writer gives. -/
theorem digitChar_spec (d : Nat) (hd : d < 16) :
    digitValue (digitChar d) = d ∧ digitChar d ≠ 46 ∧ isSpace (digitChar d) = false ∧ digitChar d ≠ 43 ∧
      digitChar d ≠ 45 ∧ digitChar d ≠ 110 ∧ digitChar d ≠ 78 ∧ digitChar d ≠ 105 ∧ digitChar d ≠ 73 ∧
      (d < 10 → isDec (digitChar d) = true ∧ (digitChar d ||| 0x20) ≠ 98 ∧ (digitChar d ||| 0x20) ≠ 120) := by
  have : ∀ d : Fin 16, digitValue (digitChar d) = d ∧ digitChar d ≠ 46 ∧ isSpace (digitChar d) = false ∧
      digitChar d ≠ 43 ∧ digitChar d ≠ 45 ∧ digitChar d ≠ 110 ∧ digitChar d ≠ 78 ∧ digitChar d ≠ 105 ∧
      digitChar d ≠ 73 ∧ (d.val < 10 → isDec (digitChar d) = true ∧ (digitChar d ||| 0x20) ≠ 98 ∧
      (digitChar d ||| 0x20) ≠ 120) := by decide +kernel
  exact this ⟨d, hd⟩

/-- A text that does not go on with a digit. -/
def Stops (base : Nat) : Bytes → Prop
  | [] => True
  | c :: _ => c ≠ 46 ∧ base ≤ digitValue c

theorem collectLoop_digits (base : Nat) (hb : 2 ≤ base) (hb' : base ≤ 16) (tail : Bytes) (ht : Stops base tail) :
    ∀ (ds : List Nat) (m : Nat) (val : Bool), (∀ d ∈ ds, d < base) → valueOf base m ds < 2 ^ 64 →
      (val = true ∨ ds ≠ []) →
      collectLoop base (some 46) (ds.map digitChar ++ tail) ⟨0, m, false, val, false, false⟩ =
        (⟨0, valueOf base m ds, false, true, false, false⟩, tail) := by
  intro ds
  induction ds with
  | nil =>
    intro m val _ hv hval
    have hval : val = true := by simpa using hval
    subst hval
    cases tail with
    | nil => simp [collectLoop, valueOf]
    | cons c cs =>
      obtain ⟨h1, h2⟩ := ht
      simp only [List.map_nil, List.nil_append]
      unfold collectLoop
      rw [if_neg (by simp [h1])]
      simp only
      rw [if_pos h2]
      simp [valueOf]
  | cons d ds ih =>
    intro m val hd hv _
    have hdb : d < base := hd d (by simp)
    obtain ⟨h1, h2, _⟩ := digitChar_spec d (by omega)
    have hle := le_valueOf base (m * base + d) (by omega) ds
    have hv' : valueOf base (m * base + d) ds < 2 ^ 64 := by simpa [valueOf] using hv
    have hm : m * base % 2 ^ 64 = m * base := Nat.mod_eq_of_lt (by omega)
    simp only [List.map_cons, List.cons_append]
    unfold collectLoop
    rw [if_neg (by simp [h2])]
    simp only [h1]
    rw [if_neg (by omega)]
    simp only [hm]
    have d1 : decide (m * base ≥ 2 ^ 64) = false := by simp; omega
    have d2 : decide (m * base + d ≥ 2 ^ 64) = false := by simp; omega
    simp only [d1, d2, Bool.or_false, Bool.false_eq_true, if_false]
    rw [Nat.mod_eq_of_lt (show m * base + d < 2 ^ 64 by omega)]
    rw [ih (m * base + d) true (fun x hx => hd x (by simp [hx])) hv' (Or.inl rfl)]
    simp [valueOf]

theorem bmod_small (x : Int) (h1 : -2 ^ 63 ≤ x) (h2 : x < 2 ^ 63) : Int.bmod x (2 ^ 64) = x := by
  apply Int.bmod_eq_of_le <;> norm_num <;> omega

theorem exponentLoop_digits : ∀ (ds : List Nat) (m : Nat), (∀ d ∈ ds, d < 10) → valueOf 10 m ds < 2 ^ 63 →
    exponentLoop false 0 (ds.map digitChar) m false = (((valueOf 10 m ds : Nat) : Int), false, []) := by
  intro ds
  induction ds with
  | nil => intro m _ _; simp [exponentLoop, valueOf]
  | cons d ds ih =>
    intro m hd hv
    have hdb : d < 10 := hd d (by simp)
    obtain ⟨h1, _⟩ := digitChar_spec d (by omega)
    have hle := le_valueOf 10 (m * 10 + d) (by omega) ds
    have hv' : valueOf 10 (m * 10 + d) ds < 2 ^ 63 := by simpa [valueOf] using hv
    have b1 : Int.bmod (((m : Int) - 0) * 10) (2 ^ 64) = (m : Int) * 10 := by
      rw [Int.sub_zero]; exact bmod_small _ (by omega) (by omega)
    have b2 : Int.bmod ((m : Int) * 10 + ((d : Int) + 0)) (2 ^ 64) = ((m * 10 + d : Nat) : Int) := by
      rw [bmod_small _ (by omega) (by omega)]; push_cast; ring
    simp only [List.map_cons]
    unfold exponentLoop
    simp only [h1]
    rw [if_neg (by omega)]
    simp only [b1, b2, Bool.false_eq_true, if_false]
    have d1 : decide (((m : Int) - 0) * 10 ≠ (m : Int) * 10) = false := by simp
    have d2 : decide ((m : Int) * 10 + ((d : Int) + 0) ≠ ((m * 10 + d : Nat) : Int)) = false := by
      simp
    rw [d1, d2]
    simp only [Bool.or_false]
    rw [ih (m * 10 + d) (fun x hx => hd x (by simp [hx])) hv']
    simp [valueOf]

/-- The text of an exponent, or nothing. -/
def expText (base : Nat) : Option (List Nat) → Bytes
  | none => []
  | some es => (if base = 10 then 101 else 112) :: 43 :: es.map digitChar

/-- The value of an exponent. -/
def expValue : Option (List Nat) → Nat
  | none => 0
  | some es => valueOf 10 0 es

theorem stops_expText (base : Nat) (h : base = 2 ∨ base = 10 ∨ base = 16) (e : Option (List Nat)) :
    Stops base (expText base e) := by
  cases e with
  | none => trivial
  | some es => rcases h with rfl | rfl | rfl <;> simp [expText, Stops] <;> decide +kernel

theorem collectDigits_text (base : Nat) (h : base = 2 ∨ base = 10 ∨ base = 16) (ds : List Nat)
    (hd : ∀ d ∈ ds, d < base) (hne : ds ≠ []) (hv : valueOf base 0 ds < 2 ^ 64) (e : Option (List Nat))
    (he : ∀ es, e = some es → es ≠ [] ∧ (∀ d ∈ es, d < 10) ∧ valueOf 10 0 es < 2 ^ 63) :
    collectDigits base (some 46) (ds.map digitChar ++ expText base e) =
      (⟨expValue e, valueOf base 0 ds, false, true, false, false⟩, []) := by
  have hb : 2 ≤ base ∧ base ≤ 16 := by omega
  have hl := collectLoop_digits base hb.1 hb.2 (expText base e) (stops_expText base h e) ds 0 false hd hv (Or.inr hne)
  unfold collectDigits
  simp only [hl]
  have hx : (if base = 16 then (⟨0 * 4, valueOf base 0 ds, false, true, false, false⟩ : XUInt)
      else ⟨0, valueOf base 0 ds, false, true, false, false⟩) = ⟨0, valueOf base 0 ds, false, true, false, false⟩ := by
    split <;> simp
  simp only [hx]
  cases e with
  | none => simp [expText, expValue]
  | some es =>
    obtain ⟨hne', hd', hv'⟩ := he es rfl
    rcases es with _ | ⟨d, es⟩
    · exact absurd rfl hne'
    · have hloop := exponentLoop_digits (d :: es) 0 hd' hv'
      obtain ⟨_, _, _, _, _, _, _, _, _, h10⟩ := digitChar_spec d (by have := hd' d (by simp); omega)
      have hdec := (h10 (hd' d (by simp))).1
      have hor : ((if base = 10 then 101 else 112 : UInt8) ||| 0x20) = (if base = 10 then 101 else 112) := by
        split <;> decide
      simp only [expText, List.map_cons, hor]
      rw [if_neg (by decide)]
      simp only [hdec]
      rw [if_pos (by simp)]
      simp only [List.map_cons, Nat.cast_zero] at hloop
      have d0 : decide ((43 : UInt8) = 45) = false := by decide
      simp only [d0, hloop, Bool.false_eq_true, if_false, expValue]

/-- The prefix of each base. -/
def prefixText (base : Nat) : Bytes := if base = 2 then [48, 98] else if base = 16 then [48, 120] else []

/-- The text of a number: a sign, a prefix, digits and an exponent. -/
def numText (base : Nat) (neg : Bool) (ds : List Nat) (e : Option (List Nat)) : Bytes :=
  (if neg then [45] else []) ++ (prefixText base ++ (ds.map digitChar ++ expText base e))

theorem getSpecial_none (c : UInt8) (s : Bytes) (h1 : c ≠ 110) (h2 : c ≠ 78) (h3 : c ≠ 105) (h4 : c ≠ 73) :
    getSpecial (c :: s) = none := by
  simp [getSpecial, subseq, List.isPrefixOf, h1.symm, h2.symm, h3.symm, h4.symm]

theorem parseBase_of_collect (base : Nat) (h : base = 2 ∨ base = 10 ∨ base = 16) (neg : Bool) (ds : List Nat)
    (hd : ∀ d ∈ ds, d < base) (hne : ds ≠ []) (e : Option (List Nat)) (xu : XUInt) (rest : Bytes)
    (hc : collectDigits base (some 46) (ds.map digitChar ++ expText base e) = (xu, rest)) (hvalid : xu.valid = true) :
    parseBase base (numText base neg ds e) =
      some (⟨false, neg, if base = 10 then 10 else 2, xu.exp, xu.mant, xu.more⟩, rest) := by
  obtain ⟨d, ds', rfl⟩ := List.exists_cons_of_ne_nil hne
  obtain ⟨_, _, _, s1, s2, s3, s4, s5, s6, _⟩ := digitChar_spec d (by have := hd d (by simp); omega)
  have hsign : getSign (numText base neg (d :: ds') e) =
      (neg, prefixText base ++ ((d :: ds').map digitChar ++ expText base e)) := by
    unfold numText
    cases neg with
    | true => rfl
    | false =>
      rcases h with rfl | rfl | rfl
      · rfl
      · simp only [prefixText, List.map_cons, List.cons_append]
        simp [getSign, s1, s2]
      · rfl
  have hspec : getSpecial (prefixText base ++ ((d :: ds').map digitChar ++ expText base e)) = none := by
    rcases h with rfl | rfl | rfl
    · exact getSpecial_none 48 _ (by decide) (by decide) (by decide) (by decide)
    · exact getSpecial_none (digitChar d) _ s3 s4 s5 s6
    · exact getSpecial_none 48 _ (by decide) (by decide) (by decide) (by decide)
  have hskip : (if base = 2 then skipPrefix 98 (prefixText base ++ ((d :: ds').map digitChar ++ expText base e))
      else if base = 16 then skipPrefix 120 (prefixText base ++ ((d :: ds').map digitChar ++ expText base e))
      else prefixText base ++ ((d :: ds').map digitChar ++ expText base e)) =
      (d :: ds').map digitChar ++ expText base e := by
    rcases h with rfl | rfl | rfl
    · simp only [prefixText, if_true]; rfl
    · rfl
    · simp only [prefixText, if_true]; rfl
  unfold parseBase
  simp only [hsign, hspec, hskip, hc, hvalid, if_true]

theorem prefixBase_dec (d : Nat) (s : Bytes) (hs : ∀ c s', s = c :: s' → (c ||| 0x20) ≠ 98 ∧ (c ||| 0x20) ≠ 120) :
    prefixBase (digitChar d :: s) = none := by
  cases s with
  | nil => rfl
  | cons c s' =>
    obtain ⟨h1, h2⟩ := hs c s' rfl
    simp [prefixBase, h1, h2]

theorem parseD_base (base : Nat) (h : base = 2 ∨ base = 10 ∨ base = 16) (neg : Bool) (ds : List Nat)
    (hd : ∀ d ∈ ds, d < base) (hne : ds ≠ []) (e : Option (List Nat)) :
    parseD (numText base neg ds e) = parseBase base (numText base neg ds e) := by
  rcases h with rfl | rfl | rfl
  · cases neg <;> rfl
  · obtain ⟨d, ds', rfl⟩ := List.exists_cons_of_ne_nil hne
    have hd0 : d < 10 := hd d (by simp)
    obtain ⟨_, _, _, s1, s2, _⟩ := digitChar_spec d (by omega)
    have hp : prefixBase (digitChar d :: (ds'.map digitChar ++ expText 10 e)) = none := by
      apply prefixBase_dec d
      intro c s' hc
      rcases ds' with _ | ⟨d', ds'⟩
      · cases e with
        | none => simp [expText] at hc
        | some es => simp [expText] at hc; rw [← hc.1]; decide
      · simp at hc
        obtain ⟨_, _, _, _, _, _, _, _, _, h10⟩ := digitChar_spec d' (by have := hd d' (by simp); omega)
        rw [← hc.1]; exact (h10 (hd d' (by simp))).2
    cases neg with
    | false =>
      have hp' : numText 10 false (d :: ds') e = digitChar d :: (ds'.map digitChar ++ expText 10 e) := rfl
      rw [hp']
      unfold parseD
      simp only [hp, s1, s2, if_false, or_false]
    | true =>
      have hp0 : prefixBase (45 :: (digitChar d :: (ds'.map digitChar ++ expText 10 e))) = none := by
        simp [prefixBase]
      have hp' : numText 10 true (d :: ds') e = 45 :: (digitChar d :: (ds'.map digitChar ++ expText 10 e)) := rfl
      rw [hp']
      unfold parseD
      simp only [hp0, hp, if_true, or_true]
  · cases neg <;> rfl

theorem parseD_text (base : Nat) (h : base = 2 ∨ base = 10 ∨ base = 16) (neg : Bool) (ds : List Nat)
    (hd : ∀ d ∈ ds, d < base) (hne : ds ≠ []) (hv : valueOf base 0 ds < 2 ^ 64) (e : Option (List Nat))
    (he : ∀ es, e = some es → es ≠ [] ∧ (∀ d ∈ es, d < 10) ∧ valueOf 10 0 es < 2 ^ 63) :
    parseD (numText base neg ds e) =
      some (⟨false, neg, if base = 10 then 10 else 2, expValue e, valueOf base 0 ds, false⟩, []) := by
  rw [parseD_base base h neg ds hd hne e,
    parseBase_of_collect base h neg ds hd hne e _ _ (collectDigits_text base h ds hd hne hv e he) rfl]

theorem parseD_of_collect (base : Nat) (h : base = 2 ∨ base = 10 ∨ base = 16) (neg : Bool) (ds : List Nat)
    (hd : ∀ d ∈ ds, d < base) (hne : ds ≠ []) (x : Int) (m : Nat) (more ov : Bool)
    (hc : collectDigits base (some 46) (ds.map digitChar) = (⟨x, m, false, true, more, ov⟩, [])) :
    parseD (numText base neg ds none) = some (⟨false, neg, if base = 10 then 10 else 2, x, m, more⟩, []) := by
  rw [parseD_base base h neg ds hd hne none,
    parseBase_of_collect base h neg ds hd hne none _ _ (by simpa [expText] using hc) rfl]

/-! ### The conversion -/

theorem raise_spec (base : Nat) : ∀ e bits, bits * base ^ e < 2 ^ 64 → 1 ≤ base →
    raise base e bits = (bits * base ^ e, false) := by
  intro e
  induction e with
  | zero => intro bits _ _; simp [raise]
  | succ e ih =>
    intro bits h hb
    unfold raise
    have h1 : bits * base ^ (e + 1) = bits * base * base ^ e := by rw [Nat.pow_succ]; ring
    have h2 : bits * base ≤ bits * base * base ^ e := Nat.le_mul_of_pos_right _ (Nat.pow_pos hb)
    rw [if_neg (by omega)]
    by_cases he : e = 0
    · rw [if_pos he]; subst he; simp
    · rw [if_neg he, ih _ (by omega) hb, h1]

theorem toInt_pos (n : Nat) (h : n < 2 ^ 63) :
    ((BitVec.ofNat 64 n - 0x7FFFFFFFFFFFFFFF#64 + 0x7FFFFFFFFFFFFFFF#64) ^^^ 0x7FFFFFFFFFFFFFFF#64
      ^^^ 0x7FFFFFFFFFFFFFFF#64).toInt = n := by
  rw [BitVec.sub_add_cancel, BitVec.xor_assoc, BitVec.xor_self, BitVec.xor_zero, BitVec.toInt_ofNat']
  norm_num
  rw [Int.bmod_eq_of_le (by omega) (by omega)]

theorem toInt_neg (n : Nat) (h : n ≤ 2 ^ 63) :
    ((BitVec.ofNat 64 n - 0x8000000000000000#64 + 0x7FFFFFFFFFFFFFFF#64) ^^^ 0x7FFFFFFFFFFFFFFF#64
      ^^^ 0x8000000000000000#64).toInt = -n := by
  have e : BitVec.ofNat 64 n - 0x8000000000000000#64 + 0x7FFFFFFFFFFFFFFF#64 = BitVec.ofNat 64 n - 1#64 := by
    rw [BitVec.sub_eq_add_neg, BitVec.sub_eq_add_neg, BitVec.add_assoc]; rfl
  have e2 : (0x7FFFFFFFFFFFFFFF#64 ^^^ 0x8000000000000000#64) = BitVec.allOnes 64 := by decide
  rw [e, BitVec.xor_assoc, e2, BitVec.xor_allOnes]
  have e3 : ~~~(BitVec.ofNat 64 n - 1#64) = -BitVec.ofNat 64 n := by
    rw [BitVec.not_sub_one_eq_not_add_one, ← BitVec.neg_eq_not_add]
  rw [e3, BitVec.toInt_neg, BitVec.toInt_ofNat']
  by_cases hn : n = 2 ^ 63
  · subst hn; decide
  · norm_num
    rw [Int.bmod_eq_of_le (by omega) (by omega)]

theorem castI_spec (neg : Bool) (base m e : Nat) (hb : 1 ≤ base) (he : e ≤ 10000)
    (h : m * base ^ e ≤ if neg then 2 ^ 63 else 2 ^ 63 - 1) :
    castI ⟨false, neg, base, e, m, false⟩ =
      .ok ⟨if neg then -((m * base ^ e : Nat) : Int) else (m * base ^ e : Nat), false, false, false⟩ := by
  unfold castI
  simp only [Bool.false_eq_true, if_false]
  by_cases hm : m = 0
  · subst hm; simp
  · rw [if_neg hm, if_neg (show ¬ ((e : Int) < -10000) by omega), if_neg (show ¬ ((e : Int) > 10000) by omega)]
    have hlt : m * base ^ e < 2 ^ 64 := by split at h <;> omega
    have hr : (if (e : Int) > 0 then raise base (e : Int).toNat m else (m, false)) = (m * base ^ e, false) := by
      split
      · rw [Int.toNat_natCast]; exact raise_spec base e m hlt hb
      · have : e = 0 := by omega
        subst this; simp
    have hpos : 0 < m * base ^ e := Nat.mul_pos (by omega) (Nat.pow_pos hb)
    rw [hr]
    simp only [Bool.false_eq_true, if_false]
    rw [if_neg (show ¬ (e : Int) < 0 by omega)]
    simp only
    rw [if_neg (by omega)]
    generalize m * base ^ e = n at *
    cases neg with
    | true =>
      simp only [if_true] at h ⊢
      rw [if_neg (by simp; omega), toInt_neg n h, if_neg (by omega)]
    | false =>
      simp only [Bool.false_eq_true, if_false] at h ⊢
      rw [if_neg (by simp; omega), toInt_pos n (by omega), if_neg (by omega)]

/-! ### Trimming -/

theorem dropWhile_space_append (ws s : Bytes) (h : ∀ c ∈ ws, isSpace c = true) :
    (ws ++ s).dropWhile isSpace = s.dropWhile isSpace := by
  induction ws with
  | nil => rfl
  | cons c cs ih =>
    rw [List.cons_append, List.dropWhile_cons, if_pos (h c (by simp))]
    exact ih fun x hx => h x (by simp [hx])

theorem dropWhile_none (s : Bytes) (h : ∀ c ∈ s, isSpace c = false) : s.dropWhile isSpace = s := by
  cases s with
  | nil => rfl
  | cons c cs => rw [List.dropWhile_cons, if_neg (by simp [h c (by simp)])]

theorem trim_spec (w1 s w2 : Bytes) (h1 : ∀ c ∈ w1, isSpace c = true) (h2 : ∀ c ∈ w2, isSpace c = true)
    (hs : ∀ c ∈ s, isSpace c = false) (hne : s ≠ []) : trim (w1 ++ s ++ w2) = s := by
  unfold trim
  rw [List.append_assoc, dropWhile_space_append w1 _ h1]
  obtain ⟨c, cs, rfl⟩ := List.exists_cons_of_ne_nil hne
  rw [List.cons_append, List.dropWhile_cons, if_neg (by simp [hs c (by simp)]), ← List.cons_append, List.reverse_append,
    dropWhile_space_append w2.reverse _ (by simpa using h2), dropWhile_none _ (fun x hx => hs x (List.mem_reverse.1 hx)), List.reverse_reverse]

theorem numText_bytes (base : Nat) (h : base = 2 ∨ base = 10 ∨ base = 16) (neg : Bool) (ds : List Nat)
    (hd : ∀ d ∈ ds, d < base) (e : Option (List Nat)) (he : ∀ es, e = some es → ∀ d ∈ es, d < 10) :
    ∀ c ∈ numText base neg ds e, isSpace c = false ∧ c ≠ 46 := by
  intro c hc
  have hdig : ∀ (l : List Nat), (∀ d ∈ l, d < 16) → ∀ c ∈ l.map digitChar, isSpace c = false ∧ c ≠ 46 := by
    intro l hl c hc
    obtain ⟨d, hd, rfl⟩ := List.mem_map.1 hc
    have := digitChar_spec d (hl d hd)
    exact ⟨this.2.2.1, this.2.1⟩
  unfold numText at hc
  rcases List.mem_append.1 hc with hc | hc
  · cases neg <;> simp at hc
    subst hc; decide
  · rcases List.mem_append.1 hc with hc | hc
    · rcases h with rfl | rfl | rfl <;> simp [prefixText] at hc <;> rcases hc with rfl | rfl <;> decide
    · rcases List.mem_append.1 hc with hc | hc
      · exact hdig ds (fun d hx => by have := hd d hx; omega) c hc
      · cases e with
        | none => simp [expText] at hc
        | some es =>
          simp only [expText, List.mem_cons] at hc
          rcases hc with rfl | rfl | hc
          · split <;> decide
          · decide
          · exact hdig es (fun d hx => by have := he es rfl d hx; omega) c hc

/-- Reading the text of a number gives the number, when it is an `int64_t`. -/
theorem parse_numText (base : Nat) (h : base = 2 ∨ base = 10 ∨ base = 16) (neg : Bool) (ds : List Nat)
    (hd : ∀ d ∈ ds, d < base) (hne : ds ≠ []) (e : Option (List Nat))
    (he : ∀ es, e = some es → es ≠ [] ∧ (∀ d ∈ es, d < 10)) (he' : expValue e ≤ 10000)
    (hv : valueOf base 0 ds * (if base = 10 then 10 else 2) ^ expValue e ≤ if neg then 2 ^ 63 else 2 ^ 63 - 1)
    (w1 w2 : Bytes) (h1 : ∀ c ∈ w1, isSpace c = true) (h2 : ∀ c ∈ w2, isSpace c = true) :
    parse (w1 ++ numText base neg ds e ++ w2) = .ok (.int (if neg then
      -((valueOf base 0 ds * (if base = 10 then 10 else 2) ^ expValue e : Nat) : Int)
      else (valueOf base 0 ds * (if base = 10 then 10 else 2) ^ expValue e : Nat))) := by
  have hB : 1 ≤ (if base = 10 then 10 else 2) := by split <;> omega
  have hvlt : valueOf base 0 ds < 2 ^ 64 := by
    have := Nat.le_mul_of_pos_right (valueOf base 0 ds) (Nat.pow_pos hB : 0 < (if base = 10 then 10 else 2) ^ expValue e)
    have h3 : (if neg then 2 ^ 63 else 2 ^ 63 - 1 : Nat) ≤ 2 ^ 63 := by split <;> omega
    omega
  have hb := numText_bytes base h neg ds hd e (fun es hes => (he es hes).2)
  have hne' : numText base neg ds e ≠ [] := by
    intro h0
    have := congrArg List.length h0
    obtain ⟨d, ds', rfl⟩ := List.exists_cons_of_ne_nil hne
    simp [numText] at this
  have hp := parseD_text base h neg ds hd hne hvlt e (fun es hes => ⟨(he es hes).1, (he es hes).2, by
    subst hes; simp only [expValue] at he'; omega⟩)
  have hsp : ∀ c : UInt8, isSpace c = true → c ≠ 46 := by
    intro c hc h; subst h; revert hc; decide
  unfold parse
  simp only
  rw [trim_spec w1 _ w2 h1 h2 (fun c hc => (hb c hc).1) hne', if_neg hne', hp]
  simp only
  rw [if_neg (by
    simp only [List.mem_append, not_or]
    exact ⟨⟨fun hm => hsp _ (h1 _ hm) rfl, fun hm => (hb _ hm).2 rfl⟩, fun hm => hsp _ (h2 _ hm) rfl⟩),
    castI_spec neg _ _ _ hB he' hv]
  simp

/-! ### Writing -/

theorem absValue_spec (x : Int) (h1 : -2 ^ 63 ≤ x) (h2 : x < 2 ^ 63) : absValue x = x.natAbs := by
  unfold absValue; omega

theorem decompose_spec (b : Int) : ∀ fuel x e, ∃ (m : Int) (k : Nat),
    decompose b fuel x e = (m, e + k) ∧ x = m * b ^ k ∧ k ≤ fuel := by
  intro fuel
  induction fuel with
  | zero => intro x e; exact ⟨x, 0, by simp [decompose], by simp, le_refl _⟩
  | succ n ih =>
    intro x e
    unfold decompose
    by_cases h0 : x = 0
    · exact ⟨x, 0, by simp [h0], by simp, by omega⟩
    · rw [if_neg h0]
      by_cases h1 : x.tmod b ≠ 0
      · exact ⟨x, 0, by simp [h1], by simp, by omega⟩
      · rw [if_neg h1]
        obtain ⟨m, k, e1, e2, e3⟩ := ih (x.tdiv b) (e + 1)
        refine ⟨m, k + 1, by rw [e1]; congr 1; omega, ?_, by omega⟩
        have := Int.tdiv_mul_cancel (Int.dvd_of_tmod_eq_zero (not_not.1 h1))
        rw [← this, e2]; ring

theorem natAbs_cases (x : Int) : (if decide (x < 0) then -((x.natAbs : Nat) : Int) else (x.natAbs : Nat)) = x := by
  by_cases h : x < 0 <;> simp only [h, decide_true, decide_false, if_true, Bool.false_eq_true, if_false] <;> omega

theorem putI_text (base : Nat) (h : base = 2 ∨ base = 10 ∨ base = 16) (x : Int) (h1 : -2 ^ 63 ≤ x) (h2 : x < 2 ^ 63)
    (prec : Nat) (hp : 1 ≤ prec) :
    ∃ ds : List Nat, (if base = 2 then putBI x prec else if base = 16 then putXI x prec else putDI x prec) =
      numText base (decide (x < 0)) ds none ∧ (∀ d ∈ ds, d < base) ∧ ds ≠ [] ∧ valueOf base 0 ds = x.natAbs := by
  have ha := absValue_spec x h1 h2
  have hlt : x.natAbs < 2 ^ 64 := by omega
  have key : ∀ p, 1 ≤ p → ∃ ds : List Nat, writeDigits base (absValue x) p = ds.map digitChar ∧ (∀ d ∈ ds, d < base) ∧
      valueOf base 0 ds = absValue x ∧ ds ≠ [] := fun p hp => writeDigits_spec base (absValue x) p (by omega) (by
    rw [ha]; exact lt_of_lt_of_le hlt (Nat.pow_le_pow_left (by omega) 64)) hp
  have neg : (if x < 0 then [45] else []) = (if decide (x < 0) then [45] else [] : Bytes) := by simp
  rcases h with rfl | rfl | rfl
  · obtain ⟨ds, e1, e2, e3, e4⟩ := key (min prec 64) (by omega)
    refine ⟨ds, ?_, e2, e4, by rw [e3, ha]⟩
    simp only [if_true]
    unfold putBI numText
    rw [e1, neg]; simp [prefixText, expText]
  · obtain ⟨ds, e1, e2, e3, e4⟩ := key (min prec 20) (by omega)
    refine ⟨ds, ?_, e2, e4, by rw [e3, ha]⟩
    rw [if_neg (by decide), if_neg (by decide)]
    unfold putDI numText
    rw [e1, neg]; simp [prefixText, expText]
  · obtain ⟨ds, e1, e2, e3, e4⟩ := key (min prec 16) (by omega)
    refine ⟨ds, ?_, e2, e4, by rw [e3, ha]⟩
    rw [if_neg (by decide), if_pos rfl]
    unfold putXI numText
    rw [e1, neg]; simp [prefixText, expText]

theorem exponent_text (k : Nat) (hk : k < 2 ^ 63) (delim : UInt8) : ∃ es : List Nat,
    exponent delim k = delim :: 43 :: es.map digitChar ∧ es ≠ [] ∧ (∀ d ∈ es, d < 10) ∧ valueOf 10 0 es = k := by
  obtain ⟨es, e1, e2, e3, e4⟩ := putI_text 10 (by decide) k (by omega) (by omega) 2 (by decide)
  rw [if_neg (by decide), if_neg (by decide)] at e1
  refine ⟨es, ?_, e3, e2, by simpa using e4⟩
  unfold exponent
  rw [e1]
  have : decide ((k : Int) < 0) = false := by simp
  simp [numText, this, prefixText, expText]

/-! ### Numbers that are too large -/

theorem collectLoop_over (base : Nat) (hb' : base ≤ 16) : ∀ (ds : List Nat) (x : Int) (m : Nat) (more : Bool),
    (∀ d ∈ ds, d < base) → ∃ more', collectLoop base (some 46) (ds.map digitChar) ⟨x, m, false, true, more, true⟩ =
      (⟨x + ds.length, m, false, true, more', true⟩, []) := by
  intro ds
  induction ds with
  | nil => intro x m more _; exact ⟨more, by simp [collectLoop]⟩
  | cons d ds ih =>
    intro x m more hd
    have hdb : d < base := hd d (by simp)
    obtain ⟨h1, h2, _⟩ := digitChar_spec d (by omega)
    obtain ⟨more', h⟩ := ih (x + 1) m (more || decide (d ≠ 0)) (fun y hy => hd y (by simp [hy]))
    refine ⟨more', ?_⟩
    simp only [List.map_cons]
    unfold collectLoop
    rw [if_neg (by simp [h2])]
    simp only [h1]
    rw [if_neg (by omega)]
    simp only [Bool.true_or, if_true, Bool.false_eq_true, if_false]
    rw [h]
    simp only [List.length_cons, Prod.mk.injEq, XUInt.mk.injEq, and_true]
    push_cast; omega

theorem collectLoop_large (base : Nat) (hb : 2 ≤ base) (hb' : base ≤ 16) :
    ∀ (ds : List Nat) (m : Nat) (val : Bool), (∀ d ∈ ds, d < base) → m < 2 ^ 64 → 2 ^ 64 ≤ valueOf base m ds →
      ∃ (k m' : Nat) (more : Bool), collectLoop base (some 46) (ds.map digitChar) ⟨0, m, false, val, false, false⟩ =
        (⟨k, m', false, true, more, true⟩, []) ∧ 1 ≤ k ∧ m' < 2 ^ 64 ∧ 2 ^ 64 < m' * base + base := by
  intro ds
  induction ds with
  | nil => intro m val _ hm hv; simp [valueOf] at hv; omega
  | cons d ds ih =>
    intro m val hd hm hv
    have hdb : d < base := hd d (by simp)
    obtain ⟨h1, h2, _⟩ := digitChar_spec d (by omega)
    have hv' : 2 ^ 64 ≤ valueOf base (m * base + d) ds := by simpa [valueOf] using hv
    simp only [List.map_cons]
    unfold collectLoop
    rw [if_neg (by simp [h2])]
    simp only [h1]
    rw [if_neg (by omega)]
    by_cases hlt : m * base + d < 2 ^ 64
    · have hm' : m * base % 2 ^ 64 = m * base := Nat.mod_eq_of_lt (by omega)
      have d1 : decide (m * base ≥ 2 ^ 64) = false := by simp; omega
      have d2 : decide (m * base + d ≥ 2 ^ 64) = false := by simp; omega
      simp only [hm', d1, d2, Bool.or_false, Bool.false_eq_true, if_false]
      rw [Nat.mod_eq_of_lt hlt]
      exact ih (m * base + d) true (fun x hx => hd x (by simp [hx])) hlt hv'
    · have hov : (false || decide (m * base ≥ 2 ^ 64) || decide (m * base % 2 ^ 64 + d ≥ 2 ^ 64)) = true := by
        by_cases h3 : m * base ≥ 2 ^ 64
        · rw [decide_eq_true h3]; simp
        · rw [Nat.mod_eq_of_lt (by omega)]; simp; right; omega
      simp only [hov, if_true, Bool.false_eq_true, if_false]
      obtain ⟨more', h⟩ := collectLoop_over base hb' ds (0 + 1) m (false || decide (d ≠ 0))
        (fun y hy => hd y (by simp [hy]))
      refine ⟨ds.length + 1, m, more', ?_, by omega, hm, by omega⟩
      rw [h]
      simp only [Prod.mk.injEq, XUInt.mk.injEq, and_true]
      push_cast; omega

theorem raise_cases (base : Nat) (hb : 1 ≤ base) : ∀ e bits, bits < 2 ^ 64 → (raise base e bits).2 = true ∨
    raise base e bits = (bits * base ^ e, false) := by
  intro e bits hlt
  by_cases h : bits * base ^ e < 2 ^ 64
  · exact Or.inr (raise_spec base e bits h hb)
  · left
    induction e generalizing bits with
    | zero => simp at h; omega
    | succ e ih =>
      unfold raise
      by_cases h1 : bits * base ≥ 2 ^ 64
      · rw [if_pos h1]
      · rw [if_neg h1]
        have h2 : bits * base ^ (e + 1) = bits * base * base ^ e := by rw [Nat.pow_succ]; ring
        by_cases he : e = 0
        · subst he; simp at h; omega
        · rw [if_neg he]; exact ih _ (by omega) (by rwa [h2] at h)

theorem castI_large (neg : Bool) (base m e : Nat) (more : Bool) (hb : 2 ≤ base) (hm : 0 < m) (hlt : m < 2 ^ 64)
    (h : (if neg then 2 ^ 63 else 2 ^ 63 - 1) < m * base ^ e) :
    ∃ r, castI ⟨false, neg, base, e, m, more⟩ = .ok r ∧ r.ovfl = true := by
  unfold castI
  simp only [Bool.false_eq_true, if_false]
  rw [if_neg (by omega), if_neg (show ¬ ((e : Int) < -10000) by omega)]
  by_cases he : (e : Int) > 10000
  · rw [if_pos he]; exact ⟨_, rfl, rfl⟩
  · rw [if_neg he]
    have hr : (if (e : Int) > 0 then raise base (e : Int).toNat m else (m, false)) = raise base e m := by
      split
      · rw [Int.toNat_natCast]
      · have : e = 0 := by omega
        subst this; simp [raise]
    rw [hr]
    rcases raise_cases base (by omega) e m hlt with h1 | h1
    · rw [if_pos h1]; exact ⟨_, rfl, rfl⟩
    · rw [h1]
      simp only [Bool.false_eq_true, if_false]
      rw [if_neg (show ¬ (e : Int) < 0 by omega)]
      simp only
      rw [if_neg (by omega), if_pos]
      · exact ⟨_, rfl, rfl⟩
      · cases neg <;> simp at h ⊢ <;> omega

theorem parseD_large (base : Nat) (h : base = 2 ∨ base = 10 ∨ base = 16) (neg : Bool) (ds : List Nat)
    (hd : ∀ d ∈ ds, d < base) (hne : ds ≠ []) (hv : (if neg then 2 ^ 63 else 2 ^ 63 - 1) < valueOf base 0 ds) :
    ∃ (g : NumGet) (r : Cast), parseD (numText base neg ds none) = some (g, []) ∧ castI g = .ok r ∧ r.ovfl = true := by
  by_cases hs : valueOf base 0 ds < 2 ^ 64
  · have hp := parseD_text base h neg ds hd hne hs none (fun es hes => by cases hes)
    obtain ⟨r, hr1, hr2⟩ := castI_large neg (if base = 10 then 10 else 2) (valueOf base 0 ds) 0 false
      (by split <;> omega) (by split at hv <;> omega) hs (by simpa using hv)
    exact ⟨_, r, hp, by simpa [expValue] using hr1, hr2⟩
  · obtain ⟨k, m, more, hl, hk, hm, hm2⟩ := collectLoop_large base (by omega) (by omega) ds 0 false hd (by omega) (by omega)
    have hc : collectDigits base (some 46) (ds.map digitChar) =
        (⟨((if base = 16 then k * 4 else k : Nat) : Int), m, false, true, more, true⟩, []) := by
      unfold collectDigits
      simp only [hl]
      split <;> simp
    have hp : parseD (numText base neg ds none) = some (⟨false, neg, if base = 10 then 10 else 2,
        ((if base = 16 then k * 4 else k : Nat) : Int), m, more⟩, []) := parseD_of_collect base h neg ds hd hne _ _ _ _ hc
    have hge : (if neg then 2 ^ 63 else 2 ^ 63 - 1) <
        m * (if base = 10 then 10 else 2) ^ (if base = 16 then k * 4 else k) := by
      have e1 : (if base = 10 then 10 else 2) ^ (if base = 16 then k * 4 else k) = base ^ k := by
        rcases h with rfl | rfl | rfl
        · rfl
        · rfl
        · simp only [if_true]
          rw [if_neg (by decide), Nat.mul_comm k 4, Nat.pow_mul]
      rw [e1]
      have e2 : base ≤ base ^ k := Nat.le_self_pow (by omega) base
      have e3 : m * base ≤ m * base ^ k := Nat.mul_le_mul_left m e2
      have : (if neg then 2 ^ 63 else 2 ^ 63 - 1 : Nat) ≤ 2 ^ 63 := by split <;> omega
      omega
    obtain ⟨r, hr1, hr2⟩ := castI_large neg (if base = 10 then 10 else 2) m _ more (by split <;> omega)
      (by rcases h with rfl | rfl | rfl <;> omega) hm hge
    exact ⟨_, r, hp, hr1, hr2⟩

theorem parse_large (base : Nat) (h : base = 2 ∨ base = 10 ∨ base = 16) (neg : Bool) (ds : List Nat)
    (hd : ∀ d ∈ ds, d < base) (hv : (if neg then 2 ^ 63 else 2 ^ 63 - 1) < valueOf base 0 ds)
    (w1 w2 : Bytes) (h1 : ∀ c ∈ w1, isSpace c = true) (h2 : ∀ c ∈ w2, isSpace c = true) :
    parse (w1 ++ numText base neg ds none ++ w2) = .ok .real := by
  have hne : ds ≠ [] := by
    intro h0; subst h0; simp [valueOf] at hv
  have hb := numText_bytes base h neg ds hd none (fun es hes => by cases hes)
  have hne' : numText base neg ds none ≠ [] := by
    intro h0
    have := congrArg List.length h0
    obtain ⟨d, ds', rfl⟩ := List.exists_cons_of_ne_nil hne
    simp [numText] at this
  have hsp : ∀ c : UInt8, isSpace c = true → c ≠ 46 := by
    intro c hc h; subst h; revert hc; decide
  obtain ⟨g, r, hp, hr1, hr2⟩ := parseD_large base h neg ds hd hne hv
  unfold parse
  simp only
  rw [trim_spec w1 _ w2 h1 h2 (fun c hc => (hb c hc).1) hne', if_neg hne', hp]
  simp only
  rw [if_neg (by
    simp only [List.mem_append, not_or]
    exact ⟨⟨fun hm => hsp _ (h1 _ hm) rfl, fun hm => (hb _ hm).2 rfl⟩, fun hm => hsp _ (h2 _ hm) rfl⟩), hr1]
  simp [hr2]

theorem valueOf_ofDigits (base : Nat) (ds : List Nat) : valueOf base 0 ds = Nat.ofDigits base ds.reverse := by
  induction ds using List.reverseRecOn with
  | nil => rfl
  | append_singleton ds d ih =>
    rw [valueOf_append, List.reverse_append, List.reverse_singleton, List.singleton_append, Nat.ofDigits_cons, ← ih]
    simp [valueOf, Nat.mul_comm, Nat.add_comm]

theorem digits_eq (base : Nat) (hb : 2 ≤ base) : ∀ fuel v acc, v < base ^ fuel →
    digits base fuel v acc = (Nat.digits base v).reverse.map digitChar ++ acc := by
  intro fuel
  induction fuel with
  | zero => intro v acc hv; simp at hv; simp [hv, digits]
  | succ n ih =>
    intro v acc hv
    unfold digits
    by_cases h0 : v = 0
    · simp [h0]
    · rw [if_neg h0, ih _ _ (by rw [Nat.div_lt_iff_lt_mul (by omega)]; rwa [← Nat.pow_succ]),
        Nat.digits_def' (n := v) (by omega) (by omega)]
      simp

theorem writeDigits_eq (base : Nat) (hb : 2 ≤ base) (v : Nat) (hv : v < base ^ 64) :
    writeDigits base v 1 = (if v = 0 then [0] else (Nat.digits base v).reverse).map digitChar := by
  unfold writeDigits
  rw [digits_eq base hb 64 v [] hv]
  by_cases h0 : v = 0
  · simp [h0]; rfl
  · rw [if_neg h0]
    have : 1 - (List.map digitChar (Nat.digits base v).reverse ++ []).length = 0 := by
      have : Nat.digits base v ≠ [] := Nat.digits_ne_nil_iff_ne_zero.2 h0
      have := List.length_pos_iff.2 this
      simp; omega
    simp only [this]
    simp

end Asteria.NumText
