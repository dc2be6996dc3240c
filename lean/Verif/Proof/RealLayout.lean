import Verif.Model.RealText
import Verif.Proof.NumText

/-! The text of a real number is read back as the same decimal number. -/

namespace Asteria.RealText

open Asteria.NumText

/-- A radix point and the digits after it, or nothing. -/
def fracText (fs : List Nat) : Bytes := if fs = [] then [] else 46 :: fs.map digitChar

/-- An exponent: whether it is negative, and its digits; or nothing. -/
def expoText : Option (Bool × List Nat) → Bytes
  | none => []
  | some (neg, es) => 101 :: (if neg then 45 else 43) :: es.map digitChar

def expoValue : Option (Bool × List Nat) → Int
  | none => 0
  | some (neg, es) => if neg then -((valueOf 10 0 es : Nat) : Int) else (valueOf 10 0 es : Nat)

def realText (sign : Bool) (ds fs : List Nat) (e : Option (Bool × List Nat)) : Bytes :=
  (if sign then [45] else []) ++ (ds.map digitChar ++ (fracText fs ++ expoText e))

/-! ### Reading -/

theorem collectLoop_append (hp : Bool) (tail : Bytes) : ∀ (ds : List Nat) (x : Int) (m : Nat) (val : Bool),
    (∀ d ∈ ds, d < 10) → valueOf 10 m ds < 2 ^ 64 →
      collectLoop 10 (some 46) (ds.map digitChar ++ tail) ⟨x, m, hp, val, false, false⟩ =
        collectLoop 10 (some 46) tail
          ⟨x - (if hp then (ds.length : Int) else 0), valueOf 10 m ds, hp, val || !ds.isEmpty, false, false⟩ := by
  intro ds
  induction ds with
  | nil => intro x m val _ _; cases hp <;> simp [valueOf]
  | cons d ds ih =>
    intro x m val hd hv
    have hdb : d < 10 := hd d (by simp)
    obtain ⟨h1, h2, _⟩ := digitChar_spec d (by omega)
    have hle := le_valueOf 10 (m * 10 + d) (by omega) ds
    have hv' : valueOf 10 (m * 10 + d) ds < 2 ^ 64 := by simpa [valueOf] using hv
    have hm : m * 10 % 2 ^ 64 = m * 10 := Nat.mod_eq_of_lt (by omega)
    simp only [List.map_cons, List.cons_append]
    rw [collectLoop, if_neg (by simp [h2])]
    simp only [h1]
    rw [if_neg (by omega)]
    simp only [hm]
    have d1 : decide (m * 10 ≥ 2 ^ 64) = false := by simp; omega
    have d2 : decide (m * 10 + d ≥ 2 ^ 64) = false := by simp; omega
    simp only [d1, d2, Bool.or_false, Bool.false_eq_true, if_false]
    rw [Nat.mod_eq_of_lt (show m * 10 + d < 2 ^ 64 by omega)]
    have hval : valueOf 10 m (d :: ds) = valueOf 10 (m * 10 + d) ds := rfl
    cases hp with
    | true =>
      simp only [if_true]
      rw [ih (x - 1) (m * 10 + d) true (fun y hy => hd y (by simp [hy])) hv', hval]
      simp only [if_true, List.length_cons, List.isEmpty_cons, Bool.not_false, Bool.or_true, Bool.true_or]
      congr 2
      push_cast
      ring
    | false =>
      simp only [Bool.false_eq_true, if_false]
      rw [ih x (m * 10 + d) true (fun y hy => hd y (by simp [hy])) hv', hval]
      simp

theorem collectLoop_stop (e : Option (Bool × List Nat)) (xu : XUInt) :
    collectLoop 10 (some 46) (expoText e) xu = (xu, expoText e) := by
  cases e with
  | none => rfl
  | some e =>
    obtain ⟨neg, es⟩ := e
    show collectLoop 10 (some 46) (101 :: _) xu = _
    rw [collectLoop, if_neg (by simp)]
    simp only
    rw [if_pos (by decide)]
    rfl

theorem collectLoop_real (ds fs : List Nat) (e : Option (Bool × List Nat)) (hd : ∀ d ∈ ds, d < 10) (hf : ∀ d ∈ fs, d < 10)
    (hne : ds ≠ []) (hv : valueOf 10 0 (ds ++ fs) < 2 ^ 64) :
    ∃ hp, collectLoop 10 (some 46) (ds.map digitChar ++ (fracText fs ++ expoText e)) ⟨0, 0, false, false, false, false⟩ =
      (⟨-(fs.length : Int), valueOf 10 0 (ds ++ fs), hp, true, false, false⟩, expoText e) := by
  rw [valueOf_append] at hv
  have hds : (false || !ds.isEmpty) = true := by cases ds with
    | nil => exact absurd rfl hne
    | cons => rfl
  rw [collectLoop_append false _ ds 0 0 false hd (lt_of_le_of_lt (le_valueOf 10 _ (by omega) fs) hv), hds]
  simp only [Bool.false_eq_true, if_false]
  by_cases h : fs = []
  · subst h
    exact ⟨false, by simp [fracText, collectLoop_stop]⟩
  · refine ⟨true, ?_⟩
    rw [fracText, if_neg h, List.cons_append, collectLoop, if_pos (by simp)]
    simp only
    rw [collectLoop_append true _ fs _ _ true hf hv, collectLoop_stop, valueOf_append]
    simp

theorem exponentLoop_real (neg : Bool) (orig : Int) (ho : -2 ^ 32 ≤ orig) (ho' : orig ≤ 2 ^ 32) :
    ∀ (ds : List Nat) (m : Nat), (∀ d ∈ ds, d < 10) → valueOf 10 m ds < 2 ^ 32 →
    exponentLoop neg orig (ds.map digitChar) (orig + (if neg then -(m : Int) else m)) false =
      (orig + (if neg then -((valueOf 10 m ds : Nat) : Int) else (valueOf 10 m ds : Nat)), false, []) := by
  intro ds
  induction ds with
  | nil => intro m _ _; simp [exponentLoop, valueOf]
  | cons d ds ih =>
    intro m hd hv
    have hdb : d < 10 := hd d (by simp)
    obtain ⟨h1, _⟩ := digitChar_spec d (by omega)
    have hle := le_valueOf 10 (m * 10 + d) (by omega) ds
    have hval : valueOf 10 m (d :: ds) = valueOf 10 (m * 10 + d) ds := rfl
    have hv' : valueOf 10 (m * 10 + d) ds < 2 ^ 32 := hval ▸ hv
    have b1 : Int.bmod ((orig + (if neg then -(m : Int) else m) - orig) * 10) (2 ^ 64) =
        (orig + (if neg then -(m : Int) else m) - orig) * 10 := by
      apply bmod_small <;> cases neg <;> simp <;> omega
    have b2 : Int.bmod (orig + (if neg then -((m * 10 + d : Nat) : Int) else ((m * 10 + d : Nat) : Int))) (2 ^ 64) =
        orig + (if neg then -((m * 10 + d : Nat) : Int) else ((m * 10 + d : Nat) : Int)) := by
      apply bmod_small <;> cases neg <;> simp <;> omega
    have b3 : (orig + (if neg then -(m : Int) else m) - orig) * 10 + ((if neg then -(d : Int) else d) + orig) =
        orig + (if neg then -((m * 10 + d : Nat) : Int) else ((m * 10 + d : Nat) : Int)) := by
      cases neg <;> simp <;> ring
    simp only [List.map_cons]
    rw [exponentLoop]
    simp only [h1]
    rw [if_neg (by omega)]
    simp only [b1, b3, b2]
    simp only [ne_eq, not_true_eq_false, decide_false, Bool.or_false]
    rw [ih (m * 10 + d) (fun x hx => hd x (by simp [hx])) hv', hval]

theorem collectDigits_real (ds fs : List Nat) (e : Option (Bool × List Nat)) (hd : ∀ d ∈ ds, d < 10) (hf : ∀ d ∈ fs, d < 10)
    (hne : ds ≠ []) (hv : valueOf 10 0 (ds ++ fs) < 2 ^ 64) (hfl : fs.length < 2 ^ 32)
    (he : ∀ neg es, e = some (neg, es) → es ≠ [] ∧ (∀ d ∈ es, d < 10) ∧ valueOf 10 0 es < 2 ^ 32) :
    ∃ hp, collectDigits 10 (some 46) (ds.map digitChar ++ (fracText fs ++ expoText e)) =
      (⟨expoValue e - fs.length, valueOf 10 0 (ds ++ fs), hp, true, false, false⟩, []) := by
  obtain ⟨hp, hl⟩ := collectLoop_real ds fs e hd hf hne hv
  refine ⟨hp, ?_⟩
  unfold collectDigits
  have c16 : ((10 : Nat) = 16) = False := by simp
  simp only [hl, c16, if_false, if_true]
  cases e with
  | none => simp [expoText, expoValue]
  | some e =>
    obtain ⟨neg, es⟩ := e
    obtain ⟨hne', hd', hv'⟩ := he neg es rfl
    rcases es with _ | ⟨d, es⟩
    · exact absurd rfl hne'
    · have hloop := exponentLoop_real neg (-(fs.length : Int)) (by omega) (by omega) (d :: es) 0 hd' hv'
      obtain ⟨_, _, _, _, _, _, _, _, _, h10⟩ := digitChar_spec d (by have := hd' d (by simp); omega)
      have hdec := (h10 (hd' d (by simp))).1
      simp only [List.map_cons, Nat.cast_zero, neg_zero, ite_self, add_zero] at hloop
      have n1 : isDec 45 = false := by decide
      have n2 : isDec 43 = false := by decide
      have n3 : ((101 : UInt8) ||| 32) = 101 := by decide
      cases neg with
      | true =>
        simp [expoText, expoValue, hdec, n1, n3, hloop]
        ring
      | false =>
        simp [expoText, expoValue, hdec, n2, n3, hloop]
        ring

theorem parse_realText (sign : Bool) (ds fs : List Nat) (e : Option (Bool × List Nat)) (hd : ∀ d ∈ ds, d < 10)
    (hf : ∀ d ∈ fs, d < 10) (hne : ds ≠ []) (hv : valueOf 10 0 (ds ++ fs) < 2 ^ 64) (hfl : fs.length < 2 ^ 32)
    (he : ∀ neg es, e = some (neg, es) → es ≠ [] ∧ (∀ d ∈ es, d < 10) ∧ valueOf 10 0 es < 2 ^ 32) :
    parseD (realText sign ds fs e) =
      some (⟨false, sign, 10, expoValue e - fs.length, valueOf 10 0 (ds ++ fs), false⟩, []) ∧
    parseBase 10 (realText sign ds fs e) =
      some (⟨false, sign, 10, expoValue e - fs.length, valueOf 10 0 (ds ++ fs), false⟩, []) := by
  obtain ⟨hp, hc⟩ := collectDigits_real ds fs e hd hf hne hv hfl he
  obtain ⟨d, ds', rfl⟩ := List.exists_cons_of_ne_nil hne
  obtain ⟨_, _, _, s1, s2, s3, s4, s5, s6, _⟩ := digitChar_spec d (by have := hd d (by simp); omega)
  have hbase : parseBase 10 (realText sign (d :: ds') fs e) =
      some (⟨false, sign, 10, expoValue e - fs.length, valueOf 10 0 (d :: ds' ++ fs), false⟩, []) := by
    have hsign : getSign (realText sign (d :: ds') fs e) = (sign, (d :: ds').map digitChar ++ (fracText fs ++ expoText e)) := by
      unfold realText
      cases sign with
      | true => rfl
      | false => simp [getSign, s1, s2]
    unfold parseBase
    have hspec : getSpecial ((d :: ds').map digitChar ++ (fracText fs ++ expoText e)) = none :=
      getSpecial_none (digitChar d) _ s3 s4 s5 s6
    simp only [hsign, hspec]
    have c2 : ((10 : Nat) = 2) = False := by simp
    have c16 : ((10 : Nat) = 16) = False := by simp
    simp only [c2, c16, if_false, if_true, hc]
  refine ⟨?_, hbase⟩
  rw [← hbase]
  have hp : prefixBase (digitChar d :: (ds'.map digitChar ++ (fracText fs ++ expoText e))) = none := by
    apply prefixBase_dec d
    intro c s' hc
    rcases ds' with _ | ⟨d', ds'⟩
    · by_cases hfs : fs = []
      · cases e with
        | none => simp [expoText, hfs, fracText] at hc
        | some es => simp [expoText, hfs, fracText] at hc; rw [← hc.1]; decide
      · simp [fracText, hfs] at hc; rw [← hc.1]; decide
    · simp at hc
      obtain ⟨_, _, _, _, _, _, _, _, _, h10⟩ := digitChar_spec d' (by have := hd d' (by simp); omega)
      rw [← hc.1]; exact (h10 (hd d' (by simp))).2
  cases sign with
  | false =>
    have hp' : realText false (d :: ds') fs e = digitChar d :: (ds'.map digitChar ++ (fracText fs ++ expoText e)) := rfl
    rw [hp']
    unfold parseD
    simp only [hp, s1, s2, if_false, or_false]
  | true =>
    have hp0 : prefixBase (45 :: (digitChar d :: (ds'.map digitChar ++ (fracText fs ++ expoText e)))) = none := by
      simp [prefixBase]
    have hp' : realText true (d :: ds') fs e = 45 :: (digitChar d :: (ds'.map digitChar ++ (fracText fs ++ expoText e))) := rfl
    rw [hp']
    unfold parseD
    simp only [hp0, hp, if_true, or_true]

/-! ### Writing -/

/-- The digits of a number that is a multiple of a power of ten, when the radix point has been written. -/
theorem mantissaLoop_after (rdx : Nat) : ∀ (f fuel reg : Nat) (out : Bytes), f ≤ fuel → f ≤ 18 → reg < 10 ^ 18 → 10 ^ (18 - f) ∣ reg →
    rdx < out.length → ∃ ds : List Nat, mantissaLoop rdx (10 ^ 17) 10 fuel reg out = .ok (out ++ ds.map digitChar) ∧
      (∀ d ∈ ds, d < 10) ∧ ds.length ≤ f ∧ valueOf 10 0 ds * 10 ^ (18 - ds.length) = reg := by
  intro f
  induction f with
  | zero =>
    intro fuel reg out _ _ hr hd _
    have : reg = 0 := Nat.eq_zero_of_dvd_of_lt hd hr
    subst this
    refine ⟨[], ?_, by simp, by simp, by simp [valueOf]⟩
    cases fuel <;> simp [mantissaLoop]
  | succ f ih =>
    intro fuel reg out hf hf' hr hd ho
    obtain ⟨fuel, rfl⟩ : ∃ k, fuel = k + 1 := ⟨fuel - 1, by omega⟩
    by_cases h0 : reg = 0
    · subst h0
      exact ⟨[], by simp [mantissaLoop], by simp, by simp, by simp [valueOf]⟩
    · rw [mantissaLoop, if_neg h0]
      simp only
      have e1 : reg / 10 ^ 17 % 2 ^ 32 = reg / 10 ^ 17 := Nat.mod_eq_of_lt (by omega)
      have e2 : reg % 10 ^ 17 * 10 % 2 ^ 64 = reg % 10 ^ 17 * 10 := Nat.mod_eq_of_lt (by omega)
      rw [e1, e2, if_neg (show ¬ out.length = rdx by omega), if_neg (by omega)]
      have hdiv : 10 ^ (18 - f) ∣ reg % 10 ^ 17 * 10 := by
        rw [show 18 - f = (18 - (f + 1)) + 1 by omega, Nat.pow_succ]
        apply Nat.mul_dvd_mul_right
        exact (Nat.dvd_mod_iff (Nat.pow_dvd_pow 10 (by omega))).2 hd
      obtain ⟨ds, i1, i2, i3, i4⟩ := ih fuel (reg % 10 ^ 17 * 10) (out ++ [digitChar (reg / 10 ^ 17)]) (by omega) (by omega)
        (by omega) hdiv (by simp; omega)
      refine ⟨reg / 10 ^ 17 :: ds, by rw [i1]; simp, ?_, by simp; omega, ?_⟩
      · intro d hd
        rcases List.mem_cons.1 hd with rfl | hd
        · omega
        · exact i2 d hd
      · have hv : valueOf 10 0 (reg / 10 ^ 17 :: ds) = reg / 10 ^ 17 * 10 ^ ds.length + valueOf 10 0 ds := by
          rw [show valueOf 10 0 (reg / 10 ^ 17 :: ds) = valueOf 10 (0 * 10 + reg / 10 ^ 17) ds from rfl, valueOf_lin]
          simp
        rw [hv, List.length_cons, Nat.add_mul]
        rw [show 18 - ds.length = (18 - (ds.length + 1)) + 1 by omega, Nat.pow_succ, ← Nat.mul_assoc] at i4
        have i5 := Nat.eq_of_mul_eq_mul_right (by norm_num) i4
        rw [i5, Nat.mul_assoc, ← Nat.pow_add, show ds.length + (18 - (ds.length + 1)) = 17 by omega]
        omega

/-- The same, when the radix point has not been written. -/
theorem mantissaLoop_spec (rdx : Nat) : ∀ (f fuel reg : Nat) (out : Bytes), f ≤ fuel → f ≤ 18 → reg < 10 ^ 18 → 10 ^ (18 - f) ∣ reg →
    out.length ≤ rdx → ∃ ds : List Nat, mantissaLoop rdx (10 ^ 17) 10 fuel reg out =
        .ok (out ++ ((ds.take (rdx - out.length)).map digitChar ++ fracText (ds.drop (rdx - out.length)))) ∧
      (∀ d ∈ ds, d < 10) ∧ ds.length ≤ f ∧ valueOf 10 0 ds * 10 ^ (18 - ds.length) = reg ∧
      (reg ≠ 0 → ∃ ds', ds = reg / 10 ^ 17 :: ds') := by
  intro f
  induction f with
  | zero =>
    intro fuel reg out _ _ hr hd _
    have : reg = 0 := Nat.eq_zero_of_dvd_of_lt hd hr
    subst this
    refine ⟨[], ?_, by simp, by simp, by simp [valueOf], by simp⟩
    cases fuel <;> simp [mantissaLoop, fracText]
  | succ f ih =>
    intro fuel reg out hf hf' hr hd ho
    obtain ⟨fuel, rfl⟩ : ∃ k, fuel = k + 1 := ⟨fuel - 1, by omega⟩
    by_cases h0 : reg = 0
    · subst h0
      exact ⟨[], by simp [mantissaLoop, fracText], by simp, by simp, by simp [valueOf], by simp⟩
    · rw [mantissaLoop, if_neg h0]
      simp only
      have e1 : reg / 10 ^ 17 % 2 ^ 32 = reg / 10 ^ 17 := Nat.mod_eq_of_lt (by omega)
      have e2 : reg % 10 ^ 17 * 10 % 2 ^ 64 = reg % 10 ^ 17 * 10 := Nat.mod_eq_of_lt (by omega)
      rw [e1, e2]
      have hdiv : 10 ^ (18 - f) ∣ reg % 10 ^ 17 * 10 := by
        rw [show 18 - f = (18 - (f + 1)) + 1 by omega, Nat.pow_succ]
        apply Nat.mul_dvd_mul_right
        exact (Nat.dvd_mod_iff (Nat.pow_dvd_pow 10 (by omega))).2 hd
      have hval : ∀ ds : List Nat, ds.length ≤ f → valueOf 10 0 ds * 10 ^ (18 - ds.length) = reg % 10 ^ 17 * 10 →
          valueOf 10 0 (reg / 10 ^ 17 :: ds) * 10 ^ (18 - (reg / 10 ^ 17 :: ds).length) = reg := by
        intro ds i3 i4
        have hv : valueOf 10 0 (reg / 10 ^ 17 :: ds) = reg / 10 ^ 17 * 10 ^ ds.length + valueOf 10 0 ds := by
          rw [show valueOf 10 0 (reg / 10 ^ 17 :: ds) = valueOf 10 (0 * 10 + reg / 10 ^ 17) ds from rfl, valueOf_lin]
          simp
        rw [hv, List.length_cons, Nat.add_mul]
        rw [show 18 - ds.length = (18 - (ds.length + 1)) + 1 by omega, Nat.pow_succ, ← Nat.mul_assoc] at i4
        have i5 := Nat.eq_of_mul_eq_mul_right (by norm_num) i4
        rw [i5, Nat.mul_assoc, ← Nat.pow_add, show ds.length + (18 - (ds.length + 1)) = 17 by omega]
        omega
      have hmem : ∀ ds : List Nat, (∀ d ∈ ds, d < 10) → ∀ d ∈ reg / 10 ^ 17 :: ds, d < 10 := by
        intro ds i2 d hd
        rcases List.mem_cons.1 hd with rfl | hd
        · omega
        · exact i2 d hd
      by_cases hl : out.length = rdx
      · rw [if_pos hl, if_neg (by omega)]
        obtain ⟨ds, i1, i2, i3, i4⟩ := mantissaLoop_after rdx f fuel (reg % 10 ^ 17 * 10) (out ++ [46] ++ [digitChar (reg / 10 ^ 17)])
          (by omega) (by omega) (by omega) hdiv (by simp; omega)
        refine ⟨reg / 10 ^ 17 :: ds, ?_, hmem ds i2, by simp; omega, hval ds i3 i4, fun _ => ⟨ds, rfl⟩⟩
        rw [i1, show rdx - out.length = 0 by omega]
        simp [fracText]
      · rw [if_neg hl, if_neg (by omega)]
        obtain ⟨ds, i1, i2, i3, i4, _⟩ := ih fuel (reg % 10 ^ 17 * 10) (out ++ [digitChar (reg / 10 ^ 17)]) (by omega) (by omega)
          (by omega) hdiv (by simp; omega)
        refine ⟨reg / 10 ^ 17 :: ds, ?_, hmem ds i2, by simp; omega, hval ds i3 i4, fun _ => ⟨ds, rfl⟩⟩
        rw [i1, show rdx - out.length = (rdx - (out ++ [digitChar (reg / 10 ^ 17)]).length) + 1 by simp; omega]
        simp

/-- Digits, zeroes up to the radix point, and digits after it. -/
theorem writeMantissa_spec (D r : Nat) (h1 : 10 ^ 17 ≤ D) (h2 : D < 10 ^ 18) (hr : 1 ≤ r) (hr' : r ≤ 18) :
    ∃ (ds fs : List Nat) (j : Nat), writeMantissa D 100000000000000000 10 r [] = .ok (ds.map digitChar ++ fracText fs) ∧
      (∀ d ∈ ds, d < 10) ∧ (∀ d ∈ fs, d < 10) ∧ (∃ d ds', ds = d :: ds' ∧ d ≠ 0) ∧ valueOf 10 0 (ds ++ fs) * 10 ^ j = D ∧
      fs.length + j + r = 18 ∧ ds.length = r := by
  obtain ⟨ds, e1, e2, e3, e4, e5⟩ := mantissaLoop_spec r 18 64 D [] (by omega) (by omega) h2 (by simp) (by simp)
  obtain ⟨ds', hds⟩ := e5 (by omega)
  rw [show (10 : Nat) ^ 17 = 100000000000000000 by norm_num] at e1
  unfold writeMantissa
  rw [e1]
  simp only [Res.map, List.nil_append, List.length_nil, Nat.sub_zero]
  rcases Nat.lt_or_ge r ds.length with hlt | hge
  · have hdrop : ds.drop r ≠ [] := by simp; omega
    refine ⟨ds.take r, ds.drop r, 18 - ds.length, ?_, fun d hd => e2 d (List.mem_of_mem_take hd),
      fun d hd => e2 d (List.mem_of_mem_drop hd), ?_, by rw [List.take_append_drop]; exact e4, by simp; omega, by simp; omega⟩
    · rw [show r - (List.map digitChar (ds.take r) ++ fracText (ds.drop r)).length = 0 by simp; omega]
      simp
    · subst hds
      obtain ⟨r, rfl⟩ : ∃ k, r = k + 1 := ⟨r - 1, by omega⟩
      exact ⟨_, ds'.take r, rfl, by omega⟩
  · refine ⟨ds ++ List.replicate (r - ds.length) 0, [], 18 - r, ?_, ?_, by simp, ?_, ?_, by simp; omega, by simp; omega⟩
    · rw [List.take_of_length_le hge, List.drop_of_length_le hge]
      simp [fracText, show digitChar 0 = 48 by decide]
    · intro d hd
      rcases List.mem_append.1 hd with hd | hd
      · exact e2 d hd
      · rw [List.eq_of_mem_replicate hd]; omega
    · subst hds
      exact ⟨_, _, rfl, by omega⟩
    · rw [List.append_nil, valueOf_append, valueOf_lin, valueOf_zeros, List.length_replicate, Nat.add_zero, Nat.mul_assoc, ← Nat.pow_add,
        show r - ds.length + (18 - r) = 18 - ds.length by omega]
      exact e4

/-- What is put for a decimal number, and what is read. -/
theorem layout (value : Nat) (cls : FpClass) (sign : Bool) (x : Int) (D : Nat) (hf : frexp10 value = .ok ⟨cls, sign, x, D⟩)
    (hc : specialText cls = none) (h1 : 10 ^ 17 ≤ D) (h2 : D < 10 ^ 18) (hx : -400 ≤ x) (hx' : x ≤ 400) :
    ∃ (ds fs : List Nat) (e : Option (Bool × List Nat)) (j : Nat), putDD value = .ok (realText sign ds fs e) ∧
      (∀ d ∈ ds, d < 10) ∧ (∀ d ∈ fs, d < 10) ∧ (ds = [0] ∨ ∃ d ds', ds = d :: ds' ∧ d ≠ 0) ∧
      (∀ neg es, e = some (neg, es) → es ≠ [] ∧ (∀ d ∈ es, d < 10) ∧ valueOf 10 0 es < 2 ^ 32) ∧
      valueOf 10 0 (ds ++ fs) * 10 ^ j = D ∧ j ≤ 18 ∧ expoValue e - fs.length = x + j ∧ fs.length < 2 ^ 32 := by
  unfold putDD
  rw [hf]
  simp only [Res.bind, hc]
  by_cases hA : 0 ≤ x + 17 ∧ x + 17 < 15
  · rw [if_pos hA]
    obtain ⟨ds, fs, j, w1, w2, w3, w4, w5, w6, w7⟩ := writeMantissa_spec D ((x + 17).toNat + 1) h1 h2 (by omega) (by omega)
    rw [w1]
    refine ⟨ds, fs, none, j, ?_, w2, w3, .inr w4, by simp, w5, by omega, ?_, by omega⟩
    · simp [Res.map, realText, expoText]
    · simp only [expoValue]; omega
  · rw [if_neg hA]
    by_cases hB : -4 ≤ x + 17 ∧ x + 17 < 0
    · rw [if_pos hB]
      obtain ⟨ds, e1, e2, e3, e4⟩ := mantissaLoop_after 1 18 64 D ([48, 46] ++ List.replicate ((-(x + 17)).toNat - 1) 48) (by omega) (by omega) h2 (by simp) (by simp)
      rw [show (10 : Nat) ^ 17 = 100000000000000000 by norm_num] at e1
      have z : writeMantissa 0 1 1 (1 + (-(x + 17)).toNat) [48, 46] = .ok ([48, 46] ++ List.replicate ((-(x + 17)).toNat - 1) 48) := by
        unfold writeMantissa
        rw [mantissaLoop, if_pos rfl]
        simp only [Res.map, List.length_cons, List.length_nil]
        rw [show 1 + (-(x + 17)).toNat - (0 + 1 + 1) = (-(x + 17)).toNat - 1 by omega]
      have hdsne : ds ≠ [] := by
        rintro rfl
        simp [valueOf] at e4
        omega
      rw [z]
      simp only
      unfold writeMantissa
      rw [e1]
      refine ⟨[0], List.replicate ((-(x + 17)).toNat - 1) 0 ++ ds, none, 18 - ds.length, ?_, by simp, ?_, .inl rfl, by simp, ?_, by omega, ?_, ?_⟩
      · simp only [Res.map]
        congr 1
        have : 1 - ([48, 46] ++ List.replicate ((-(x + 17)).toNat - 1) 48 ++ ds.map digitChar).length = 0 := by simp
        rw [this]
        simp [realText, expoText, fracText, hdsne, show digitChar 0 = 48 by decide]
      · intro d hd
        rcases List.mem_append.1 hd with hd | hd
        · rw [List.eq_of_mem_replicate hd]; omega
        · exact e2 d hd
      · rw [valueOf_append, show valueOf 10 0 [0] = 0 from rfl, valueOf_append, valueOf_zeros]
        exact e4
      · simp only [expoValue, List.length_append, List.length_replicate]
        omega
      · simp only [List.length_append, List.length_replicate]
        omega
    · rw [if_neg hB]
      obtain ⟨ds, fs, j, w1, w2, w3, w4, w5, w6, w7⟩ := writeMantissa_spec D 1 h1 h2 (by omega) (by omega)
      obtain ⟨es, s1, s2, s3, s4⟩ := writeDigits_spec 10 (x + 17).natAbs 2 (by omega) (lt_of_lt_of_le (by omega) (Nat.pow_le_pow_right (by norm_num) (show 3 ≤ 64 by omega))) (by omega)
      rw [w1]
      refine ⟨ds, fs, some (decide (x + 17 < 0), es), j, ?_, w2, w3, .inr w4, ?_, w5, by omega, ?_, by omega⟩
      · simp only [Res.map]
        congr 1
        unfold writeExponent realText
        rw [s1]
        by_cases hn : x + 17 < 0
        · rw [if_neg (show ¬ (x + 17 ≥ 0) by omega)]; simp [expoText, hn]
        · rw [if_pos (show x + 17 ≥ 0 by omega)]; simp [expoText, hn]
      · intro neg es' hes
        simp only [Option.some.injEq, Prod.mk.injEq] at hes
        obtain ⟨_, rfl⟩ := hes
        exact ⟨s4, s2, by omega⟩
      · simp only [expoValue, s3]
        by_cases hn : x + 17 < 0
        · rw [show (((x + 17).natAbs : Nat) : Int) = -(x + 17) by omega]
          simp only [hn, decide_true, if_true]
          omega
        · rw [show (((x + 17).natAbs : Nat) : Int) = x + 17 by omega]
          simp only [hn, decide_false, Bool.false_eq_true, if_false]
          omega

end Asteria.RealText
