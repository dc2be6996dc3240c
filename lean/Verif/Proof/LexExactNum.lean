import Verif.Spec.LexExact
import Verif.Proof.LexerNum
import Verif.Proof.LexerLoop

/-!
# Numerals: what the parser of numbers reads
-/

namespace Asteria.Lexer

open Spec (IsPrefix IsSign Parts DigitText FracText ExpoText Numeral Kept Meaning Denotes isExpo number)
open NumText (NumGet XUInt castI parseD parseBase digitValue collectLoop collectDigits exponentLoop prefixBase
  getSign getSpecial skipPrefix isDec bmod_small)

/-! ### Digits -/

theorem value_hex : ∀ c, digitValue c < 16 → Spec.hexDigit c = some (digitValue c) ∧ c ≠ 46 := forall_byte (by decide +kernel)

/-- One digit. -/
def stepX (base d : Nat) (xu : XUInt) : XUInt :=
  let m := xu.mant * base % 2 ^ 64
  let ovfl := xu.ovfl || decide (xu.mant * base ≥ 2 ^ 64) || decide (m + d ≥ 2 ^ 64)
  let xu := { xu with valid := true, ovfl := ovfl }
  let xu := if ovfl then { xu with exp := xu.exp + 1, more := xu.more || decide (d ≠ 0) }
    else { xu with mant := (m + d) % 2 ^ 64 }
  if xu.hasPoint then { xu with exp := xu.exp - 1 } else xu

/-- Some digits. -/
def feed (base : Nat) : List Nat → XUInt → XUInt
  | [], xu => xu
  | d :: ds, xu => feed base ds (stepX base d xu)

theorem collectLoop_feed {base : Nat} (hb : base ≤ 16) (w : Bytes) : ∀ (ds : List Nat) (tail : Bytes) (xu : XUInt),
    DigitText base w ds → collectLoop base (some 46) (w ++ tail) xu = collectLoop base (some 46) tail (feed base ds xu) := by
  induction w with
  | nil =>
    intro ds tail xu h
    cases ds with
    | nil => rfl
    | cons d ds => have := h.eq; simp at this
  | cons c w ih =>
    intro ds tail xu h
    cases ds with
    | nil => have := h.eq; simp at this
    | cons d ds =>
      have he := h.eq
      simp only [List.map_cons, List.cons.injEq] at he
      obtain ⟨h1, h2, h3, _⟩ := hexDigit_facts c d he.1
      have hd := h.lt d (by simp)
      rw [List.cons_append, collectLoop]
      simp only [h2, Option.some.injEq, h3, and_false, if_false, ge_iff_le, Nat.not_le.mpr hd]
      exact ih ds tail _ ⟨he.2, fun x hx => h.lt x (by simp [hx])⟩

theorem collectLoop_halt {base : Nat} (tail : Bytes) (xu : XUInt)
    (h : ∀ c t, tail = c :: t → base ≤ digitValue c ∧ (xu.hasPoint = false → c ≠ 46)) :
    collectLoop base (some 46) tail xu = (xu, tail) := by
  cases tail with
  | nil => rfl
  | cons c t =>
    obtain ⟨h1, h2⟩ := h c t rfl
    rw [collectLoop, if_neg, if_pos h1]
    rintro ⟨g1, g2⟩
    cases hp : xu.hasPoint with
    | true => rw [hp] at g1; simp at g1
    | false => cases g2; exact h2 hp rfl

theorem feed_point (base : Nat) (ds : List Nat) : ∀ xu, (feed base ds xu).hasPoint = xu.hasPoint := by
  induction ds with
  | nil => intro xu; rfl
  | cons d ds ih =>
    intro xu
    rw [feed, ih]
    unfold stepX
    dsimp only
    split <;> split <;> rfl

theorem feed_valid (base : Nat) (ds : List Nat) : ∀ xu, (feed base ds xu).valid = (xu.valid || decide (ds ≠ [])) := by
  induction ds with
  | nil => intro xu; simp [feed]
  | cons d ds ih =>
    intro xu
    rw [feed, ih]
    have : (stepX base d xu).valid = true := by unfold stepX; dsimp only; split <;> split <;> rfl
    rw [this]; simp

/-- Digits after those that do not fit. -/
theorem feed_over (base : Nat) (ds : List Nat) : ∀ xu : XUInt, xu.ovfl = true → (feed base ds xu).mant = xu.mant ∧
    (feed base ds xu).more = (xu.more || ds.any (· ≠ 0)) ∧
    (feed base ds xu).exp = xu.exp + ds.length - (if xu.hasPoint then (ds.length : Int) else 0) := by
  induction ds with
  | nil => intro xu _; simp [feed]
  | cons d ds ih =>
    intro xu h
    have h1 : stepX base d xu = ⟨xu.exp + 1 - (if xu.hasPoint then 1 else 0), xu.mant, xu.hasPoint, true, xu.more || decide (d ≠ 0), true⟩ := by
      unfold stepX
      simp only [h, Bool.true_or, if_true]
      split
      · rename_i hp; simp only [hp]
      · rename_i hp; simp only [Bool.not_eq_true] at hp; simp only [hp]; simp
    obtain ⟨g1, g2, g3⟩ := ih (stepX base d xu) (by rw [h1])
    rw [feed, g1, g2, g3, h1]
    refine ⟨rfl, ?_, ?_⟩
    · simp [Bool.or_assoc]
    · dsimp only
      rw [List.length_cons]
      split <;> push_cast <;> omega

theorem feed_keep {base : Nat} (hb : 2 ≤ base) (hp : Bool) (ds : List Nat) : ∀ (x : Int) (m : Nat) (v : Bool), m < 2 ^ 64 →
    ∃ lead rest, ds = lead ++ rest ∧ lead.foldl (fun m d => m * base + d) m < 2 ^ 64 ∧
      (∀ d t, rest = d :: t → 2 ^ 64 ≤ lead.foldl (fun m d => m * base + d) m * base + d) ∧
      (feed base ds ⟨x, m, hp, v, false, false⟩).mant = lead.foldl (fun m d => m * base + d) m ∧
      (feed base ds ⟨x, m, hp, v, false, false⟩).more = rest.any (· ≠ 0) ∧
      (feed base ds ⟨x, m, hp, v, false, false⟩).ovfl = decide (rest ≠ []) ∧
      (feed base ds ⟨x, m, hp, v, false, false⟩).exp = x + rest.length - (if hp then (ds.length : Int) else 0) := by
  induction ds with
  | nil => intro x m v hm; exact ⟨[], [], rfl, hm, nofun, rfl, rfl, rfl, by simp [feed]⟩
  | cons d ds ih =>
    intro x m v hm
    by_cases hf : m * base + d < 2 ^ 64
    · have h1 : stepX base d ⟨x, m, hp, v, false, false⟩ = ⟨x - (if hp then 1 else 0), m * base + d, hp, true, false, false⟩ := by
        unfold stepX
        have e1 : m * base % 2 ^ 64 = m * base := Nat.mod_eq_of_lt (by omega)
        simp only [e1, Bool.false_or, ge_iff_le]
        have e2 : ¬ 2 ^ 64 ≤ m * base := by omega
        have e3 : ¬ 2 ^ 64 ≤ m * base + d := by omega
        simp only [e2, e3, decide_false, Bool.or_false, Bool.false_eq_true, if_false, Nat.mod_eq_of_lt hf]
        cases hp <;> simp
      obtain ⟨lead, rest, g1, g2, g3, g4, g5, g6, g7⟩ := ih (x - (if hp then 1 else 0)) (m * base + d) true hf
      refine ⟨d :: lead, rest, by rw [g1]; rfl, g2, g3, ?_, ?_, ?_, ?_⟩
      · rw [feed, h1]; exact g4
      · rw [feed, h1]; exact g5
      · rw [feed, h1]; exact g6
      · rw [feed, h1, g7, List.length_cons]
        cases hp <;> simp <;> omega
    · have h1 : (stepX base d ⟨x, m, hp, v, false, false⟩) = ⟨x + 1 - (if hp then 1 else 0), m, hp, true, decide (d ≠ 0), true⟩ := by
        unfold stepX
        have e1 : (decide (m * base ≥ 2 ^ 64) || decide (m * base % 2 ^ 64 + d ≥ 2 ^ 64)) = true := by
          by_cases h2 : m * base ≥ 2 ^ 64
          · rw [decide_eq_true h2, Bool.true_or]
          · rw [Nat.mod_eq_of_lt (by omega), decide_eq_true (p := m * base + d ≥ 2 ^ 64) (by omega), Bool.or_true]
        simp only [Bool.false_or, e1, if_true]
        cases hp <;> simp
      obtain ⟨g1, g2, g3⟩ := feed_over base ds (stepX base d ⟨x, m, hp, v, false, false⟩) (by rw [h1])
      have g4 : ∀ ds xu, xu.ovfl = true → (feed base ds xu).ovfl = true := by
        intro ds
        induction ds with
        | nil => intro xu h; exact h
        | cons d ds ih =>
          intro xu h
          rw [feed]
          apply ih
          unfold stepX
          simp only [h, Bool.true_or, if_true]
          split <;> rfl
      refine ⟨[], d :: ds, rfl, hm, ?_, ?_, ?_, ?_, ?_⟩
      · intro d' t e; cases e; show 2 ^ 64 ≤ m * base + d; omega
      · rw [feed, g1, h1]; rfl
      · rw [feed, g2, h1]; simp
      · rw [feed, g4 ds _ (by rw [h1])]; simp
      · rw [feed, g3, h1, List.length_cons]
        cases hp <;> simp <;> omega

/-- What has been read of the digits of a numeral. -/
def scanned (base : Nat) (whole : List Nat) (frac : Option (List Nat)) : XUInt :=
  match frac with
  | none => feed base whole ⟨0, 0, false, false, false, false⟩
  | some fs => feed base fs { feed base whole ⟨0, 0, false, false, false, false⟩ with hasPoint := true }

theorem number_append (base : Nat) (a b : List Nat) : number base (a ++ b) = b.foldl (fun m d => m * base + d) (number base a) :=
  List.foldl_append

theorem scanned_spec {base : Nat} (hb : 2 ≤ base) (whole : List Nat) (frac : Option (List Nat)) :
    ∃ rest, Kept base (whole ++ frac.getD []) (scanned base whole frac).mant rest ∧
      (scanned base whole frac).more = rest.any (· ≠ 0) ∧
      (scanned base whole frac).exp = (rest.length : Int) - ((frac.getD []).length : Int) ∧
      (scanned base whole frac).valid = decide (whole ++ frac.getD [] ≠ []) := by
  obtain ⟨lead, rest, g1, g2, g3, g4, g5, g6, g7⟩ := feed_keep hb false whole 0 0 false (by omega)
  have hv := feed_valid base whole ⟨0, 0, false, false, false, false⟩
  cases frac with
  | none =>
    refine ⟨rest, ⟨⟨lead, ?_, g4⟩, ?_, ?_⟩, g5, ?_, ?_⟩
    · simpa using g1
    · show (feed base whole _).mant < _; rw [g4]; exact g2
    · intro d t e; show _ ≤ (feed base whole _).mant * _ + _; rw [g4]; exact g3 d t e
    · show (feed base whole _).exp = _; rw [g7]; simp
    · show (feed base whole _).valid = _; rw [hv]; simp
  | some fs =>
    have hx : ({ feed base whole ⟨0, 0, false, false, false, false⟩ with hasPoint := true } : XUInt) =
      ⟨rest.length, number base lead, true, decide (whole ≠ []), rest.any (· ≠ 0), decide (rest ≠ [])⟩ := by
      generalize hX : feed base whole ⟨0, 0, false, false, false, false⟩ = X at *
      cases X
      simp only at g4 g5 g6 g7 hv ⊢
      simp only [g4, g5, g6, g7, hv]
      simp [number]
    by_cases hr : rest = []
    · subst hr
      obtain ⟨lead', rest', k1, k2, k3, k4, k5, k6, k7⟩ := feed_keep hb true fs 0 (number base lead) (decide (whole ≠ [])) g2
      have he : scanned base whole (some fs) = feed base fs ⟨0, number base lead, true, decide (whole ≠ []), false, false⟩ := by
        unfold scanned
        dsimp only
        rw [hx]
        rfl
      rw [he]
      refine ⟨rest', ⟨⟨lead ++ lead', ?_, ?_⟩, ?_, ?_⟩, k5, ?_, ?_⟩
      · show whole ++ fs = _; rw [g1, k1]; simp
      · rw [k4, number_append]
      · rw [k4]; exact k2
      · intro d t e; rw [k4]; exact k3 d t e
      · rw [k7]; simp
      · rw [feed_valid]; simp
    · obtain ⟨k1, k2, k3⟩ := feed_over base fs ⟨rest.length, number base lead, true, decide (whole ≠ []), rest.any (· ≠ 0), decide (rest ≠ [])⟩ (by simp [hr])
      have he : scanned base whole (some fs) = feed base fs ⟨rest.length, number base lead, true, decide (whole ≠ []), rest.any (· ≠ 0), decide (rest ≠ [])⟩ := by
        unfold scanned
        dsimp only
        rw [hx]
      rw [he]
      refine ⟨rest ++ fs, ⟨⟨lead, ?_, ?_⟩, ?_, ?_⟩, ?_, ?_, ?_⟩
      · show whole ++ fs = _; rw [g1]; simp
      · rw [k1]
      · rw [k1]; exact g2
      · intro d t e
        rw [k1]
        obtain ⟨d', t', e'⟩ := List.exists_cons_of_ne_nil hr
        rw [e'] at e
        cases e
        exact g3 _ _ e'
      · rw [k2]; simp
      · rw [k3]; simp
      · rw [feed_valid]; simp

theorem collectLoop_scanned {base : Nat} (hb : base ≤ 16) {w f tail : Bytes} {whole : List Nat} {frac : Option (List Nat)}
    (hw : DigitText base w whole) (hf : FracText base f frac)
    (ht : ∀ c t, tail = c :: t → base ≤ digitValue c ∧ (frac = none → c ≠ 46)) :
    collectLoop base (some 46) (w ++ (f ++ tail)) ⟨0, 0, false, false, false, false⟩ = (scanned base whole frac, tail) := by
  rw [collectLoop_feed hb w whole _ _ hw]
  have hp := feed_point base whole ⟨0, 0, false, false, false, false⟩
  cases hf with
  | none =>
    rw [List.nil_append]
    exact collectLoop_halt _ _ fun c t e => ⟨(ht c t e).1, fun _ => (ht c t e).2 rfl⟩
  | some h =>
    rw [List.cons_append, collectLoop, if_pos ⟨by rw [hp]; simp, rfl⟩, collectLoop_feed hb _ _ _ _ h]
    refine collectLoop_halt _ _ fun c t e => ⟨(ht c t e).1, fun h => ?_⟩
    rw [feed_point] at h
    cases h

/-- Every text starts with digits, and a fraction perhaps. -/
theorem scan_total {base : Nat} (hb : base ≤ 16) (s : Bytes) : ∃ w f tail whole frac, s = w ++ (f ++ tail) ∧
    DigitText base w whole ∧ FracText base f frac ∧
    ∀ c t, tail = c :: t → base ≤ digitValue c ∧ (frac = none → c ≠ 46) := by
  have run : ∀ s : Bytes, ∃ w ds tail, s = w ++ tail ∧ DigitText base w ds ∧ ∀ c t, tail = c :: t → base ≤ digitValue c := by
    intro s
    induction s with
    | nil => exact ⟨[], [], [], rfl, ⟨rfl, by simp⟩, nofun⟩
    | cons c s ih =>
      by_cases hc : digitValue c < base
      · obtain ⟨w, ds, tail, rfl, h1, h2⟩ := ih
        refine ⟨c :: w, digitValue c :: ds, tail, rfl, ⟨?_, ?_⟩, h2⟩
        · simp [h1.eq, (value_hex c (by omega)).1]
        · intro d hd
          rcases List.mem_cons.mp hd with rfl | hd
          · exact hc
          · exact h1.lt d hd
      · exact ⟨[], [], c :: s, rfl, ⟨rfl, by simp⟩, fun c' t e => by cases e; omega⟩
  obtain ⟨w, ds, tail, rfl, h1, h2⟩ := run s
  by_cases hp : ∃ t, tail = 46 :: t
  · obtain ⟨t, rfl⟩ := hp
    obtain ⟨w', ds', tail', rfl, h3, h4⟩ := run t
    exact ⟨w, 46 :: w', tail', ds, some ds', rfl, h1, .some h3, fun c t e => ⟨h4 c t e, nofun⟩⟩
  · exact ⟨w, [], tail, ds, none, rfl, h1, .none, fun c t e => ⟨h2 c t e, fun _ hc => hp ⟨t, by rw [e, hc]⟩⟩⟩

/-! ### The exponent -/

/-- The exponent that has been read, or both are very large, or both very small. -/
def Approx (e E : Int) : Prop := e = E ∨ 2 ^ 61 ≤ e ∧ 2 ^ 61 ≤ E ∨ e ≤ -2 ^ 61 ∧ E ≤ -2 ^ 61

theorem number_ge (base : Nat) (hb : 1 ≤ base) (ds : List Nat) : ∀ m, m ≤ ds.foldl (fun m d => m * base + d) m := by
  induction ds with
  | nil => intro m; exact Nat.le_refl _
  | cons d ds ih =>
    intro m
    refine Nat.le_trans ?_ (ih (m * base + d))
    exact Nat.le_trans (Nat.le_mul_of_pos_right m hb) (Nat.le_add_right _ _)

theorem exponentLoop_rest (neg : Bool) (orig : Int) (t : Bytes) : ∀ (ds : List Nat) (tail : Bytes) (e : Int) (o : Bool),
    DigitText 10 t ds → (∀ c r, tail = c :: r → 10 ≤ digitValue c) →
    (exponentLoop neg orig (t ++ tail) e o).2.2 = tail ∧ (o = true → (exponentLoop neg orig (t ++ tail) e o).2.1 = true) := by
  induction t with
  | nil =>
    intro ds tail e o _ ht
    cases tail with
    | nil => exact ⟨rfl, id⟩
    | cons c r =>
      rw [List.nil_append, exponentLoop]
      dsimp only
      rw [if_pos (ht c r rfl)]
      exact ⟨rfl, id⟩
  | cons c t ih =>
    intro ds tail e o h ht
    cases ds with
    | nil => have := h.eq; simp at this
    | cons d ds =>
      have he := h.eq
      simp only [List.map_cons, List.cons.injEq] at he
      obtain ⟨_, h2, _⟩ := hexDigit_facts c d he.1
      have hd := h.lt d (by simp)
      rw [List.cons_append, exponentLoop]
      dsimp only
      rw [if_neg (by rw [h2]; omega)]
      obtain ⟨g1, g2⟩ := ih ds tail _ (o || _ || _) ⟨he.2, fun x hx => h.lt x (by simp [hx])⟩ ht
      exact ⟨g1, fun ho => g2 (by rw [ho]; rfl)⟩

theorem exponentLoop_value (neg : Bool) (orig : Int) (ho : -2 ^ 60 ≤ orig) (ho' : orig ≤ 2 ^ 60) (t : Bytes) :
    ∀ (ds : List Nat) (tail : Bytes) (m : Nat),
    DigitText 10 t ds → (∀ c r, tail = c :: r → 10 ≤ digitValue c) →
    let r := exponentLoop neg orig (t ++ tail) (orig + if neg then -(m : Int) else m) false
    (r.2.1 = false → r.1 = orig + if neg then -((ds.foldl (fun m d => m * 10 + d) m : Nat) : Int) else (ds.foldl (fun m d => m * 10 + d) m : Nat)) ∧
    (r.2.1 = true → 2 ^ 62 ≤ ds.foldl (fun m d => m * 10 + d) m) := by
  induction t with
  | nil =>
    intro ds tail m h ht
    have hds : ds = [] := by
      have := h.eq
      simpa using this.symm
    subst hds
    cases tail with
    | nil => exact ⟨fun _ => rfl, nofun⟩
    | cons c r =>
      rw [List.nil_append, exponentLoop]
      dsimp only
      rw [if_pos (ht c r rfl)]
      exact ⟨fun _ => rfl, nofun⟩
  | cons c t ih =>
    intro ds tail m h ht
    cases ds with
    | nil => have := h.eq; simp at this
    | cons d ds =>
      have he := h.eq
      simp only [List.map_cons, List.cons.injEq] at he
      obtain ⟨_, h2, _⟩ := hexDigit_facts c d he.1
      have hd := h.lt d (by simp)
      have hds : DigitText 10 t ds := ⟨he.2, fun x hx => h.lt x (by simp [hx])⟩
      rw [List.cons_append, exponentLoop]
      dsimp only
      rw [if_neg (by rw [h2]; omega), h2, List.foldl_cons]
      have hge := number_ge 10 (by omega) ds (m * 10 + d)
      by_cases hs : m * 10 + d < 2 ^ 62
      · have e0 : (orig + (if neg = true then -(m : Int) else m) - orig) * 10 = if neg then -((m * 10 : Nat) : Int) else (m * 10 : Nat) := by
          cases neg <;> simp <;> ring
        have e1 : Int.bmod ((orig + (if neg = true then -(m : Int) else m) - orig) * 10) (2 ^ 64) =
            (orig + (if neg = true then -(m : Int) else m) - orig) * 10 := by
          rw [e0]
          apply bmod_small <;> split <;> omega
        have e2 : (orig + (if neg = true then -(m : Int) else m) - orig) * 10 + ((if neg = true then -(d : Int) else d) + orig) =
            orig + if neg then -((m * 10 + d : Nat) : Int) else (m * 10 + d : Nat) := by
          rw [e0]
          cases neg <;> simp <;> ring
        have e3 : Int.bmod (orig + if neg then -((m * 10 + d : Nat) : Int) else (m * 10 + d : Nat)) (2 ^ 64) =
            orig + if neg then -((m * 10 + d : Nat) : Int) else (m * 10 + d : Nat) := by
          apply bmod_small <;> split <;> omega
        rw [e1, e2, e3]
        simp only [ne_eq, not_true_eq_false, decide_false, Bool.or_false]
        exact ih ds tail (m * 10 + d) hds ht
      · refine ⟨fun hr => ?_, fun _ => by omega⟩
        -- no overflow was found: the numbers are as they should be
        by_cases hq : (decide ((orig + (if neg = true then -(m : Int) else m) - orig) * 10 ≠
              Int.bmod ((orig + (if neg = true then -(m : Int) else m) - orig) * 10) (2 ^ 64)) ||
            decide (Int.bmod ((orig + (if neg = true then -(m : Int) else m) - orig) * 10) (2 ^ 64) + ((if neg = true then -(d : Int) else d) + orig) ≠
              Int.bmod (Int.bmod ((orig + (if neg = true then -(m : Int) else m) - orig) * 10) (2 ^ 64) + ((if neg = true then -(d : Int) else d) + orig)) (2 ^ 64))) = true
        · rw [(exponentLoop_rest neg orig t ds tail _ _ hds ht).2 (by rw [Bool.false_or]; exact hq)] at hr
          cases hr
        · simp only [Bool.or_eq_true, decide_eq_true_eq, ne_eq, not_or, not_not] at hq
          obtain ⟨q1, q2⟩ := hq
          have e2 : (orig + (if neg = true then -(m : Int) else m) - orig) * 10 + ((if neg = true then -(d : Int) else d) + orig) =
              orig + if neg then -((m * 10 + d : Nat) : Int) else (m * 10 + d : Nat) := by
            cases neg <;> simp <;> ring
          rw [← q1, e2] at q2
          rw [← q1, e2, ← q2] at hr ⊢
          simp only [ne_eq, not_true_eq_false, decide_false, Bool.or_false] at hr ⊢
          exact (ih ds tail (m * 10 + d) hds ht).1 hr

theorem run_total {base : Nat} (hb : base ≤ 16) (s : Bytes) : ∃ w ds tail, s = w ++ tail ∧ DigitText base w ds ∧
    ∀ c t, tail = c :: t → base ≤ digitValue c := by
  induction s with
  | nil => exact ⟨[], [], [], rfl, ⟨rfl, by simp⟩, nofun⟩
  | cons c s ih =>
    by_cases hc : digitValue c < base
    · obtain ⟨w, ds, tail, rfl, h1, h2⟩ := ih
      refine ⟨c :: w, digitValue c :: ds, tail, rfl, ⟨?_, ?_⟩, h2⟩
      · simp [h1.eq, (value_hex c (by omega)).1]
      · intro d hd
        rcases List.mem_cons.mp hd with rfl | hd
        · exact hc
        · exact h1.lt d hd
    · exact ⟨[], [], c :: s, rfl, ⟨rfl, by simp⟩, fun c' t e => by cases e; omega⟩

theorem Spec.DigitText.nil_iff {base : Nat} {t : Bytes} {ds : List Nat} (h : DigitText base t ds) : t = [] ↔ ds = [] := by
  have := congrArg List.length h.eq
  simp only [List.length_map] at this
  constructor
  · rintro rfl; exact List.length_eq_zero_iff.mp this.symm
  · rintro rfl; exact List.length_eq_zero_iff.mp this

theorem Spec.DigitText.length {base : Nat} {t : Bytes} {ds : List Nat} (h : DigitText base t ds) : ds.length = t.length := by
  have := congrArg List.length h.eq
  simpa using this.symm

theorem expo_e : ∀ c : UInt8, (c ||| 0x20) = 101 ↔ c = 101 ∨ c = 69 := forall_byte (by decide +kernel)
theorem expo_p : ∀ c : UInt8, (c ||| 0x20) = 112 ↔ c = 112 ∨ c = 80 := forall_byte (by decide +kernel)
theorem dec_value : ∀ c, isDec c = true ↔ digitValue c < 10 := forall_byte (by decide +kernel)

theorem isExpo_iff {base : Nat} (c : UInt8) : isExpo base c ↔ (c ||| 0x20) = (if base = 10 then 101 else 112) := by
  unfold isExpo
  split
  · rw [expo_e]
  · rw [expo_p]

theorem expo_facts : ∀ c : UInt8, (c = 101 ∨ c = 69 → 10 ≤ digitValue c ∧ c ≠ 46) ∧ (c = 112 ∨ c = 80 → 16 ≤ digitValue c ∧ c ≠ 46) :=
  forall_byte (by decide +kernel)

theorem expoText_halt {base : Nat} (hb : base = 2 ∨ base = 10 ∨ base = 16) {e : Bytes} {ex} (h : ExpoText base e ex) (c : UInt8) (t : Bytes)
    (he : e = c :: t) : base ≤ digitValue c ∧ c ≠ 46 := by
  cases h with
  | none => cases he
  | some h1 _ _ _ =>
    cases he
    unfold isExpo at h1
    split at h1
    · have := (expo_facts c).1 h1; exact ⟨by omega, this.2⟩
    · have := (expo_facts c).2 h1; exact ⟨by omega, this.2⟩

/-- What the exponent says. -/
def expoValue : Option (Bool × List Nat) → Int
  | none => 0
  | some (neg, ds) => if neg then -(number 10 ds : Int) else number 10 ds

/-- The exponent after the digits, in the base of the exponent. -/
def scaled (base : Nat) (x : Int) : Int := if base = 16 then x * 4 else x

theorem go_exact {neg : Bool} {orig : Int} (ho : -2 ^ 60 ≤ orig) (ho' : orig ≤ 2 ^ 60) {t : Bytes} {ds : List Nat} (h : DigitText 10 t ds) :
    (exponentLoop neg orig t orig false).2.2 = [] ∧
      Approx (if (exponentLoop neg orig t orig false).2.1 then (if neg then -2 ^ 63 else 2 ^ 63 - 1) else (exponentLoop neg orig t orig false).1)
        (orig + expoValue (some (neg, ds))) := by
  have h1 := exponentLoop_rest neg orig t ds [] orig false h nofun
  have h2 := exponentLoop_value neg orig ho ho' t ds [] 0 h nofun
  have e0 : orig + (if neg = true then -((0 : Nat) : Int) else ((0 : Nat) : Int)) = orig := by simp
  rw [e0, List.append_nil] at h2
  rw [List.append_nil] at h1
  refine ⟨h1.1, ?_⟩
  generalize exponentLoop neg orig t orig false = r at *
  obtain ⟨g1, g2⟩ := h2
  cases hr : r.2.1 with
  | false =>
    left
    rw [if_neg (by simp), g1 hr]
    rfl
  | true =>
    have := g2 hr
    change 2 ^ 62 ≤ number 10 ds at this
    right
    unfold expoValue
    cases neg with
    | true => right; simp only [if_true]; omega
    | false => left; simp only [if_true, Bool.false_eq_true, if_false]; omega

theorem collectDigits_exact {base : Nat} (hb : base = 2 ∨ base = 10 ∨ base = 16) {w f e : Bytes} {whole : List Nat} {frac : Option (List Nat)}
    {ex : Option (Bool × List Nat)} (hw : DigitText base w whole) (hf : FracText base f frac) (he : ExpoText base e ex)
    (ho : -2 ^ 60 ≤ scaled base (scanned base whole frac).exp) (ho' : scaled base (scanned base whole frac).exp ≤ 2 ^ 60) :
    ∃ x, collectDigits base (some 46) (w ++ (f ++ e)) = ({ scanned base whole frac with exp := x }, []) ∧
      Approx x (scaled base (scanned base whole frac).exp + expoValue ex) := by
  have hl := collectLoop_scanned (base := base) (by omega) hw hf (tail := e) fun c t h =>
    ⟨(expoText_halt hb he c t h).1, fun _ => (expoText_halt hb he c t h).2⟩
  unfold collectDigits
  dsimp only
  rw [hl]
  generalize scanned base whole frac = X at *
  have hx : (if base = 16 then { X with exp := X.exp * 4 } else X) = { X with exp := scaled base X.exp } := by
    unfold scaled; split <;> rfl
  dsimp only
  rw [hx]
  cases he with
  | none => exact ⟨_, rfl, .inl (by simp [expoValue])⟩
  | @some c sgn neg t ds h1 h2 h3 h4 =>
    have h5 := (isExpo_iff c).mp h1
    obtain ⟨g1, g2⟩ := go_exact (neg := neg) ho ho' h3
    cases t with
    | nil => exact absurd (h3.nil_iff.mp rfl) h4
    | cons c₂ t =>
      cases ds with
      | nil => exact absurd rfl h4
      | cons d ds =>
        have hq := h3.eq
        simp only [List.map_cons, List.cons.injEq] at hq
        obtain ⟨_, q2, q3, q4, q5, _⟩ := hexDigit_facts c₂ d hq.1
        have hdec : isDec c₂ = true := (dec_value c₂).mpr (by rw [q2]; exact h3.lt d (by simp))
        rcases h2.prop with ⟨rfl, rfl⟩ | ⟨rfl, rfl⟩ | ⟨rfl, rfl⟩
        · simp only [List.nil_append, h5, hdec, and_self, if_true]
          exact ⟨_, Prod.ext rfl g1, g2⟩
        · simp only [List.cons_append, List.nil_append, h5, hdec, true_and, and_self, if_true, true_or]
          rw [if_neg (by decide)]
          have : decide ((43 : UInt8) = 45) = false := by decide
          rw [this]
          exact ⟨_, Prod.ext rfl g1, g2⟩
        · simp only [List.cons_append, List.nil_append, h5, hdec, true_and, and_self, if_true, or_true]
          rw [if_neg (by decide)]
          have : decide True = true := by decide
          rw [this]
          exact ⟨_, Prod.ext rfl g1, g2⟩

theorem digits_of_rest {neg : Bool} {orig e : Int} {o : Bool} {t : Bytes} (h : (exponentLoop neg orig t e o).2.2 = []) :
    ∃ ds, DigitText 10 t ds := by
  obtain ⟨w, ds, tail, rfl, h1, h2⟩ := run_total (base := 10) (by omega) t
  rw [(exponentLoop_rest neg orig w ds tail e o h1 h2).1] at h
  subst h
  exact ⟨ds, by simpa using h1⟩

theorem collectDigits_all {base : Nat} (hb : base = 2 ∨ base = 10 ∨ base = 16) {t : Bytes} (h : (collectDigits base (some 46) t).2 = []) :
    ∃ w f e whole frac ex, t = w ++ (f ++ e) ∧ DigitText base w whole ∧ FracText base f frac ∧ ExpoText base e ex := by
  obtain ⟨w, f, tail, whole, frac, rfl, h1, h2, h3⟩ := scan_total (base := base) (by omega) t
  refine ⟨w, f, tail, whole, frac, ?_⟩
  suffices ∃ ex, ExpoText base tail ex by
    obtain ⟨ex, hx⟩ := this
    exact ⟨ex, rfl, h1, h2, hx⟩
  have hl := collectLoop_scanned (base := base) (by omega) h1 h2 h3
  unfold collectDigits at h
  dsimp only at h
  rw [hl] at h
  dsimp only at h
  match tail, h with
  | [], _ => exact ⟨_, .none⟩
  | [c], h => simp at h
  | c₀ :: c₁ :: rest, h =>
    by_cases hc : (c₀ ||| 0x20) = (if base = 10 then 101 else 112) ∧ isDec c₁ = true
    · simp only [hc, and_self, if_true] at h
      obtain ⟨ds, hd⟩ := digits_of_rest h
      exact ⟨_, .some ((isExpo_iff c₀).mpr hc.1) ⟨.inl ⟨rfl, rfl⟩⟩ hd (fun hn => by have := hd.nil_iff.mpr hn; cases this)⟩
    · simp only [hc, if_false] at h
      match rest, h with
      | [], h => simp at h
      | c₂ :: rest, h =>
        by_cases hc' : (c₀ ||| 0x20) = (if base = 10 then 101 else 112) ∧ (c₁ = 43 ∨ c₁ = 45) ∧ isDec c₂ = true
        · simp only [hc', and_self, if_true] at h
          obtain ⟨ds, hd⟩ := digits_of_rest h
          obtain ⟨k1, k2, _⟩ := hc'
          have hne : ds ≠ [] := fun hn => by have := hd.nil_iff.mpr hn; cases this
          rcases k2 with rfl | rfl
          · exact ⟨_, .some ((isExpo_iff c₀).mpr k1) ⟨.inr (.inl ⟨rfl, rfl⟩)⟩ hd hne⟩
          · exact ⟨_, .some ((isExpo_iff c₀).mpr k1) ⟨.inr (.inr ⟨rfl, rfl⟩)⟩ hd hne⟩
        · simp only [hc', if_false] at h
          cases h

/-! ### The whole numeral -/

theorem parseD_of_prefix {b : Nat} {sgn pre t : Bytes} {neg : Bool} (hs : IsSign sgn neg) (hp : IsPrefix b pre)
    (h10 : b = 10 → prefixBase t = none ∧ ∃ c t', t = c :: t' ∧ Spec.digit c = true) :
    parseD (sgn ++ (pre ++ t)) =
      if (collectDigits b (some 46) t).1.valid then
        some (⟨false, neg, if b = 10 then 10 else 2, (collectDigits b (some 46) t).1.exp, (collectDigits b (some 46) t).1.mant,
          (collectDigits b (some 46) t).1.more⟩, (collectDigits b (some 46) t).2)
      else none := by
  have hdig : ∀ c, Spec.digit c = true → c ≠ 43 ∧ c ≠ 45 ∧ c ≠ 110 ∧ c ≠ 78 ∧ c ≠ 105 ∧ c ≠ 73 := forall_byte (by decide +kernel)
  have e1 : parseD (sgn ++ (pre ++ t)) = parseBase b (sgn ++ (pre ++ t)) := by
    rcases hp.prop with ⟨hb, rfl⟩ | ⟨rfl, rfl | rfl⟩ | ⟨rfl, rfl | rfl⟩
    · obtain ⟨k1, c, t', rfl, hc⟩ := h10 hb
      obtain ⟨a1, a2, _⟩ := hdig c hc
      have deco : ∀ x : UInt8, x = 43 ∨ x = 45 → prefixBase (x :: c :: t') = none := by
        intro x hx
        simp only [prefixBase]
        rw [if_neg (by rcases hx with rfl | rfl <;> decide)]
      rcases hs.prop with ⟨rfl, rfl⟩ | ⟨rfl, rfl⟩ | ⟨rfl, rfl⟩
      · simp only [List.nil_append, parseD, k1, a1, a2, or_false, if_false, hb]
      · simp only [List.nil_append, List.cons_append, parseD, deco 43 (.inl rfl), k1, true_or, if_true, hb]
      · simp only [List.nil_append, List.cons_append, parseD, deco 45 (.inr rfl), k1, or_true, if_true, hb]
    all_goals rcases hs.prop with ⟨rfl, rfl⟩ | ⟨rfl, rfl⟩ | ⟨rfl, rfl⟩ <;> rfl
  have g1 : getSign (sgn ++ (pre ++ t)) = (neg, pre ++ t) := by
    rcases hs.prop with ⟨rfl, rfl⟩ | ⟨rfl, rfl⟩ | ⟨rfl, rfl⟩
    · rcases hp.prop with ⟨hb, rfl⟩ | ⟨rfl, rfl | rfl⟩ | ⟨rfl, rfl | rfl⟩
      · obtain ⟨k1, c, t', rfl, hc⟩ := h10 hb
        obtain ⟨a1, a2, _⟩ := hdig c hc
        simp [getSign, a1, a2]
      all_goals rfl
    · rfl
    · rfl
  have s1 : getSpecial (pre ++ t) = none := by
    rcases hp.prop with ⟨hb, rfl⟩ | ⟨rfl, rfl | rfl⟩ | ⟨rfl, rfl | rfl⟩
    · obtain ⟨k1, c, t', rfl, hc⟩ := h10 hb
      obtain ⟨_, _, a3, a4, a5, a6⟩ := hdig c hc
      exact NumText.getSpecial_none c t' a3 a4 a5 a6
    all_goals exact NumText.getSpecial_none 48 _ (by decide) (by decide) (by decide) (by decide)
  have k1 : (if b = 2 then skipPrefix 98 (pre ++ t) else if b = 16 then skipPrefix 120 (pre ++ t) else pre ++ t) = t := by
    rcases hp.prop with ⟨rfl, rfl⟩ | ⟨rfl, rfl | rfl⟩ | ⟨rfl, rfl | rfl⟩ <;> rfl
  rw [e1]
  unfold parseBase
  simp only [g1, s1, k1]

theorem or_b : ∀ c : UInt8, (c ||| 0x20) = 98 ↔ c = 98 ∨ c = 66 := forall_byte (by decide +kernel)
theorem or_x : ∀ c : UInt8, (c ||| 0x20) = 120 ↔ c = 120 ∨ c = 88 := forall_byte (by decide +kernel)

theorem prefix_total {t : Bytes} (h : ∃ c t', t = c :: t' ∧ Spec.digit c = true) : ∃ b pre t', t = pre ++ t' ∧ IsPrefix b pre ∧
    (b = 10 → prefixBase t' = none ∧ ∃ c t'', t' = c :: t'' ∧ Spec.digit c = true) := by
  cases hp : prefixBase t with
  | none => exact ⟨10, [], t, rfl, ⟨.inl ⟨rfl, rfl⟩⟩, fun _ => ⟨hp, h⟩⟩
  | some b =>
    match t, hp with
    | c₀ :: c₁ :: t, hp =>
      simp only [prefixBase] at hp
      by_cases h0 : c₀ = 48
      · rw [if_pos h0] at hp
        subst h0
        by_cases h1 : (c₁ ||| 0x20) = 98
        · rw [if_pos h1] at hp
          cases hp
          rcases (or_b c₁).mp h1 with rfl | rfl
          · exact ⟨2, [48, 98], t, rfl, ⟨.inr (.inl ⟨rfl, .inl rfl⟩)⟩, by omega⟩
          · exact ⟨2, [48, 66], t, rfl, ⟨.inr (.inl ⟨rfl, .inr rfl⟩)⟩, by omega⟩
        · rw [if_neg h1] at hp
          by_cases h2 : (c₁ ||| 0x20) = 120
          · rw [if_pos h2] at hp
            cases hp
            rcases (or_x c₁).mp h2 with rfl | rfl
            · exact ⟨16, [48, 120], t, rfl, ⟨.inr (.inr ⟨rfl, .inl rfl⟩)⟩, by omega⟩
            · exact ⟨16, [48, 88], t, rfl, ⟨.inr (.inr ⟨rfl, .inr rfl⟩)⟩, by omega⟩
          · rw [if_neg h2] at hp; cases hp
      · rw [if_neg h0] at hp; cases hp

/-- A decimal numeral has no prefix. -/
theorem numeral_noPrefix {w f e : Bytes} {whole frac ex} (hw : DigitText 10 w whole) (hf : FracText 10 f frac) (he : ExpoText 10 e ex)
    (hc : ∃ c t', w ++ (f ++ e) = c :: t' ∧ Spec.digit c = true) : prefixBase (w ++ (f ++ e)) = none := by
  have hd46 : Spec.digit 46 = false := by decide +kernel
  have hexp : ∀ c, isExpo 10 c → Spec.digit c = false ∧ (c ||| 0x20) ≠ 98 ∧ (c ||| 0x20) ≠ 120 := by
    intro c hc
    rcases hc with rfl | rfl <;> decide +kernel
  have key : ∀ (c : UInt8) (f' : Bytes), (w = c :: f') → prefixBase (w ++ (f ++ e)) = none := by
    intro c w' hw'
    subst hw'
    have second : ∀ c' r, w' ++ (f ++ e) = c' :: r → (c' ||| 0x20) ≠ 98 ∧ (c' ||| 0x20) ≠ 120 := by
      intro c' r hr
      cases w' with
      | cons x w' =>
        cases hr
        cases whole with
        | nil => have := hw.eq; simp at this
        | cons d whole =>
          cases whole with
          | nil => have := hw.eq; simp at this
          | cons d' whole =>
            have h2 := hw.eq
            simp only [List.map_cons, List.cons.injEq] at h2
            obtain ⟨_, _, _, _, _, _, _, _, _, _, q⟩ := hexDigit_facts c' d' h2.2.1
            obtain ⟨q1, q2, _⟩ := q (by have := hw.lt d' (by simp); omega)
            exact ⟨q1, q2⟩
      | nil =>
        cases hf with
        | some _ => cases hr; decide
        | none =>
          cases he with
          | none => cases hr
          | some h1 _ _ _ => cases hr; exact (hexp _ h1).2
    rw [List.cons_append]
    cases hq : w' ++ (f ++ e) with
    | nil => rfl
    | cons c' r =>
      obtain ⟨q1, q2⟩ := second c' r hq
      simp [prefixBase, q1, q2]
  cases w with
  | cons c w' => exact key c w' rfl
  | nil =>
    obtain ⟨c, t', h1, h2⟩ := hc
    cases hf with
    | some _ => cases h1; rw [hd46] at h2; cases h2
    | none =>
      cases he with
      | none => cases h1
      | some h3 _ _ _ => cases h1; rw [(hexp _ h3).1] at h2; cases h2

/-- The same number, except that very large exponents need not be equal. -/
def Near (g g' : NumGet) : Prop := ∃ e, g = { g' with exp := e } ∧ Approx e g'.exp

theorem kept_bound {base : Nat} {ds : List Nat} {m : Nat} {rest : List Nat} (h : Kept base ds m rest) : rest.length ≤ ds.length := by
  obtain ⟨lead, h1, _⟩ := h.split
  rw [h1]; simp

/-- `parse_D` on a text that starts with a digit. -/
theorem parseD_numeral {sgn t : Bytes} {neg : Bool} (hs : IsSign sgn neg) (ht : ∃ c t', t = c :: t' ∧ Spec.digit c = true)
    (hl : t.length ≤ 2 ^ 57) {p : Parts} (hp : Numeral t p) : ∃ g g', parseD (sgn ++ t) = some (g, []) ∧ Meaning neg p g' ∧ Near g g' := by
  cases hp with
  | @mk base pre w f e whole frac ex hp hw hf he hne =>
    have hb := hp.base
    obtain ⟨rest, k1, k2, k3, k4⟩ := scanned_spec (base := base) (by omega) whole frac
    have hlen := kept_bound k1
    have hfl : (frac.getD []).length ≤ f.length := by
      cases hf with
      | none => simp
      | some h => simp [Spec.DigitText.length h]
    have hwl := DigitText.length hw
    simp only [List.length_append] at hl hlen
    have hsc : -2 ^ 60 ≤ scaled base (scanned base whole frac).exp ∧ scaled base (scanned base whole frac).exp ≤ 2 ^ 60 := by
      rw [k3]; unfold scaled; split <;> omega
    obtain ⟨x, q1, q2⟩ := collectDigits_exact hb hw hf he hsc.1 hsc.2
    have := parseD_of_prefix (t := w ++ (f ++ e)) hs hp (by
      rintro rfl
      have hpre : pre = [] := by rcases hp.prop with ⟨_, h⟩ | ⟨h, _⟩ | ⟨h, _⟩ <;> first | exact h | omega
      subst hpre
      exact ⟨numeral_noPrefix hw hf he ht, ht⟩)
    rw [this, q1]
    dsimp only
    rw [k4, decide_eq_true hne, if_pos rfl]
    refine ⟨_, ⟨false, neg, if base = 10 then 10 else 2, scaled base (scanned base whole frac).exp + expoValue ex, (scanned base whole frac).mant,
      (scanned base whole frac).more⟩, rfl, ⟨(scanned base whole frac).mant, rest, k1, ?_⟩, x, rfl, q2⟩
    rw [k2, k3]
    have e1 : scaled base ((rest.length : Int) - ((frac.getD []).length : Int)) =
        Parts.step ⟨base, whole, frac, ex⟩ * ((rest.length : Int) - ((frac.getD []).length : Int)) := by
      unfold scaled Parts.step; dsimp only; split <;> ring
    rw [e1]
    rfl

theorem numeral_of_parseD {sgn t : Bytes} {neg : Bool} (hs : IsSign sgn neg) (ht : ∃ c t', t = c :: t' ∧ Spec.digit c = true)
    {g : NumGet} (h : parseD (sgn ++ t) = some (g, [])) : ∃ p, Numeral t p := by
  obtain ⟨b, pre, t', rfl, hp, h10⟩ := prefix_total ht
  rw [parseD_of_prefix hs hp h10] at h
  split at h
  · rename_i hv
    have h' := congrArg Prod.snd (Option.some.inj h)
    obtain ⟨w, f, e, whole, frac, ex, rfl, h1, h2, h3⟩ := collectDigits_all hp.base h'
    refine ⟨_, .mk hp h1 h2 h3 ?_⟩
    have hl := collectLoop_scanned (base := b) (by have := hp.base; omega) h1 h2 (tail := e) fun c t h =>
      ⟨(expoText_halt hp.base h3 c t h).1, fun _ => (expoText_halt hp.base h3 c t h).2⟩
    obtain ⟨rest, k1, k2, k3, k4⟩ := scanned_spec (base := b) (by have := hp.base; omega) whole frac
    have hx : (collectDigits b (some 46) (w ++ (f ++ e))).1.valid = (scanned b whole frac).valid := by
      unfold collectDigits
      dsimp only
      rw [hl]
      dsimp only
      generalize scanned b whole frac = X
      have e : ∀ X : XUInt, (if b = 16 then { X with exp := X.exp * 4 } else X).valid = X.valid := by
        intro X; split <;> rfl
      have e' := e X
      generalize (if b = 16 then { X with exp := X.exp * 4 } else X) = Y at *
      generalize (if b = 10 then (101 : UInt8) else 112) = delim
      split
      · split
        · exact e'
        · split
          · split
            · exact e'
            · exact e'
          · exact e'
      · exact e'
    rw [hx, k4] at hv
    exact of_decide_eq_true hv
  · cases h

end Asteria.Lexer
