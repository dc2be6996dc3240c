import Verif.Model.Json
import Verif.Spec.Json

/-!
# The tokens of JSON texts
-/

namespace Asteria.Json

open JsonSpec (Blank Digits Sign Fraction Exponent Number)

/-! ### Characters -/

theorem load_ascii {b : UInt8} (s : Bytes) (h : b.toNat < 128) : load (b :: s) = .ok (some (b.toNat, s)) := by
  unfold load
  simp only
  rw [if_neg (by omega), if_neg (by omega)]

/-- The next character and the rest. -/
def peek : Bytes → Option Nat × Bytes
  | [] => (none, [])
  | b :: s => (some b.toNat, s)

/-- The context stands before a text: the first character may have been read. -/
inductive View : Ctx → Bytes → Prop
  | fresh (s) : View ⟨none, false, s⟩ s
  | look (b s) : b.toNat < 128 → View ⟨some b.toNat, false, s⟩ (b :: s)

theorem view_peek {r : Bytes} (h : ∀ b s, r = b :: s → b.toNat < 128) : View ⟨(peek r).1, false, (peek r).2⟩ r := by
  cases r with
  | nil => exact .fresh []
  | cons b s => exact .look b s (h b s rfl)

theorem View.eof {ctx : Ctx} {s : Bytes} (h : View ctx s) : ctx.eof = false := by cases h <;> rfl

theorem blank_ws {w : Bytes} (h : Blank w) : ∀ b ∈ w, isWs b.toNat = true ∧ b.toNat < 128 := by
  intro b hb
  rcases h b hb with rfl | rfl | rfl | rfl <;> decide +kernel

theorem dropWhile_blank {w : Bytes} (h : Blank w) (b : UInt8) (s : Bytes) (hb : isWs b.toNat = false) :
    (w ++ b :: s).dropWhile (fun b => isWs b.toNat) = b :: s := by
  induction w with
  | nil => rw [List.nil_append, List.dropWhile_cons_of_neg (by simp [hb])]
  | cons a w ih =>
    rw [List.cons_append, List.dropWhile_cons_of_pos (by simpa using (blank_ws h a (by simp)).1)]
    exact ih fun x hx => h x (by simp [hx])

theorem dropWhile_blanks {w : Bytes} (h : Blank w) : w.dropWhile (fun b => isWs b.toNat) = [] := by
  induction w with
  | nil => rfl
  | cons a w ih =>
    rw [List.dropWhile_cons_of_pos (by simpa using (blank_ws h a (by simp)).1)]
    exact ih fun x hx => h x (by simp [hx])

/-- A token after blanks. -/
theorem token_view {ctx : Ctx} {w : Bytes} {b : UInt8} {s : Bytes} (total : Nat) (hv : View ctx (w ++ b :: s))
    (hw : Blank w) (hb : b.toNat < 128) (hn : isWs b.toNat = false) : token total ctx = body false b.toNat s := by
  have hskip : ∀ a w', w = a :: w' → skipWs false a.toNat (w' ++ b :: s) = body false b.toNat s := by
    rintro a w' rfl
    unfold skipWs
    rw [if_pos (blank_ws hw a (by simp)).1, dropWhile_blank (fun x hx => hw x (by simp [hx])) b s hn, load_ascii s hb]
    rfl
  have hnot : skipWs false b.toNat s = body false b.toNat s := by
    unfold skipWs; rw [hn]; rfl
  generalize hq : w ++ b :: s = q at hv
  cases hv with
  | fresh _ =>
    subst hq
    unfold token
    simp only
    cases w with
    | nil =>
      rw [List.nil_append, load_ascii s hb]
      simp only [Res.bind]
      rw [if_neg (by omega), hnot]
    | cons a w =>
      rw [List.cons_append, load_ascii _ (blank_ws hw a (by simp)).2]
      simp only [Res.bind]
      have := (blank_ws hw a (by simp)).2
      rw [if_neg (by omega), hskip a w rfl]
  | look c r hc =>
    unfold token
    simp only
    cases w with
    | nil =>
      rw [List.nil_append] at hq
      cases hq
      exact hnot
    | cons a w =>
      rw [List.cons_append] at hq
      cases hq
      exact hskip _ w rfl

/-- Only blanks are left. -/
theorem token_end {ctx : Ctx} {w : Bytes} (total : Nat) (hv : View ctx w) (hw : Blank w) :
    token total ctx = .ok ([], ⟨none, true, []⟩) := by
  have hskip : ∀ a w', w = a :: w' → skipWs false a.toNat w' = .ok ([], ⟨none, true, []⟩) := by
    rintro a w' rfl
    unfold skipWs
    rw [if_pos (blank_ws hw a (by simp)).1, dropWhile_blanks (fun x hx => hw x (by simp [hx]))]
    rfl
  cases hv with
  | fresh _ =>
    unfold token
    simp only
    cases w with
    | nil => rfl
    | cons a w =>
      rw [load_ascii _ (blank_ws hw a (by simp)).2]
      simp only [Res.bind]
      have := (blank_ws hw a (by simp)).2
      rw [if_neg (by omega), hskip a w rfl]
  | look c r hc =>
    unfold token
    simp only
    exact hskip c r rfl

/-! ### Numbers and words -/

/-- The text ends, or an ASCII character that does not satisfy `p` comes next. -/
def Stop (p : Nat → Bool) (r : Bytes) : Prop := ∀ b s, r = b :: s → b.toNat < 128 ∧ p b.toNat = false

theorem run_stop {p : Nat → Bool} {t r : Bytes} (ht : ∀ b ∈ t, p b.toNat = true) (hr : Stop p r) :
    run p (t ++ r) = .ok (t, peek r) := by
  induction t with
  | nil =>
    cases r with
    | nil => rfl
    | cons b s =>
      rw [List.nil_append, run, if_neg (by simp [(hr b s rfl).2]), load_ascii s (hr b s rfl).1]
      rfl
  | cons a t ih =>
    rw [List.cons_append, run, if_pos (ht a (by simp)), ih fun b hb => ht b (by simp [hb])]
    rfl

theorem ofNat_toNat (b : UInt8) : UInt8.ofNat b.toNat = b := by simp

theorem digit_ascii {b : UInt8} (h : isDigit b.toNat = true) : b.toNat < 128 := by
  simp [isDigit] at h; omega

theorem digits_digit {d : Bytes} (h : Digits d) : ∀ b ∈ d, isDigit b.toNat = true := by
  intro b hb
  have := h.2 b hb
  simp [isDigit]; omega

theorem digits_ok {d r : Bytes} (hd : Digits d) (hr : Stop isDigit r) : digits (d ++ r) = .ok (d, peek r) := by
  cases d with
  | nil => exact absurd rfl hd.1
  | cons b d =>
    have h := digits_digit hd
    have hb := h b (by simp)
    unfold digits
    rw [List.cons_append, load_ascii _ (digit_ascii hb)]
    simp only [Res.bind]
    rw [if_pos hb, run_stop (fun x hx => h x (by simp [hx])) hr, Res.map, ofNat_toNat]

/-- What may come after a number or a word. -/
def Delim (r : Bytes) : Prop := ∀ b s, r = b :: s → b = 0x2C ∨ b = 0x5D ∨ b = 0x7D ∨ Blank [b]

theorem Delim.cases {r : Bytes} (h : Delim r) : ∀ b s, r = b :: s → b.toNat < 128 ∧ isDigit b.toNat = false ∧
    isIdent b.toNat = false ∧ b.toNat ≠ 0x2E ∧ b.toNat ≠ 0x65 ∧ b.toNat ≠ 0x45 := by
  intro b s hs
  rcases h b s hs with rfl | rfl | rfl | h
  · decide +kernel
  · decide +kernel
  · decide +kernel
  · rcases h b (by simp) with rfl | rfl | rfl | rfl <;> decide +kernel

theorem Delim.digit {r : Bytes} (h : Delim r) : Stop isDigit r := fun b s hs => ⟨(h.cases b s hs).1, (h.cases b s hs).2.1⟩

theorem sign_cases {s : Bytes} (h : Sign s) : s = [] ∨ ∃ b, s = [b] ∧ (b.toNat = 0x2B ∨ b.toNat = 0x2D) := by
  rcases h with h | h | h
  · exact .inl h
  · exact .inr ⟨_, h, .inl (by decide +kernel)⟩
  · exact .inr ⟨_, h, .inr (by decide +kernel)⟩

theorem exponent_ok {e r : Bytes} (t : Bytes) (he : Exponent e) (hr : Delim r) :
    exponent t (peek (e ++ r)).1 (peek (e ++ r)).2 = .ok (t ++ e, peek r) := by
  rcases he with rfl | ⟨c, s, d, hc, hs, hd, rfl⟩
  · cases r with
    | nil => simp [peek, exponent]
    | cons b r =>
      have := hr.cases b r rfl
      simp only [List.nil_append, peek, exponent, List.append_nil]
      rw [if_neg (by omega)]
  · have hc' : c.toNat = 0x65 ∨ c.toNat = 0x45 := by
      rcases hc with rfl | rfl
      · exact .inl (by decide +kernel)
      · exact .inr (by decide +kernel)
    rw [List.cons_append]
    simp only [peek, exponent]
    rw [if_pos hc', List.append_assoc]
    have hd2 := digits_ok hd hr.digit
    rcases sign_cases hs with rfl | ⟨b, rfl, hb⟩
    · cases d with
      | nil => exact absurd rfl hd.1
      | cons a d =>
        have ha := digits_digit hd a (by simp)
        rw [List.nil_append, hd2, List.cons_append, load_ascii _ (digit_ascii ha)]
        simp only [Res.bind, Res.map]
        have : ¬ (a.toNat = 43 ∨ a.toNat = 45) := by simp [isDigit] at ha; omega
        rw [if_neg this, ofNat_toNat]
        rfl
    · rw [List.singleton_append, load_ascii _ (by omega)]
      simp only [Res.bind]
      rw [if_pos hb, hd2, Res.map, ofNat_toNat, ofNat_toNat]
      rfl

theorem exponent_stop {e r : Bytes} (he : Exponent e) (hr : Delim r) : Stop isDigit (e ++ r) := by
  rcases he with rfl | ⟨c, s, d, hc, hs, hd, rfl⟩
  · exact hr.digit
  · intro b s hb
    rw [List.cons_append] at hb
    cases hb
    rcases hc with rfl | rfl <;> decide +kernel

theorem fraction_ok {f e r : Bytes} (t : Bytes) (hf : Fraction f) (he : Exponent e) (hr : Delim r) :
    fraction t (peek (f ++ (e ++ r))).1 (peek (f ++ (e ++ r))).2 = .ok (t ++ (f ++ e), peek r) := by
  rcases hf with rfl | ⟨d, hd, rfl⟩
  · have h := exponent_ok t he hr
    rw [List.nil_append, List.nil_append]
    cases hq : e ++ r with
    | nil => 
      have h1 := List.append_eq_nil_iff.1 hq
      rw [h1.1, h1.2]; simp [peek, fraction]
    | cons b q =>
      rw [hq] at h
      simp only [peek, fraction] at h ⊢
      rw [if_neg, h]
      rcases he with rfl | ⟨c, s, d, hc, hs, hd, rfl⟩
      · exact (hr.cases b q hq).2.2.2.1
      · rw [List.cons_append] at hq
        cases hq
        rcases hc with rfl | rfl <;> decide +kernel
  · rw [List.cons_append]
    simp only [peek, fraction]
    rw [if_pos (by decide +kernel), digits_ok hd (exponent_stop he hr)]
    simp only [Res.bind]
    rw [exponent_ok _ he hr]
    rw [ofNat_toNat, List.append_assoc]
    rfl

theorem fraction_stop {f e r : Bytes} (hf : Fraction f) (he : Exponent e) (hr : Delim r) :
    Stop isDigit (f ++ (e ++ r)) := by
  rcases hf with hf | ⟨d, hd, hf⟩
  · rw [hf, List.nil_append]; exact exponent_stop he hr
  · intro b s hb
    rw [hf, List.cons_append] at hb
    cases hb
    decide +kernel

/-- A number is one token. -/
theorem number_ok {t r : Bytes} (ht : Number t) (hr : Delim r) :
    ∃ b u, t = b :: u ∧ (b.toNat = 0x2B ∨ b.toNat = 0x2D ∨ isDigit b.toNat = true) ∧
      number b.toNat (u ++ r) = .ok (t, peek r) := by
  obtain ⟨s, i, f, e, hs, hi, hf, he, rfl⟩ := ht
  have hstop := fraction_stop hf he hr
  rcases sign_cases hs with rfl | ⟨b, rfl, hb⟩
  · cases i with
    | nil => exact absurd rfl hi.1
    | cons a i =>
      have h := digits_digit hi
      have ha := h a (by simp)
      refine ⟨a, i ++ (f ++ e), rfl, .inr (.inr ha), ?_⟩
      unfold number
      have : ¬ (a.toNat = 43 ∨ a.toNat = 45) := by simp [isDigit] at ha; omega
      rw [if_neg this, List.append_assoc, List.append_assoc, run_stop (fun x hx => h x (by simp [hx])) hstop]
      simp only [Res.bind]
      rw [fraction_ok _ hf he hr, ofNat_toNat]
      rfl
  · refine ⟨b, i ++ (f ++ e), rfl, by omega, ?_⟩
    unfold number
    rw [if_pos hb, List.append_assoc, List.append_assoc, digits_ok hi hstop]
    simp only [Res.bind]
    rw [fraction_ok _ hf he hr, ofNat_toNat]
    rfl

/-- The token of a number. -/
theorem body_number {t r : Bytes} (ht : Number t) (hr : Delim r) :
    ∃ b u, t = b :: u ∧ (b.toNat = 0x2B ∨ b.toNat = 0x2D ∨ isDigit b.toNat = true) ∧
      body false b.toNat (u ++ r) = .ok (t, ⟨(peek r).1, false, (peek r).2⟩) := by
  obtain ⟨b, u, h1, h2, h3⟩ := number_ok ht hr
  refine ⟨b, u, h1, h2, ?_⟩
  unfold body
  have hb : b.toNat = 0x2B ∨ b.toNat = 0x2D ∨ 0x30 ≤ b.toNat ∧ b.toNat ≤ 0x39 := by
    rcases h2 with h | h | h
    · exact .inl h
    · exact .inr (.inl h)
    · simp [isDigit] at h; omega
  have hi : ¬ isIdent1 b.toNat = true := by simp [isIdent1]; omega
  rw [if_neg (by omega), if_neg hi, if_pos h2, h3]
  rfl

/-- The token of a word. -/
theorem body_word {b : UInt8} {t r : Bytes} (hb : isIdent1 b.toNat = true) (ht : ∀ b ∈ t, isIdent b.toNat = true)
    (hr : Delim r) : body false b.toNat (t ++ r) = .ok (b :: t, ⟨(peek r).1, false, (peek r).2⟩) := by
  unfold body
  have h : b.toNat = 0x5F ∨ b.toNat = 0x24 ∨ 0x41 ≤ b.toNat ∧ b.toNat ≤ 0x5A ∨ 0x61 ≤ b.toNat ∧ b.toNat ≤ 0x7A := by
    simp [isIdent1] at hb; omega
  rw [if_neg (by omega), if_pos hb, run_stop ht fun b s hs => ⟨(hr.cases b s hs).1, (hr.cases b s hs).2.2.1⟩]
  simp only [Res.map, ofNat_toNat]

theorem Delim.ascii {r : Bytes} (h : Delim r) : ∀ b s, r = b :: s → b.toNat < 128 := fun b s hs => (h.cases b s hs).1

theorem delim_comma (r : Bytes) : Delim (0x2C :: r) := by
  intro b s h; cases h; exact .inl rfl

theorem delim_nil : Delim [] := by
  intro b s h; cases h

theorem delim_blank {w r : Bytes} (hw : Blank w) (hr : Delim r) : Delim (w ++ r) := by
  cases w with
  | nil => exact hr
  | cons a w =>
    intro b s h
    rw [List.cons_append] at h
    cases h
    exact .inr (.inr (.inr fun x hx => by rw [List.mem_singleton.1 hx]; exact hw a (by simp)))

end Asteria.Json
