import Verif.Proof.ConfAccept
import Verif.Proof.JsonSafe

/-!
# Where the reader of configuration files is defined
-/

namespace Asteria.Conf

open ConfSpec
open JsonSpec (Item utf8)
open Utf (Scalar utf8Encode)

theorem _root_.Asteria.ConfSpec.Cut.append {z w : List Nat} (h : Cut w) : Cut (z ++ w) := by
  obtain ⟨y, d, n, q, rfl, h⟩ := h
  exact ⟨z ++ y, d, n, q, by simp, h⟩

theorem bind_ub {α β : Type} {r : Res α} {f : α → Res β} (h : r.bind f = .ub) : r = .ub ∨ ∃ x, r = .ok x ∧ f x = .ub := by
  cases r with
  | ok x => exact .inr ⟨x, rfl, h⟩
  | throw => cases h
  | ub => exact .inl rfl

theorem map_ub {α β : Type} {r : Res α} {f : α → β} (h : r.map f = .ub) : r = .ub := by
  cases r with
  | ok x => cases h
  | throw => cases h
  | ub => rfl

section

variable {e : End} (he : e ≠ .undef)

include he

theorem at_ok_ub {α : Type} {k : Res α} (h : e.at k = .ub) : k = .ub := by
  cases e with
  | eof => exact h
  | bad => cases h
  | undef => exact absurd rfl he

theorem skip_ub : ∀ (n : Nat) (m : Mode) (s : List Nat), s.length ≤ n → skip e m s ≠ .ub := by
  intro n
  induction n with
  | zero =>
    intro m s hs h
    have : s = [] := List.eq_nil_of_length_eq_zero (by omega)
    subst this
    cases m <;> simp only [skip] at h <;> cases at_ok_ub he h
  | succ n ih =>
    intro m s hs h
    cases s with
    | nil => cases m <;> simp only [skip] at h <;> cases at_ok_ub he h
    | cons c s =>
      simp only [List.length_cons] at hs
      cases m with
      | gap =>
        rw [skip.eq_def] at h
        dsimp only at h
        split at h
        · cases s with
          | nil => cases at_ok_ub he h
          | cons d s =>
            simp only [List.length_cons] at hs
            dsimp only at h
            split at h
            · exact ih _ _ (by omega) h
            split at h
            · exact ih _ _ (by omega) h
            · cases h
        split at h
        · exact ih _ _ (by omega) h
        · cases h
      | line =>
        rw [skip.eq_def] at h
        dsimp only at h
        split at h
        · exact ih _ _ (by omega) h
        · exact ih _ _ (by omega) h
      | block =>
        rw [skip.eq_def] at h
        dsimp only at h
        split at h
        · cases s with
          | nil => cases at_ok_ub he h
          | cons d s =>
            simp only [List.length_cons] at hs
            dsimp only at h
            split at h
            · exact ih _ _ (by omega) h
            · exact ih _ _ (by omega) h
        · exact ih _ _ (by omega) h

theorem ident_ub (s : List Nat) : ident e s ≠ .ub := by
  induction s with
  | nil => intro h; cases at_ok_ub he (show e.at (.ok ([], [])) = (.ub : Res (Bytes × List Nat)) from h)
  | cons c s ih =>
    intro h
    rw [ident] at h
    split at h
    · exact ih (map_ub h)
    · cases h

theorem single_ub (s : List Nat) : single e s ≠ .ub := by
  induction s with
  | nil => intro h; cases at_ok_ub he (show e.at .throw = (.ub : Res (Bytes × List Nat)) from h)
  | cons c s ih =>
    intro h
    rw [single] at h
    split at h
    · cases h
    split at h
    · cases h
    · exact ih (map_ub h)

theorem hexLoop_ub : ∀ (n v : Nat) (s : List Nat), hexLoop e n v s ≠ .ub := by
  intro n
  induction n with
  | zero => intro v s h; cases h
  | succ n ih =>
    intro v s h
    cases s with
    | nil => cases at_ok_ub he (show e.at .throw = (.ub : Res (Nat × List Nat)) from h)
    | cons c s =>
      rw [hexLoop] at h
      split at h
      · exact ih _ _ h
      · cases h

theorem expect_ub (x : Nat) (s : List Nat) : expect e x s ≠ .ub := by
  intro h
  cases s with
  | nil => cases at_ok_ub he (show e.at .throw = (.ub : Res (List Nat)) from h)
  | cons c s =>
    rw [expect] at h
    split at h <;> cases h

theorem escape_ub (s : List Nat) : escape e s ≠ .ub := by
  intro h
  cases s with
  | nil => cases at_ok_ub he (show e.at .throw = (.ub : Res (Nat × List Nat)) from h)
  | cons c s =>
    rw [escape] at h
    split at h
    · cases h
    split at h
    · cases h
    split at h
    · cases h
    split at h
    · cases h
    split at h
    · cases h
    split at h
    · cases h
    split at h
    · rcases bind_ub h with h | ⟨x, _, h⟩
      · exact hexLoop_ub he _ _ _ h
      split at h
      · cases h
      split at h
      · rcases bind_ub h with h | ⟨_, _, h⟩
        · exact expect_ub he _ _ h
        rcases bind_ub h with h | ⟨_, _, h⟩
        · exact expect_ub he _ _ h
        rcases bind_ub h with h | ⟨_, _, h⟩
        · exact hexLoop_ub he _ _ _ h
        split at h <;> cases h
      · cases h
    split at h
    · rcases bind_ub h with h | ⟨x, _, h⟩
      · exact hexLoop_ub he _ _ _ h
      split at h
      · cases h
      split at h <;> cases h
    · cases h

theorem double_ub : ∀ (n : Nat) (s : List Nat), s.length < n → double e n s ≠ .ub := by
  intro n
  induction n with
  | zero => intro s hs; omega
  | succ n ih =>
    intro s hs h
    cases s with
    | nil => cases at_ok_ub he (show e.at .throw = (.ub : Res (Bytes × List Nat)) from h)
    | cons c s =>
      simp only [List.length_cons] at hs
      rw [double] at h
      split at h
      · cases h
      split at h
      · cases h
      split at h
      · rcases bind_ub h with h | ⟨⟨x, s1⟩, h1, h2⟩
        · exact escape_ub he _ h
        · obtain ⟨u, rfl, _⟩ := escape_inv h1
          rw [List.length_append] at hs
          exact ih s1 (by omega) (map_ub h2)
      · exact ih _ (by omega) (map_ub h)

theorem exponentDigits_ub : ∀ (n : Nat) (s : List Nat), s.length ≤ n → exponentDigits e s ≠ .ub := by
  have nil : exponentDigits e [] ≠ .ub := by
    intro h
    cases at_ok_ub he (show e.at (.ok ([], [])) = (.ub : Res (Bytes × List Nat)) by simpa [exponentDigits] using h)
  intro n
  induction n with
  | zero =>
    intro s hs
    have : s = [] := List.eq_nil_of_length_eq_zero (by omega)
    subst this
    exact nil
  | succ n ih =>
    intro s hs h
    cases s with
    | nil => exact nil h
    | cons c s =>
      simp only [List.length_cons] at hs
      rw [exponentDigits.eq_def] at h
      dsimp only at h
      split at h
      · cases s with
        | nil => exact nil (map_ub h)
        | cons d s =>
          simp only [List.length_cons] at hs
          dsimp only at h
          split at h
          · exact ih _ (by omega) (map_ub h)
          · exact ih _ (by simp only [List.length_cons]; omega) (map_ub h)
      · cases h

theorem exponentDigits1_ub (s : List Nat) : exponentDigits1 e s ≠ .ub := by
  intro h
  cases s with
  | nil => cases at_ok_ub he (show e.at .throw = (.ub : Res (Bytes × List Nat)) from h)
  | cons c s =>
    unfold exponentDigits1 at h
    dsimp only at h
    split at h
    · exact exponentDigits_ub he _ _ (Nat.le_refl _) h
    · cases h

theorem exponent_ub (x : Nat) (s : List Nat) : exponent e x s ≠ .ub := by
  intro h
  cases s with
  | nil => cases at_ok_ub he (show e.at (.ok ([], [])) = (.ub : Res (Bytes × List Nat)) from h)
  | cons c s =>
    unfold exponent at h
    dsimp only at h
    split at h
    · cases s with
      | nil => cases at_ok_ub he h
      | cons d s =>
        dsimp only at h
        split at h
        · exact exponentDigits1_ub he _ (map_ub h)
        · exact exponentDigits1_ub he _ (map_ub h)
    · cases h

end

/-! ### Numbers -/

theorem digitOf_in {base c : Nat} (h : DigitOf base c) : InNum c := by
  unfold DigitOf at h
  unfold InNum
  split at h
  · exact .inl ⟨h.1, by omega⟩
  split at h
  · rcases h with h | h | h
    · exact .inl h
    · exact .inr (.inl h)
    · exact .inr (.inr (.inl h))
  · exact .inl h

theorem ticked_in {base : Nat} {s : List Nat} {t : Bytes} (h : Ticked base s t) : ∀ c ∈ s, InNum c := by
  induction h with
  | nil => simp
  | cons hc _ ih => simpa using ⟨digitOf_in hc, ih⟩
  | tick hc _ ih => simpa using ⟨digitOf_in hc, by simp [InNum], ih⟩

/-- Some characters of a number, and then nothing, or a wide character. -/
def Open (w : List Nat) : Prop := ∃ n q, w = n ++ q ∧ (∀ c ∈ n, InNum c) ∧ Wide q

theorem open_nil : Open [] := ⟨[], [], rfl, by simp, by rintro c q' h; cases h⟩

theorem Open.append {n w : List Nat} (hn : ∀ c ∈ n, InNum c) (h : Open w) : Open (n ++ w) := by
  obtain ⟨m, q, rfl, h1, h2⟩ := h
  refine ⟨n ++ m, q, by simp, ?_, h2⟩
  intro c hc
  rcases List.mem_append.1 hc with hc | hc
  · exact hn c hc
  · exact h1 c hc

theorem Open.cons {c : Nat} {w : List Nat} (hc : InNum c) (h : Open w) : Open (c :: w) :=
  Open.append (n := [c]) (by simpa using hc) h

theorem open_wide {c : Nat} {w : List Nat} (hc : c ≥ 256) : Open (c :: w) :=
  ⟨[], c :: w, rfl, by simp, by rintro _ _ h; cases h; exact hc⟩

theorem digits_ub {e : End} {base : Nat} : ∀ (n : Nat) {s : List Nat}, s.length ≤ n → digits e (digitPred base) s = .ub → Open s := by
  intro n
  induction n with
  | zero =>
    intro s hs h
    have : s = [] := List.eq_nil_of_length_eq_zero (by omega)
    subst this
    exact open_nil
  | succ n ih =>
    intro s hs h
    cases s with
    | nil => exact open_nil
    | cons c s =>
      simp only [List.length_cons] at hs
      rw [digits.eq_def] at h
      dsimp only at h
      split at h
      · rename_i hc; exact open_wide hc
      split at h
      · rename_i hp
        have hp := digitOf_in (digitPred_iff.1 hp)
        cases s with
        | nil => exact .cons hp open_nil
        | cons d s =>
          simp only [List.length_cons] at hs
          dsimp only at h
          split at h
          · rename_i hd
            exact .cons hp (.cons (by rw [hd]; simp [InNum]) (ih (by omega) (map_ub h)))
          · exact .cons hp (ih (by simp only [List.length_cons]; omega) (map_ub h))
      · cases h

theorem fraction_ub {e : End} {base : Nat} {s : List Nat} (h : fraction e (digitPred base) s = .ub) : Open s := by
  cases s with
  | nil => exact open_nil
  | cons c s =>
    unfold fraction at h
    dsimp only at h
    split at h
    · rename_i hc
      have hc : InNum c := by rw [hc]; simp [InNum]
      cases s with
      | nil => exact .cons hc open_nil
      | cons d s =>
        dsimp only at h
        split at h
        · rename_i hd; exact .cons hc (open_wide hd)
        split at h
        · exact .cons hc (digits_ub _ (Nat.le_refl _) (map_ub h))
        · cases h
    · cases h

theorem mantissa_ub {e : End} (he : e ≠ .undef) {base : Nat} {s : List Nat} (h : mantissa e (digitPred base) (expoChar base) s = .ub) : Open s := by
  rcases bind_ub h with h | ⟨⟨a', s1⟩, h1, h2⟩
  · exact digits_ub _ (Nat.le_refl _) h
  obtain ⟨a, rfl, k1, _⟩ := digits_inv _ (Nat.le_refl _) h1
  rcases bind_ub h2 with h2 | ⟨⟨f', s2⟩, _, h3⟩
  · exact .append (ticked_in k1) (fraction_ub h2)
  · exact absurd (map_ub h3) (exponent_ub he _ _)

theorem based_ub {e : End} (he : e ≠ .undef) {c : Nat} {s : List Nat} (h : based e c s = .ub) : Open s := by
  cases s with
  | nil => exact open_nil
  | cons d s =>
    unfold based at h
    dsimp only at h
    split at h
    · rename_i hd
      refine .cons ?_ (mantissa_ub (base := 2) he (map_ub h))
      rcases or_base (.inl rfl) hd.2 with rfl | rfl <;> simp [InNum]
    split at h
    · rename_i _ hd
      refine .cons ?_ (mantissa_ub (base := 16) he (map_ub h))
      rcases or_base (.inr rfl) hd.2 with rfl | rfl <;> simp [InNum]
    · exact mantissa_ub (base := 10) he (map_ub h)

theorem Open.cut {d : Nat} {w : List Nat} (hd : Digit d) (h : Open w) : Cut (d :: w) := by
  obtain ⟨n, q, rfl, h1, h2⟩ := h
  exact ⟨[], d, n, q, rfl, hd, h1, h2⟩

theorem unsigned_ub {e : End} (he : e ≠ .undef) {c : Nat} (hc : Digit c) {s : List Nat} (h : unsigned e c s = .ub) : Cut (c :: s) := by
  refine Open.cut hc ?_
  cases s with
  | nil => exact open_nil
  | cons d s =>
    unfold unsigned at h
    dsimp only at h
    split at h
    · rename_i hd
      exact .cons (by rw [hd]; simp [InNum]) (based_ub he h)
    · exact based_ub he h

theorem number_ub {e : End} (he : e ≠ .undef) {c : Nat} {s : List Nat} (hc : c = 0x2B ∨ c = 0x2D ∨ isDigit c = true) (h : number e c s = .ub) :
    Cut (c :: s) := by
  unfold number at h
  split at h
  · cases s with
    | nil => cases at_ok_ub he h
    | cons d s =>
      dsimp only at h
      split at h
      · rename_i hd
        exact Cut.append (z := [c]) (unsigned_ub he (digit_iff.1 hd) (map_ub h))
      · cases h
  · rename_i hsg
    rw [not_or] at hsg
    exact unsigned_ub he (digit_iff.1 ((hc.resolve_left hsg.1).resolve_left hsg.2)) h

theorem token_ub {e : End} (he : e ≠ .undef) {s : List Nat} (h : token e s = .ub) : Cut s := by
  rcases bind_ub h with h | ⟨s1, h1, h2⟩
  · exact absurd h (skip_ub he _ _ _ (Nat.le_refl _))
  rcases (skip_inv e _ s (Nat.le_refl _)).1 s1 h1 with ⟨rfl, k2, k3⟩ | ⟨g, c, s2, rfl, rfl, k3⟩
  · cases h2
  · dsimp only at h2
    refine Cut.append ?_
    unfold body at h2
    split at h2
    · cases h2
    split at h2
    · exact absurd (map_ub h2) (ident_ub he _)
    split at h2
    · rename_i hc
      exact number_ub he hc h2
    split at h2
    · exact absurd (map_ub h2) (single_ub he _)
    split at h2
    · exact absurd (map_ub h2) (double_ub he _ _ (by omega))
    · cases h2

/-! ### The parser -/

theorem numeric_ub {s : List Nat} {t : Bytes} (h : Num s t) (hl : t.length ≤ 2 ^ 57) : numeric t ≠ .ub := by
  obtain ⟨sgn, neg, u, p, rfl, hs, hn, hc⟩ := num_numeral h
  rw [List.length_append] at hl
  obtain ⟨g, g', h1, h2, h3⟩ := Lexer.parseD_numeral hs hc (by omega) hn
  unfold numeric
  split
  · rename_i h46
    rw [parseI_eq h46 (special_none hs hc), h1]
    dsimp only
    intro hu
    rcases bind_ub hu with hu | ⟨x, _, hu⟩
    · refine Lexer.castI_no_ub g ?_ hu
      right
      obtain ⟨m, rest, hk, rfl⟩ := h2.kept
      obtain ⟨e, rfl, ha⟩ := h3
      dsimp only
      have := numeral_base hn
      unfold Lexer.Spec.Parts.radix
      split <;> omega
    · split at hu <;> cases hu
  · rw [h1]
    dsimp only
    cases Json.castReal g <;> simp

/-- No number is cut off, and there is no prefix without digits. -/
structure Clean (w : List Nat) : Prop where
  cut : ¬ Cut w
  hollow : ¬ Hollow w
  length : w.length ≤ 2 ^ 57

theorem Clean.suffix {z w : List Nat} (h : Clean (z ++ w)) : Clean w :=
  ⟨fun k => h.cut k.append, fun k => h.hollow k.append, by have := h.length; rw [List.length_append] at this; omega⟩

/-- A token that can be converted. -/
def Sound (tok : Bytes) : Prop := at0 tok = 0x2B ∨ at0 tok = 0x2D ∨ isDigit (at0 tok).toNat = true → numeric tok ≠ .ub

theorem token_fine {e : End} {s r : List Nat} {tok : Bytes} (hf : Clean s) (h : token e s = .ok (tok, r)) :
    Clean r ∧ Sound tok ∧ (tok = [] ∨ r.length < s.length) := by
  rcases token_inv h with ⟨rfl, rfl, _, _⟩ | ⟨g, t, u, rfl, _, rfl, k4, k5⟩
  · refine ⟨?_, fun h => absurd h (by decide), .inl rfl⟩
    have := Clean.suffix (z := s) (w := []) (by simpa using hf)
    exact this
  · have hf1 := hf.suffix
    have hu : u ≠ [] := by
      rcases k5 with k5 | ⟨b, rfl, hb, hh⟩
      · cases k5 with
        | num hn =>
          have := num_length hn
          rintro rfl
          obtain ⟨sgn, neg, u, p, rfl, _, _, c, v, rfl, _⟩ := num_numeral hn
          simp at this
        | _ => simp
      · exact absurd hh hf1.hollow
    refine ⟨hf1.suffix, ?_, .inr ?_⟩
    · intro hs
      rcases k5 with k5 | ⟨b, rfl, hb, hh⟩
      · cases k5 with
        | num hn =>
          refine numeric_ub hn ?_
          have h1 := num_length hn
          have h2 := hf1.length
          rw [List.length_append] at h2
          simp only [code]
          omega
        | punct hc =>
          exfalso
          rcases punct_cases hc with rfl | rfl | rfl | rfl | rfl | rfl | rfl | rfl <;> revert hs <;> decide
        | @word c s _ hl _ _ =>
          exfalso
          have h1 : (at0 (code (.word ((c :: s).map UInt8.ofNat)))).toNat = c := by
            show (UInt8.ofNat c).toNat = c
            rw [UInt8.toNat_ofNat', Nat.mod_eq_of_lt (by have := (letter_lt hl).1; omega)]
          unfold Letter at hl
          rcases hs with hs | hs | hs
          · rw [hs] at h1; revert h1; intro h1; change 43 = c at h1; omega
          · rw [hs] at h1; change 45 = c at h1; omega
          · rw [h1] at hs
            have := digit_iff.1 hs
            unfold Digit at this
            omega
        | narrow _ _ => exfalso; revert hs; show ¬ ((0x22 : UInt8) = 0x2B ∨ (0x22 : UInt8) = 0x2D ∨ isDigit (0x22 : UInt8).toNat = true); decide
        | single h1 _ _ => exact absurd rfl h1
        | double _ => exfalso; revert hs; show ¬ ((0x22 : UInt8) = 0x2B ∨ (0x22 : UInt8) = 0x2D ∨ isDigit (0x22 : UInt8).toNat = true); decide
      · exact absurd hh hf1.hollow
    · have : 0 < u.length := List.length_pos_iff.2 hu
      simp only [List.length_append]
      omega

theorem tokenSep_fine {e : End} {a b : UInt8} (ha : a ≠ 0) (hb : b ≠ 0) {s r : List Nat} {tok : Bytes} (hf : Clean s) (h : tokenSep e a b s = .ok (tok, r)) :
    Clean r ∧ Sound tok ∧ (tok = [] ∨ r.length < s.length) := by
  obtain ⟨⟨tok1, s1⟩, h1, h2⟩ := bind_inv h
  obtain ⟨k1, k2, k3⟩ := token_fine hf h1
  dsimp only at h2
  split at h2
  · rename_i hab
    obtain ⟨l1, l2, l3⟩ := token_fine k1 h2
    refine ⟨l1, l2, ?_⟩
    have : tok1 ≠ [] := by
      rintro rfl
      rcases hab with hab | hab
      · exact ha hab.symm
      · exact hb hab.symm
    rcases l3 with l3 | l3
    · exact .inl l3
    · exact .inr (by have := k3.resolve_left this; omega)
  · cases h2
    exact ⟨k1, k2, k3⟩

theorem tokenSep_ub {e : End} (he : e ≠ .undef) {a b : UInt8} {s : List Nat} (hf : Clean s) : tokenSep e a b s ≠ .ub := by
  intro h
  rcases bind_ub h with h | ⟨⟨tok1, s1⟩, h1, h2⟩
  · exact hf.cut (token_ub he h)
  · obtain ⟨k1, _, _⟩ := token_fine hf h1
    dsimp only at h2
    split at h2
    · exact k1.cut (token_ub he h2)
    · cases h2

/-- How many steps there can be. -/
def left : State → Nat
  | .pack _ s _ _ => 2 * s.length + 3
  | .close tok s _ _ => if tok = [] then 1 else 2 * s.length + 4

/-- The text and the token are fine. -/
def Well : State → Prop
  | .pack tok s _ _ => Clean s ∧ Sound tok
  | .close tok s _ _ => Clean s ∧ Sound tok

theorem put_ub {e : End} (he : e ≠ .undef) {x : Value} {s : List Nat} {f : Frame} {stack : List Frame} (hf : Clean s) : put e x s f stack ≠ .ub :=
  fun h => tokenSep_ub he hf (map_ub h)

theorem put_well {e : End} {x : Value} {s : List Nat} {f : Frame} {stack : List Frame} {st : State} (hf : Clean s) (h : put e x s f stack = .ok (.inl st)) :
    Well st ∧ left st ≤ 2 * s.length + 2 := by
  obtain ⟨⟨tok, r⟩, h1, h2⟩ := map_inv h
  cases h2
  obtain ⟨k1, k2, k3⟩ := tokenSep_fine (by decide) (by decide) hf h1
  refine ⟨⟨k1, k2⟩, ?_⟩
  unfold left
  dsimp only
  split
  · omega
  · rename_i hn
    have := k3.resolve_left hn
    omega

theorem value_ub {e : End} (he : e ≠ .undef) {tok : Bytes} {s : List Nat} {f : Frame} {stack : List Frame} (hf : Clean s) (hs : Sound tok) :
    value e tok s f stack ≠ .ub := by
  intro h
  unfold value at h
  split at h
  · rcases bind_ub h with h | ⟨⟨tok1, s1⟩, h1, h2⟩
    · exact hf.cut (token_ub he h)
    split at h2
    · cases h2
    split at h2
    · cases h2
    · exact put_ub he (token_fine hf h1).1 h2
  split at h
  · rcases bind_ub h with h | ⟨⟨tok1, s1⟩, h1, h2⟩
    · exact hf.cut (token_ub he h)
    split at h2
    · cases h2
    split at h2
    · cases h2
    · exact put_ub he (token_fine hf h1).1 h2
  split at h
  · rename_i hd
    rcases bind_ub h with h | ⟨x, h1, h2⟩
    · exact hs hd h
    · exact put_ub he hf h2
  split at h
  · exact put_ub he hf h
  split at h
  · exact put_ub he hf h
  split at h
  · exact put_ub he hf h
  split at h
  · exact put_ub he hf h
  · cases h

theorem value_well {e : End} {tok : Bytes} {s : List Nat} {f : Frame} {stack : List Frame} {st : State} (hf : Clean s)
    (h : value e tok s f stack = .ok (.inl st)) : Well st ∧ left st ≤ 2 * s.length + 2 := by
  unfold value at h
  split at h
  · obtain ⟨⟨tok1, s1⟩, h1, h2⟩ := bind_inv h
    obtain ⟨k1, k2, k3⟩ := token_fine hf h1
    split at h2
    · cases h2
    rename_i hn
    have := k3.resolve_left hn
    split at h2
    · cases h2
      exact ⟨⟨k1, k2⟩, by unfold left; dsimp only; omega⟩
    · obtain ⟨l1, l2⟩ := put_well k1 h2
      exact ⟨l1, by change left st ≤ 2 * s1.length + 2 at l2; omega⟩
  split at h
  · obtain ⟨⟨tok1, s1⟩, h1, h2⟩ := bind_inv h
    obtain ⟨k1, k2, k3⟩ := token_fine hf h1
    split at h2
    · cases h2
    rename_i hn
    have := k3.resolve_left hn
    split at h2
    · cases h2
      exact ⟨⟨k1, k2⟩, by unfold left; dsimp only; omega⟩
    · obtain ⟨l1, l2⟩ := put_well k1 h2
      exact ⟨l1, by change left st ≤ 2 * s1.length + 2 at l2; omega⟩
  split at h
  · obtain ⟨x, _, h2⟩ := bind_inv h
    exact put_well hf h2
  split at h
  · exact put_well hf h
  split at h
  · exact put_well hf h
  split at h
  · exact put_well hf h
  split at h
  · exact put_well hf h
  · cases h

theorem steps_ub {e : End} (he : e ≠ .undef) : ∀ (n : Nat) (st : State), Well st → left st ≤ n → steps e n st ≠ .ub := by
  intro n
  induction n with
  | zero =>
    intro st _ hn
    exfalso
    cases st with
    | pack => unfold left at hn; dsimp only at hn; omega
    | close => unfold left at hn; dsimp only at hn; split at hn <;> omega
  | succ n ih =>
    intro st hw hn h
    rcases bind_ub h with h | ⟨r, h1, h2⟩
    · cases st with
      | pack tok s cur stack =>
        obtain ⟨hf, hs⟩ := hw
        simp only [step] at h
        split at h
        · cases h
        cases cur with
        | arr items => exact value_ub he hf hs h
        | obj entries =>
          dsimp only at h
          cases hk : key tok with
          | none => rw [hk] at h; cases h
          | some k =>
            rw [hk] at h
            dsimp only at h
            rcases bind_ub h with h | ⟨⟨tok1, s1⟩, h3, h4⟩
            · exact tokenSep_ub he hf h
            · dsimp only at h4
              split at h4
              · cases h4
              · obtain ⟨l1, l2, _⟩ := tokenSep_fine (by decide) (by decide) hf h3
                exact value_ub he l1 l2 h4
      | close tok s cur stack =>
        obtain ⟨hf, hs⟩ := hw
        simp only [step] at h
        split at h
        · split at h <;> cases h
        split at h
        · cases h
        · cases stack with
          | nil => cases h
          | cons f fs => exact put_ub he hf h
    · cases r with
      | inr v => cases h2
      | inl st' =>
        have key : Well st' ∧ left st' < left st := by
          cases st with
          | pack tok s cur stack =>
            obtain ⟨hf, hs⟩ := hw
            simp only [step] at h1
            split at h1
            · cases h1
            cases cur with
            | arr items =>
              obtain ⟨k1, k2⟩ := value_well hf h1
              exact ⟨k1, by conv_rhs => unfold left
                            dsimp only; omega⟩
            | obj entries =>
              dsimp only at h1
              cases hk : key tok with
              | none => rw [hk] at h1; cases h1
              | some k =>
                rw [hk] at h1
                dsimp only at h1
                obtain ⟨⟨tok1, s1⟩, h3, h4⟩ := bind_inv h1
                dsimp only at h4
                split at h4
                · cases h4
                · obtain ⟨l1, l2, l3⟩ := tokenSep_fine (by decide) (by decide) hf h3
                  obtain ⟨k1, k2⟩ := value_well l1 h4
                  refine ⟨k1, ?_⟩
                  conv_rhs => unfold left
                  dsimp only
                  rcases l3 with rfl | l3
                  · exact absurd h4 value_empty
                  · omega
          | close tok s cur stack =>
            obtain ⟨hf, hs⟩ := hw
            simp only [step] at h1
            split at h1
            · split at h1 <;> cases h1
            rename_i htok
            split at h1
            · cases h1
              exact ⟨⟨hf, hs⟩, by unfold left; dsimp only; rw [if_neg htok]; omega⟩
            · cases stack with
              | nil => cases h1
              | cons f fs =>
                obtain ⟨k1, k2⟩ := put_well hf h1
                refine ⟨k1, ?_⟩
                conv_rhs => unfold left
                dsimp only
                rw [if_neg htok]
                omega
        exact ih _ key.1 (by omega) h2

theorem decode_undef : ∀ (n : Nat) (s : Bytes), s.length < n → (∀ b ∈ s, b.toNat < 0xFC) → (decode n s).2 ≠ .undef := by
  intro n
  induction n with
  | zero => intro s hs; omega
  | succ n ih =>
    intro s hs hb
    have := Json.load_sat (s := s) hb
    rw [decode]
    cases hl : Json.load s with
    | throw => simp
    | ub => rw [hl] at this; exact this.elim
    | ok o =>
      rw [hl] at this
      cases o with
      | none => simp
      | some x => exact ih _ (by have := this.2; omega) fun b h => hb b (this.1.subset h)

theorem decode_length : ∀ (n : Nat) (s : Bytes), s.length < n → (decode n s).1.length ≤ s.length := by
  intro n
  induction n with
  | zero => intro s hs; omega
  | succ n ih =>
    intro s hs
    rw [decode]
    cases hl : Json.load s with
    | throw => simp
    | ub => simp
    | ok o =>
      cases o with
      | none => simp
      | some x =>
        obtain ⟨c, s'⟩ := x
        obtain ⟨u, hu, rfl⟩ := Json.load_inv hl
        have hs' := (Utf.C07_encode_domain c).1 ⟨u, hu⟩
        obtain ⟨u', hu', hl'⟩ := enc_some hs'
        rw [hu] at hu'
        cases hu'
        simp only [List.length_append, List.length_cons] at hs ⊢
        have := ih s' (by omega)
        omega

theorem run_ub {cs : List Nat} {e : End} (he : e ≠ .undef) (hlen : cs.length ≤ 2 ^ 57) (hc : ¬ Cut cs) (hh : ¬ Hollow cs) : run cs e ≠ .ub := by
  have hf : Clean cs := ⟨hc, hh, by omega⟩
  have hd : Clean (dropMark cs) ∧ (dropMark cs).length ≤ cs.length := by
    cases cs with
    | nil => exact ⟨hf, by simp [dropMark]⟩
    | cons c s =>
      unfold dropMark
      dsimp only
      split
      · exact ⟨Clean.suffix (z := [c]) hf, by simp⟩
      · exact ⟨hf, by simp⟩
  intro h
  rcases bind_ub h with h | ⟨⟨tok, s⟩, h1, h2⟩
  · exact hd.1.cut (token_ub he h)
  · obtain ⟨k1, k2, k3⟩ := token_fine hd.1 h1
    dsimp only at h2
    split at h2
    · cases h2
    rename_i hn
    have := k3.resolve_left hn
    refine steps_ub he _ _ ?_ ?_ h2
    · exact ⟨k1, k2⟩
    · unfold left
      dsimp only
      omega

theorem loadConf_valid {cs : List Nat} (hs : ∀ c ∈ cs, Scalar c) (hl : (utf8 cs).length ≤ 2 ^ 57) (hc : ¬ Cut cs) (hh : ¬ Hollow cs) :
    loadConf (utf8 cs) ≠ .ub := by
  unfold loadConf
  rw [decode_of cs hs _ (by omega)]
  have := utf8_length hs
  exact run_ub (cs := cs) (by simp) (by omega) hc hh

theorem decode_append {rest : Bytes} (hr : ∀ c u r, utf8Encode c = some u → rest ≠ u ++ r) (cs : List Nat) (h : ∀ c ∈ cs, Scalar c) :
    ∀ n, (utf8 cs ++ rest).length < n → (decode n (utf8 cs ++ rest)).1 = cs := by
  induction cs with
  | nil =>
    intro n hn
    obtain ⟨n, rfl⟩ : ∃ m, n = m + 1 := ⟨n - 1, by omega⟩
    rw [show utf8 [] ++ rest = rest from rfl, decode]
    cases hl : Json.load rest with
    | throw => rfl
    | ub => rfl
    | ok o =>
      cases o with
      | none => rfl
      | some x =>
        obtain ⟨c, s'⟩ := x
        obtain ⟨u, hu, e⟩ := Json.load_inv hl
        exact absurd e (hr c u s' hu)
  | cons c cs ih =>
    intro n hn
    obtain ⟨n, rfl⟩ : ∃ m, n = m + 1 := ⟨n - 1, by omega⟩
    obtain ⟨u, hu, hl⟩ := enc_some (h c (by simp))
    have e : utf8 (c :: cs) ++ rest = u ++ (utf8 cs ++ rest) := by simp [utf8, hu]
    rw [e] at hn ⊢
    rw [List.length_append] at hn
    rw [decode, Json.load_enc hu]
    dsimp only
    rw [ih (fun c hc => h c (by simp [hc])) n (by omega)]

theorem loadConf_invalid {file : Bytes} {cs : List Nat} {rest : Bytes} (hl : file.length ≤ 2 ^ 57) (hb : ∀ b ∈ file, b.toNat < 0xFC)
    (hf : file = utf8 cs ++ rest) (hs : ∀ c ∈ cs, Scalar c) (hr : ∀ c u r, utf8Encode c = some u → rest ≠ u ++ r) (hc : ¬ Cut cs)
    (hh : ¬ Hollow cs) : loadConf file ≠ .ub := by
  have he := decode_undef (file.length + 1) file (by omega) hb
  have hcs : (decode (file.length + 1) file).1 = cs := by rw [hf]; exact decode_append hr cs hs _ (by omega)
  unfold loadConf
  rw [hcs]
  have := utf8_length hs
  rw [hf, List.length_append] at hl
  exact run_ub he (by omega) hc hh

end Asteria.Conf
