import Verif.Proof.ConfParse
import Verif.Proof.JsonLoad

/-!
# The tokens of configuration files
-/

namespace Asteria.Conf

open ConfSpec
open JsonSpec (Item utf8)
open Utf (Scalar utf8Encode)

/-! ### Blanks and comments -/

theorem blank_iff {c : Nat} : isBlank c = true ↔ Blank c := by
  unfold isBlank Blank
  simp only [Bool.or_eq_true, decide_eq_true_eq]
  omega

theorem skip_line (t s : List Nat) (h : 0x0A ∉ t) : skip .eof .line (t ++ 0x0A :: s) = skip .eof .gap s := by
  induction t with
  | nil => simp [skip]
  | cons c t ih =>
    rw [List.mem_cons, not_or] at h
    rw [List.cons_append, skip, if_neg (fun e => h.1 e.symm), ih h.2]

theorem skip_line_end (t : List Nat) (h : 0x0A ∉ t) : skip .eof .line t = .ok [] := by
  induction t with
  | nil => rfl
  | cons c t ih =>
    rw [List.mem_cons, not_or] at h
    rw [skip, if_neg (fun e => h.1 e.symm), ih h.2]

theorem skip_block : ∀ (n : Nat) (t s : List Nat), t.length ≤ n → ¬ [0x2A, 0x2F] <:+: t → ¬ [0x2A, 0x2A] <:+: t ++ [0x2A] →
    skip .eof .block (t ++ 0x2A :: 0x2F :: s) = skip .eof .gap s := by
  intro n
  induction n with
  | zero =>
    intro t s hl _ _
    have : t = [] := List.eq_nil_of_length_eq_zero (by omega)
    subst this
    simp [skip]
  | succ n ih =>
    intro t s hl h1 h2
    cases t with
    | nil => simp [skip]
    | cons c t =>
      have hsub1 : ¬ [0x2A, 0x2F] <:+: t := fun h => h1 (h.trans (List.suffix_cons c t).isInfix)
      have hsub2 : ¬ [0x2A, 0x2A] <:+: t ++ [0x2A] := fun h => h2 (h.trans (List.suffix_cons c _).isInfix)
      simp only [List.length_cons] at hl
      rw [List.cons_append, skip.eq_def]
      dsimp only
      by_cases hc : c = 0x2A
      · rw [if_pos hc]
        subst hc
        cases t with
        | nil => exact absurd ⟨[], [], rfl⟩ h2
        | cons d t =>
          have hd : d ≠ 0x2F := by
            rintro rfl
            exact h1 ⟨[], t, by simp⟩
          simp only [List.cons_append]
          rw [if_neg hd]
          refine ih t s (by simp only [List.length_cons] at hl; omega) ?_ ?_
          · exact fun h => hsub1 (h.trans (List.suffix_cons d t).isInfix)
          · exact fun h => hsub2 (h.trans (List.suffix_cons d _).isInfix)
      · rw [if_neg hc]
        exact ih t s (by omega) hsub1 hsub2

theorem skip_gap {g : List Nat} (h : Gap .sure g) (s : List Nat) : skip .eof .gap (g ++ s) = skip .eof .gap s := by
  induction h with
  | nil => rfl
  | blank hb _ ih =>
    rename_i c u _
    rw [List.cons_append, skip.eq_def]
    dsimp only
    have : ¬ c = 0x2F := fun e => by
      subst e
      unfold Blank at hb
      omega
    rw [if_neg this, if_pos (blank_iff.2 hb), ih]
  | line ht _ ih =>
    rename_i t u _
    rw [List.cons_append, List.cons_append, List.append_assoc, List.cons_append, skip.eq_def]
    dsimp only
    rw [if_pos rfl, if_pos rfl, skip_line _ _ ht, ih]
  | paired h => cases h
  | block _ h1 h2 _ ih =>
    rename_i t u _
    rw [List.cons_append, List.cons_append, List.append_assoc, List.cons_append, List.cons_append, skip.eq_def]
    dsimp only
    rw [if_pos rfl, if_neg (by decide), if_pos rfl, skip_block _ _ _ (Nat.le_refl _) h1 (h2 rfl), ih]

theorem token_last {g : List Nat} (h : Last .sure g) : token .eof g = .ok ([], []) := by
  unfold token
  cases h with
  | gap h =>
    have := skip_gap h []
    rw [List.append_nil] at this
    rw [this]
    rfl
  | line h ht =>
    rw [skip_gap h, skip.eq_def]
    dsimp only
    rw [if_pos rfl, if_pos rfl, skip_line_end _ ht]
    rfl

/-- After the gap comes a character that is not part of one. -/
theorem token_gap {g : List Nat} (h : Gap .sure g) {c : Nat} (s : List Nat) (h1 : c ≠ 0x2F) (h2 : ¬ Blank c) :
    token .eof (g ++ c :: s) = body .eof c s := by
  unfold token
  rw [skip_gap h, skip.eq_def]
  dsimp only
  rw [if_neg h1, if_neg (fun e => h2 (blank_iff.1 e))]
  rfl

/-! ### Words -/

theorem ident_iff {c : Nat} : isIdent c = true ↔ Letter c ∨ Digit c := by
  unfold isIdent
  rw [Bool.or_eq_true, ident1_iff, digit_iff]

theorem ident_of (s r : List Nat) (hs : ∀ d ∈ s, Letter d ∨ Digit d) (hr : ∀ d t, r = d :: t → ¬ Letter d ∧ ¬ Digit d) :
    ident .eof (s ++ r) = .ok (s.map UInt8.ofNat, r) := by
  induction s with
  | nil =>
    cases r with
    | nil => rfl
    | cons d t =>
      obtain ⟨h1, h2⟩ := hr d t rfl
      rw [List.nil_append, ident, if_neg]
      · rfl
      · rw [ident_iff]
        exact fun h => h.elim h1 h2
  | cons c s ih =>
    rw [List.cons_append, ident, if_pos (ident_iff.2 (hs c (by simp))), ih (fun d hd => hs d (by simp [hd]))]
    rfl

/-! ### Strings -/

theorem single_of (s r : List Nat) (hs : ∀ c ∈ s, 0x20 ≤ c ∧ c ≠ 0x7F ∧ c ≠ 0x27) (ha : ∀ c ∈ s, c < 0x80) :
    single .eof (s ++ 0x27 :: r) = .ok (utf8 s, r) := by
  induction s with
  | nil => rfl
  | cons c s ih =>
    obtain ⟨h1, h2, h3⟩ := hs c (by simp)
    have h4 := ha c (by simp)
    rw [List.cons_append, single, if_neg (by omega), if_neg h3, ih (fun d hd => hs d (by simp [hd])) (fun d hd => ha d (by simp [hd])),
      Json.utf8_cons]
    unfold Json.put
    rw [if_pos (by omega)]
    rfl

theorem hexDigit_of {c d : Nat} (h : HexDigit c d) : hexDigit c = some d := by
  unfold hexDigit
  cases h with
  | dec h => rw [if_pos (by omega)]; congr 1; omega
  | upper h => rw [if_neg (by omega), if_pos (by omega)]; congr 1; omega
  | lower h => rw [if_neg (by omega), if_neg (by omega), if_pos (by omega)]; congr 1; omega

theorem hexLoop_of {h : List Nat} {v : Nat} (k : Hexes h v) : ∀ (n w : Nat) (r : List Nat),
    hexLoop .eof (h.length + n) w (h ++ r) = hexLoop .eof n (w * 16 ^ h.length + v) r := by
  induction k with
  | nil => intro n w r; simp
  | snoc _ hd ih =>
    intro n w r
    rename_i s v c d _
    rw [List.length_append, List.length_singleton, List.append_assoc, show s.length + 1 + n = s.length + (n + 1) by omega, ih,
      List.singleton_append, hexLoop, hexDigit_of hd]
    dsimp only
    congr 1
    ring

theorem hexLoop_all {h : List Nat} {v n : Nat} (k : Hexes h v) (hn : h.length = n) (r : List Nat) :
    hexLoop .eof n 0 (h ++ r) = .ok (v, r) := by
  have := hexLoop_of k 0 0 r
  rw [hn] at this
  rw [show n = n + 0 from rfl, this]
  simp [hexLoop]

theorem escape_of {u : List Nat} {c : Nat} (h : Elem .sure (0x5C :: u) c) (r : List Nat) : escape .eof (u ++ r) = .ok (c, r) := by
  generalize hw : 0x5C :: u = w at h
  cases h with
  | plain h1 h2 h3 h4 => cases hw; exact absurd rfl h4
  | quote => cases hw; rfl
  | backslash => cases hw; rfl
  | slash => cases hw; rfl
  | b => cases hw; rfl
  | f => cases hw; rfl
  | n => cases hw; rfl
  | r => cases hw; rfl
  | t => cases hw; rfl
  | u hh hl hs =>
    cases hw
    rw [List.cons_append, escape]
    simp (decide := true) only [if_true, if_false]
    rw [hexLoop_all hh hl, Res.ok_bind]
    dsimp only
    unfold Scalar at hs
    rw [if_neg (by omega), if_neg (by omega)]
  | pair hh hl hk hl' h1 h2 h3 h4 =>
    rename_i h k c d
    cases hw
    rw [List.cons_append, escape]
    simp (decide := true) only [if_true, if_false]
    rw [List.append_assoc, hexLoop_all hh hl, Res.ok_bind]
    dsimp only
    rw [if_neg (by omega), if_pos (by omega)]
    simp only [List.cons_append, expect, if_true, Res.ok_bind]
    rw [hexLoop_all hk hl', Res.ok_bind]
    dsimp only
    rw [if_neg (by omega)]
  | long hh hl hs hm =>
    cases hw
    have hm := hm (by decide)
    rw [List.cons_append, escape]
    simp (decide := true) only [if_true, if_false]
    rw [hexLoop_all hh hl, Res.ok_bind]
    dsimp only
    unfold Scalar at hs
    rw [if_neg (by omega), if_neg (by omega)]

theorem elem_cases {u : List Nat} {c : Nat} (h : Elem .sure u c) :
    (u = [c] ∧ 0x20 ≤ c ∧ c ≠ 0x7F ∧ c ≠ 0x22 ∧ c ≠ 0x5C) ∨ ∃ w, u = 0x5C :: w := by
  cases h with
  | plain h1 h2 h3 h4 => exact .inl ⟨rfl, h1, h2, h3, h4⟩
  | _ => exact .inr ⟨_, rfl⟩

theorem double_of {u cs : List Nat} (h : Elems .sure u cs) : ∀ (n : Nat) (r : List Nat), u.length < n →
    double .eof n (u ++ 0x22 :: r) = .ok (utf8 cs, r) := by
  induction h with
  | nil =>
    intro n r hn
    obtain ⟨n, rfl⟩ : ∃ m, n = m + 1 := ⟨n - 1, by omega⟩
    rfl
  | cons he _ ih =>
    rename_i u c s cs _
    intro n r hn
    obtain ⟨n, rfl⟩ : ∃ m, n = m + 1 := ⟨n - 1, by omega⟩
    rw [List.length_append] at hn
    rw [List.append_assoc, Json.utf8_cons]
    rcases elem_cases he with ⟨rfl, h1, h2, h3, h4⟩ | ⟨w, rfl⟩
    · rw [List.singleton_append, double, if_neg (by omega), if_neg h3, if_neg h4, ih n r (by simp only [List.length_singleton] at hn; omega)]
      rfl
    · rw [List.cons_append, double, if_neg (by omega), if_neg (by omega), if_pos rfl, escape_of he, Res.ok_bind,
        ih n r (by simp only [List.length_cons] at hn; omega)]
      rfl

/-! ### Numbers -/

/-- `valid_digits`. -/
def digitPred (base : Nat) : Nat → Bool := if base = 2 then isBin else if base = 16 then isHex else isDigit

/-- `exp_ch`. -/
def expoChar (base : Nat) : Nat := if base = 10 then 0x65 else 0x70

theorem digitPred_iff {base c : Nat} : digitPred base c = true ↔ DigitOf base c := by
  unfold digitPred DigitOf
  split
  · unfold isBin; simp
  · split
    · unfold isHex Digit isDigit; simp; omega
    · exact digit_iff

theorem digitOf_range {base c : Nat} (h : DigitOf base c) : 0x30 ≤ c ∧ c ≤ 0x66 ∧ c ≠ 0x60 := by
  unfold DigitOf Digit at h
  split at h
  · omega
  · split at h <;> omega

/-- What may follow digits. -/
def Stop (base : Nat) (r : List Nat) : Prop := ∃ d u, r = d :: u ∧ d < 256 ∧ ¬ DigitOf base d ∧ d ≠ 0x60

theorem ticked_ne {base : Nat} {s : List Nat} {t : Bytes} (h : Ticked base s t) {r : List Nat} (hr : Stop base r) :
    ∃ d u, s ++ r = d :: u ∧ d ≠ 0x60 := by
  cases h with
  | nil => obtain ⟨d, u, rfl, _, _, h⟩ := hr; exact ⟨d, u, rfl, h⟩
  | cons h _ => exact ⟨_, _, rfl, (digitOf_range h).2.2⟩
  | tick h _ => exact ⟨_, _, rfl, (digitOf_range h).2.2⟩

theorem digits_of {base : Nat} {s : List Nat} {t : Bytes} (h : Ticked base s t) {r : List Nat} (hr : Stop base r) :
    digits .eof (digitPred base) (s ++ r) = .ok (t, r) := by
  induction h with
  | nil =>
    obtain ⟨d, u, rfl, h1, h2, h3⟩ := hr
    rw [List.nil_append, digits.eq_def]
    dsimp only
    rw [if_neg (by omega), if_neg (fun e => h2 (digitPred_iff.1 e))]
  | cons h ht ih =>
    rename_i c s t
    have hc := digitOf_range h
    obtain ⟨d, u, e, hd⟩ := ticked_ne ht hr
    rw [List.cons_append, digits.eq_def]
    dsimp only
    rw [if_neg (by omega), if_pos (digitPred_iff.2 h), e]
    dsimp only
    rw [if_neg hd, ← e, ih]
    rfl
  | tick h ht ih =>
    have hc := digitOf_range h
    rw [List.cons_append, List.cons_append, digits.eq_def]
    dsimp only
    rw [if_neg (by omega), if_pos (digitPred_iff.2 h), if_pos rfl, ih]
    rfl

theorem exponentDigits_of {s : List Nat} {t : Bytes} (h : Ticked 10 s t) {r : List Nat} (hr : Stop 10 r) :
    exponentDigits .eof (s ++ r) = .ok (t, r) := by
  have hp : ∀ {c}, isDigit c = true ↔ DigitOf 10 c := @digitPred_iff 10
  induction h with
  | nil =>
    obtain ⟨d, u, rfl, h1, h2, h3⟩ := hr
    rw [List.nil_append, exponentDigits.eq_def]
    dsimp only
    rw [if_neg (fun e => h2 (hp.1 e))]
  | cons h ht ih =>
    rename_i c s t
    obtain ⟨d, u, e, hd⟩ := ticked_ne ht hr
    rw [List.cons_append, exponentDigits.eq_def]
    dsimp only
    rw [if_pos (hp.2 h), e]
    dsimp only
    rw [if_neg hd, ← e, ih]
    rfl
  | tick h ht ih =>
    rw [List.cons_append, List.cons_append, exponentDigits.eq_def]
    dsimp only
    rw [if_pos (hp.2 h), if_pos rfl, ih]
    rfl

theorem ticked_head {base : Nat} {s : List Nat} {t : Bytes} (h : Ticked base s t) (hne : t ≠ []) : ∃ c u, s = c :: u ∧ DigitOf base c := by
  cases h with
  | nil => exact absurd rfl hne
  | cons h _ => exact ⟨_, _, rfl, h⟩
  | tick h _ => exact ⟨_, _, rfl, h⟩

theorem delim_cases {d : Nat} (h : Delim d) : d ∈ [0x20, 0x09, 0x0A, 0x0B, 0x0C, 0x0D, 0x2F, 0x5B, 0x5D, 0x7B, 0x7D, 0x3A, 0x3D, 0x2C, 0x3B, 0x22, 0x27] := by
  unfold Delim Blank Punct at h
  simp only [List.mem_cons, List.not_mem_nil, or_false] at h ⊢
  omega

/-- `Delim`, as a computation. -/
theorem delim_all {P : Nat → Prop} [DecidablePred P] (h : ∀ d ∈ [0x20, 0x09, 0x0A, 0x0B, 0x0C, 0x0D, 0x2F, 0x5B, 0x5D, 0x7B, 0x7D, 0x3A, 0x3D, 0x2C, 0x3B, 0x22, 0x27], P d)
    {d : Nat} (hd : Delim d) : P d := h d (delim_cases hd)

instance (base c : Nat) : Decidable (DigitOf base c) := by unfold DigitOf Digit; infer_instance

theorem stop_delim {base : Nat} (hb : base = 2 ∨ base = 10 ∨ base = 16) {d : Nat} (u : List Nat) (h : Delim d) : Stop base (d :: u) := by
  refine ⟨d, u, rfl, ?_⟩
  rcases hb with rfl | rfl | rfl <;> exact delim_all (P := fun d => d < 256 ∧ ¬ DigitOf _ d ∧ d ≠ 0x60) (by decide) h

theorem stop_expo {base : Nat} (hb : base = 2 ∨ base = 10 ∨ base = 16) {x : List Nat} {x' : Bytes} (hx : Expo base x x') {d : Nat} (u : List Nat)
    (h : Delim d) : Stop base (x ++ d :: u) := by
  cases hx with
  | none => exact stop_delim hb u h
  | some hc _ _ _ =>
    refine ⟨_, _, rfl, ?_⟩
    rcases hb with rfl | rfl | rfl <;> rcases hc with rfl | rfl <;> decide

theorem exponent_of {base : Nat} (hb : base = 2 ∨ base = 10 ∨ base = 16) {x : List Nat} {x' : Bytes} (hx : Expo base x x') {d : Nat} (u : List Nat)
    (h : Delim d) : exponent .eof (expoChar base) (x ++ d :: u) = .ok (x', d :: u) := by
  cases hx with
  | none =>
    rw [List.nil_append]
    unfold exponent
    dsimp only
    have h1 : d ||| 0x20 ≠ 0x65 ∧ d ||| 0x20 ≠ 0x70 := delim_all (P := fun d => d ||| 0x20 ≠ 0x65 ∧ d ||| 0x20 ≠ 0x70) (by decide) h
    rw [if_neg]
    unfold expoChar
    split
    · exact h1.1
    · exact h1.2
  | some hc hg hs hne =>
    rename_i c g g' s t
    have h1 : c ||| 0x20 = expoChar base := by
      rcases hb with rfl | rfl | rfl <;> rcases hc with rfl | rfl <;> decide
    obtain ⟨a, w, rfl, ha⟩ := ticked_head hs hne
    have ha' := digitOf_range ha
    have hd := exponentDigits_of hs (stop_delim (.inr (.inl rfl)) u h)
    have h2 : exponentDigits1 .eof (a :: w ++ d :: u) = .ok (t, d :: u) := by
      rw [List.cons_append]
      unfold exponentDigits1
      dsimp only
      rw [if_pos (show isDigit a = true from (@digitPred_iff 10 a).2 ha), ← List.cons_append, hd]
    rw [List.cons_append, List.append_assoc]
    unfold exponent
    dsimp only
    rw [if_pos h1]
    cases hg with
    | none =>
      rw [List.nil_append, List.cons_append]
      dsimp only
      rw [if_neg (by omega), ← List.cons_append, h2]
      rfl
    | plus =>
      rw [List.singleton_append]
      dsimp only
      rw [if_pos (by omega), h2]
      rfl
    | minus =>
      rw [List.singleton_append]
      dsimp only
      rw [if_pos (by omega), h2]
      rfl

theorem stop_frac {base : Nat} (hb : base = 2 ∨ base = 10 ∨ base = 16) {f x : List Nat} {f' x' : Bytes} (hf : Frac base f f') (hx : Expo base x x')
    {d : Nat} (u : List Nat) (h : Delim d) : Stop base (f ++ (x ++ d :: u)) := by
  cases hf with
  | none => exact stop_expo hb hx u h
  | some =>
    refine ⟨0x2E, _, rfl, ?_⟩
    rcases hb with rfl | rfl | rfl <;> decide

theorem fraction_of {base : Nat} (hb : base = 2 ∨ base = 10 ∨ base = 16) {f x : List Nat} {f' x' : Bytes} (hf : Frac base f f') (hx : Expo base x x')
    {d : Nat} (u : List Nat) (h : Delim d) : fraction .eof (digitPred base) (f ++ (x ++ d :: u)) = .ok (f', x ++ d :: u) := by
  have hst := stop_expo hb hx u h
  cases hf with
  | none =>
    rw [List.nil_append]
    have : ∃ a w, x ++ d :: u = a :: w ∧ a ≠ 0x2E := by
      cases hx with
      | none => exact ⟨d, u, rfl, delim_all (P := fun d => d ≠ 0x2E) (by decide) h⟩
      | some hc _ _ _ =>
        refine ⟨_, _, rfl, ?_⟩
        rcases hb with rfl | rfl | rfl <;> rcases hc with rfl | rfl <;> decide
    obtain ⟨a, w, e, ha⟩ := this
    rw [e]
    unfold fraction
    dsimp only
    rw [if_neg ha]
  | some hs hne =>
    rename_i s t
    obtain ⟨a, w, rfl, ha⟩ := ticked_head hs hne
    have ha' := digitOf_range ha
    rw [List.cons_append, List.cons_append]
    unfold fraction
    dsimp only
    rw [if_pos rfl]
    rw [if_neg (by omega), if_pos (digitPred_iff.2 ha), ← List.cons_append, digits_of hs hst]
    rfl

theorem mantissa_of {base : Nat} (hb : base = 2 ∨ base = 10 ∨ base = 16) {s f x : List Nat} {s' f' x' : Bytes} (hs : Ticked base s s')
    (hf : Frac base f f') (hx : Expo base x x') {d : Nat} (u : List Nat) (h : Delim d) :
    mantissa .eof (digitPred base) (expoChar base) (s ++ (f ++ (x ++ d :: u))) = .ok (s' ++ (f' ++ x'), d :: u) := by
  unfold mantissa
  rw [digits_of hs (stop_frac hb hf hx u h), Res.ok_bind]
  dsimp only
  rw [fraction_of hb hf hx u h, Res.ok_bind]
  dsimp only
  rw [exponent_of hb hx u h]
  rfl

/-- What may follow the first digit of a decimal number. -/
def Fine (d : Nat) : Prop := d ≠ 0x60 ∧ d ||| 0x20 ≠ 0x62 ∧ d ||| 0x20 ≠ 0x78

instance (d : Nat) : Decidable (Fine d) := by unfold Fine; infer_instance

theorem digit_all {P : Nat → Prop} (h : ∀ i : Fin 10, P (0x30 + i.val)) {d : Nat} (hd : DigitOf 10 d) : P d := by
  have : Digit d := hd
  unfold Digit at this
  have := h ⟨d - 0x30, by omega⟩
  rwa [show 0x30 + (d - 0x30) = d by omega] at this

theorem fine_next {s f x : List Nat} {s' f' x' : Bytes} (hs : Ticked 10 s s')
    (hf : Frac 10 f f') (hx : Expo 10 x x') {d : Nat} (u : List Nat) (h : Delim d) :
    ∃ a w, s ++ (f ++ (x ++ d :: u)) = a :: w ∧ Fine a := by
  have hdig : ∀ {c}, DigitOf 10 c → Fine c := fun hc => digit_all (P := Fine) (by decide) hc
  cases hs with
  | cons hc _ => exact ⟨_, _, rfl, hdig hc⟩
  | tick hc _ => exact ⟨_, _, rfl, hdig hc⟩
  | nil =>
    cases hf with
    | some _ _ => exact ⟨0x2E, _, rfl, by decide⟩
    | none =>
      cases hx with
      | none => exact ⟨d, u, rfl, delim_all (P := Fine) (by decide) h⟩
      | some hc _ _ _ =>
        refine ⟨_, _, rfl, ?_⟩
        rcases hc with rfl | rfl <;> decide

/-- A number without a sign. -/
theorem unsigned_of {base : Nat} {p s f x : List Nat} {p' s' f' x' : Bytes} (hp : Prefix base p p') (hs : Ticked base s s')
    (hf : Frac base f f') (hx : Expo base x x') (hd : base = 10 → s' ≠ []) {d : Nat} (u : List Nat) (h : Delim d) :
    ∃ c w, p ++ (s ++ (f ++ (x ++ d :: u))) = c :: w ∧ DigitOf 10 c ∧
      unsigned .eof c w = .ok (p' ++ (s' ++ (f' ++ x')), d :: u) := by
  cases hp with
  | dec =>
    rw [List.nil_append, List.nil_append]
    have key : ∀ {c v t}, DigitOf 10 c → Ticked 10 v t → based .eof c (v ++ (f ++ (x ++ d :: u))) = .ok (UInt8.ofNat c :: (t ++ (f' ++ x')), d :: u) := by
      intro c v t hc hv
      obtain ⟨a, w, e, ha⟩ := fine_next hv hf hx u h
      rw [e]
      unfold based
      dsimp only
      rw [if_neg (fun h => ha.2.1 h.2), if_neg (fun h => ha.2.2 h.2), ← e]
      have := mantissa_of (.inr (.inl rfl)) hv hf hx u h
      rw [show isDigit = digitPred 10 from rfl, show 0x65 = expoChar 10 from rfl, this]
      rfl
    cases hs with
    | nil => exact absurd rfl (hd rfl)
    | cons hc hv =>
      rename_i c v t
      refine ⟨c, v ++ (f ++ (x ++ d :: u)), rfl, hc, ?_⟩
      rw [List.cons_append, ← key hc hv]
      obtain ⟨a, w, e, ha⟩ := fine_next hv hf hx u h
      rw [e]
      unfold unsigned
      dsimp only
      rw [if_neg ha.1]
    | tick hc hv =>
      rename_i c v t
      refine ⟨c, 0x60 :: (v ++ (f ++ (x ++ d :: u))), rfl, hc, ?_⟩
      rw [List.cons_append, ← key hc hv]
      unfold unsigned
      dsimp only
      rw [if_pos rfl]
  | bin hc =>
    have hm := mantissa_of (.inl rfl) hs hf hx u h
    rename_i c
    refine ⟨0x30, c :: (s ++ (f ++ (x ++ d :: u))), rfl, by decide, ?_⟩
    unfold unsigned
    dsimp only
    rw [if_neg (by omega)]
    unfold based
    dsimp only
    rw [if_pos ⟨rfl, by rcases hc with rfl | rfl <;> decide⟩, show isBin = digitPred 2 from rfl, show 0x70 = expoChar 2 from rfl, hm]
    rfl
  | binTick hc =>
    have hm := mantissa_of (.inl rfl) hs hf hx u h
    rename_i c
    refine ⟨0x30, 0x60 :: c :: (s ++ (f ++ (x ++ d :: u))), rfl, by decide, ?_⟩
    unfold unsigned
    dsimp only
    rw [if_pos rfl]
    unfold based
    dsimp only
    rw [if_pos ⟨rfl, by rcases hc with rfl | rfl <;> decide⟩, show isBin = digitPred 2 from rfl, show 0x70 = expoChar 2 from rfl, hm]
    rfl
  | hex hc =>
    have hm := mantissa_of (.inr (.inr rfl)) hs hf hx u h
    rename_i c
    refine ⟨0x30, c :: (s ++ (f ++ (x ++ d :: u))), rfl, by decide, ?_⟩
    unfold unsigned
    dsimp only
    rw [if_neg (by omega)]
    unfold based
    dsimp only
    rw [if_neg (by rcases hc with rfl | rfl <;> decide), if_pos ⟨rfl, by rcases hc with rfl | rfl <;> decide⟩, show isHex = digitPred 16 from rfl, show 0x70 = expoChar 16 from rfl, hm]
    rfl
  | hexTick hc =>
    have hm := mantissa_of (.inr (.inr rfl)) hs hf hx u h
    rename_i c
    refine ⟨0x30, 0x60 :: c :: (s ++ (f ++ (x ++ d :: u))), rfl, by decide, ?_⟩
    unfold unsigned
    dsimp only
    rw [if_pos rfl]
    unfold based
    dsimp only
    rw [if_neg (by rcases hc with rfl | rfl <;> decide), if_pos ⟨rfl, by rcases hc with rfl | rfl <;> decide⟩, show isHex = digitPred 16 from rfl, show 0x70 = expoChar 16 from rfl, hm]
    rfl

/-- A number. -/
theorem number_of {s : List Nat} {t : Bytes} (hn : Num s t) {d : Nat} (u : List Nat) (h : Delim d) :
    ∃ c w, s ++ d :: u = c :: w ∧ (c = 0x2B ∨ c = 0x2D ∨ DigitOf 10 c) ∧ number .eof c w = .ok (t, d :: u) ∧ at0 t = UInt8.ofNat c := by
  cases hn with
  | mk hg hp hs hf hx hne hd =>
    rename_i base g g' p p' s s' f f' x x'
    obtain ⟨c, w, e, hc, hk⟩ := unsigned_of hp hs hf hx hd u h
    have hat : at0 (p' ++ (s' ++ (f' ++ x'))) = UInt8.ofNat c := by
      cases hp with
      | dec =>
        cases hs with
        | nil => exact absurd rfl (hd rfl)
        | cons _ _ => cases e; rfl
        | tick _ _ => cases e; rfl
      | bin _ => cases e; rfl
      | binTick _ => cases e; rfl
      | hex _ => cases e; rfl
      | hexTick _ => cases e; rfl
    have hcd : isDigit c = true := (@digitPred_iff 10 c).2 hc
    have hr := digitOf_range hc
    simp only [List.append_assoc]
    cases hg with
    | none =>
      refine ⟨c, w, e, .inr (.inr hc), ?_, hat⟩
      have : ¬ (c = 0x2B ∨ c = 0x2D) := by omega
      unfold number
      rw [if_neg this]
      exact hk
    | plus =>
      rw [e]
      refine ⟨0x2B, c :: w, rfl, .inl rfl, ?_, rfl⟩
      unfold number
      rw [if_pos (by omega)]
      dsimp only
      rw [if_pos hcd, hk]
      rfl
    | minus =>
      rw [e]
      refine ⟨0x2D, c :: w, rfl, .inr (.inl rfl), ?_, rfl⟩
      unfold number
      rw [if_pos (by omega)]
      dsimp only
      rw [if_pos hcd, hk]
      rfl

/-! ### Tokens -/

theorem letter_lt {c : Nat} (h : Letter c) : c < 128 ∧ c ≠ 0x2F ∧ ¬ Blank c ∧ isPunct c = false := by
  unfold Letter at h
  have h1 : c < 128 := by omega
  refine ⟨h1, by omega, by unfold Blank; omega, ?_⟩
  unfold isPunct
  simp
  omega

theorem token_lexeme {g : List Nat} {t : Tok} {u r : List Nat} (hg : Gap .sure g) (h : Lexeme .sure t u r) :
    token .eof (g ++ (u ++ r)) = .ok (code t, r) ∧ Shape t ∧ u ≠ [] := by
  cases h with
  | punct hc =>
    rename_i c
    refine ⟨?_, hc, by simp⟩
    rw [List.singleton_append, token_gap hg]
    · unfold body
      rw [if_pos]
      · rfl
      · rcases punct_cases hc with rfl | rfl | rfl | rfl | rfl | rfl | rfl | rfl <;> decide
    · rcases punct_cases hc with rfl | rfl | rfl | rfl | rfl | rfl | rfl | rfl <;> decide
    · rcases punct_cases hc with rfl | rfl | rfl | rfl | rfl | rfl | rfl | rfl <;> unfold Blank <;> decide
  | word hc hs hr =>
    rename_i c s
    obtain ⟨h1, h2, h3, h4⟩ := letter_lt hc
    refine ⟨?_, ?_, by simp⟩
    · rw [List.cons_append, token_gap hg _ h2 h3]
      unfold body
      rw [h4, if_neg (by decide), if_pos (ident1_iff.2 hc), ident_of s r hs hr]
      rfl
    · show isIdent1 (UInt8.ofNat c).toNat = true
      rw [UInt8.toNat_ofNat', Nat.mod_eq_of_lt (by omega)]
      exact ident1_iff.2 hc
  | num hn h0 hr =>
    rename_i t
    cases r with
    | nil => exact absurd rfl (h0 rfl)
    | cons d v =>
      obtain ⟨c, w, e, hc, hk, ha⟩ := number_of hn v (hr (by decide) d v rfl)
      have hc' : c = 0x2B ∨ c = 0x2D ∨ (0x30 ≤ c ∧ c ≤ 0x39) := hc
      refine ⟨?_, ?_, ?_⟩
      · rw [e, token_gap hg _ (by omega) (by unfold Blank; omega)]
        unfold body
        rw [if_neg, if_neg, if_pos, hk]
        · rfl
        · rw [digit_iff]
          exact hc
        · rw [ident1_iff]
          unfold Letter
          omega
        · unfold isPunct
          simp
          omega
      · show at0 t = 0x2B ∨ at0 t = 0x2D ∨ isDigit (at0 t).toNat = true
        rw [ha]
        rcases hc with rfl | rfl | hc
        · exact .inl rfl
        · exact .inr (.inl rfl)
        · refine .inr (.inr ?_)
          rw [UInt8.toNat_ofNat', Nat.mod_eq_of_lt (by omega)]
          exact digit_iff.2 hc
      · rintro rfl
        rw [List.nil_append] at e
        have hd := hr (by decide) d v rfl
        rw [(List.cons.inj e).1] at hd
        have := delim_all (P := fun c => c ≠ 0x2B ∧ c ≠ 0x2D ∧ ¬ (0x30 ≤ c ∧ c ≤ 0x39)) (by decide) hd
        omega
  | narrow h => cases h
  | single h0 hs ha =>
    rename_i s
    refine ⟨?_, trivial, by simp⟩
    rw [List.cons_append, List.append_assoc, List.singleton_append, token_gap hg _ (by decide) (by unfold Blank; decide)]
    unfold body
    rw [if_neg (by decide), if_neg (by decide), if_neg (by decide), if_pos rfl, single_of s r hs (ha rfl)]
    rfl
  | double hu =>
    rename_i u cs
    refine ⟨?_, trivial, by simp⟩
    rw [List.cons_append, List.append_assoc, List.singleton_append, token_gap hg _ (by decide) (by unfold Blank; decide)]
    unfold body
    rw [if_neg (by decide), if_neg (by decide), if_neg (by decide), if_neg (by decide), if_pos rfl,
      double_of hu _ r (by simp only [List.length_append, List.length_cons]; omega)]
    rfl

theorem toks_of {cs : List Nat} {ts : List Tok} (h : Spells .sure cs ts) : Toks cs ts ∧ ts.length ≤ cs.length := by
  induction h with
  | nil h => exact ⟨.nil (token_last h), by simp⟩
  | cons hg hl _ ih =>
    obtain ⟨h1, h2, h3⟩ := token_lexeme hg hl
    refine ⟨.cons h1 h2 ih.1, ?_⟩
    have := List.length_pos_iff.2 h3
    simp only [List.length_append, List.length_cons]
    omega

/-! ### Characters -/

theorem enc_some {c : Nat} (h : Scalar c) : ∃ u, utf8Encode c = some u ∧ 0 < u.length := by
  obtain ⟨u, hu⟩ := (Utf.C07_encode_domain c).2 h
  refine ⟨u, hu, ?_⟩
  by_cases hc : c < 0x80
  · unfold utf8Encode at hu
    rw [if_pos hc] at hu
    cases hu
    simp
  · obtain ⟨b, t, k, _⟩ := Json.enc_high h hc
    rw [k] at hu
    cases hu
    simp

theorem decode_of (cs : List Nat) (h : ∀ c ∈ cs, Scalar c) : ∀ n, (utf8 cs).length < n → decode n (utf8 cs) = (cs, .eof) := by
  induction cs with
  | nil =>
    intro n hn
    obtain ⟨n, rfl⟩ : ∃ m, n = m + 1 := ⟨n - 1, by omega⟩
    rfl
  | cons c cs ih =>
    intro n hn
    obtain ⟨n, rfl⟩ : ∃ m, n = m + 1 := ⟨n - 1, by omega⟩
    obtain ⟨u, hu, hne⟩ := enc_some (h c (by simp))
    have e : utf8 (c :: cs) = u ++ utf8 cs := by
      simp [utf8, hu]
    rw [e] at hn ⊢
    rw [List.length_append] at hn
    rw [decode, Json.load_enc hu]
    dsimp only
    rw [ih (fun c hc => h c (by simp [hc])) n (by omega)]

/-- The byte order mark is dropped. -/
theorem dropMark_of {m cs : List Nat} {ts : List Tok} (hm : m = [] ∨ m = [0xFEFF]) (h : Spells .sure cs ts) : dropMark (m ++ cs) = cs := by
  rcases hm with rfl | rfl
  · have : ∀ c s, cs = c :: s → c ≠ 0xFEFF := by
      rintro c s rfl rfl
      have e : token .eof (0xFEFF :: s) = .throw := by
        have := token_gap (c := 0xFEFF) .nil s (by decide) (by unfold Blank; decide)
        rw [List.nil_append] at this
        rw [this]
        rfl
      cases (toks_of h).1 with
      | nil k => rw [e] at k; cases k
      | cons k _ _ => rw [e] at k; cases k
    cases cs with
    | nil => rfl
    | cons c s => exact if_neg (this c s rfl)
  · rfl

theorem loadConf_of {file : Bytes} {v : Value} (h : File .sure (fun t v => numeric t = .ok v) file v) : loadConf file = .ok v := by
  cases h with
  | mk hm hs hsp hd =>
    unfold loadConf
    rw [decode_of _ hs _ (Nat.lt_succ_self _)]
    obtain ⟨h1, h2⟩ := toks_of hsp
    exact run_of (by rwa [dropMark_of hm hsp]) (by rw [List.length_append]; omega) hd

end Asteria.Conf
