import Verif.Spec.Lexical
import Verif.Props.Utf

/-!
# Lemmas about the lexer
-/

namespace Asteria.Lexer

open Utf (WellFormed WfChar inR)
open NumText (NumGet)

variable {R : Type}

theorem forall_byte {p : UInt8 → Prop} (h : ∀ n : Fin 256, p (UInt8.ofNat n)) : ∀ c, p c := by
  intro c
  have := h ⟨c.toNat, c.toNat_lt⟩
  simpa using this

/-! ### Classes of characters -/

theorem cmask_ascii : ∀ (mask c : UInt8), isCmask mask c = true → c.toNat < 128 := by
  intro mask c h
  unfold isCmask at h
  by_cases hc : c < 128
  · exact hc
  · rw [if_neg hc] at h; simp at h

theorem cmask_name : ∀ c, isCmask 0x14 c = (Spec.letter c || Spec.digit c) := forall_byte (by decide +kernel)
theorem cmask_namei : ∀ c, isCmask 0x10 c = Spec.letter c := forall_byte (by decide +kernel)
theorem cmask_digit : ∀ c, isCmask 0x04 c = Spec.digit c := forall_byte (by decide +kernel)
theorem cmask_space : ∀ c, isCmask 0x01 c = (Spec.blank c || c = 10) := forall_byte (by decide +kernel)
theorem cmask_xdigit : ∀ c, isCmask 0x08 c = (Spec.hexDigit c).isSome := forall_byte (by decide +kernel)
theorem hexVal_eq : ∀ c d, Spec.hexDigit c = some d → hexVal c = d := by
  have : ∀ c, Spec.hexDigit c = none ∨ Spec.hexDigit c = some (hexVal c) := forall_byte (by decide +kernel)
  intro c d h
  rcases this c with h' | h' <;> rw [h] at h' <;> cases h'
  rfl

/-! ### `consume` -/

theorem consumeLoop_wf {pre : Bytes} (h : WellFormed pre) (rest : Bytes) : ∀ k, pre.length ≤ k →
    consumeLoop k pre.length (pre ++ rest) = .ok rest := by
  induction h with
  | nil => intro k _; cases k <;> rfl
  | cons c t hc _ ih =>
    intro k hk
    have hpos : 0 < c.length := by cases hc <;> simp
    obtain ⟨cp, hd⟩ := Utf.decode_wf c (t ++ rest) hc
    rw [List.length_append] at hk ⊢
    obtain ⟨m, hm⟩ : ∃ m, c.length + t.length = m + 1 := ⟨c.length + t.length - 1, by omega⟩
    obtain ⟨k', rfl⟩ : ∃ k', k = k' + 1 := ⟨k - 1, by omega⟩
    rw [hm, consumeLoop, List.append_assoc, hd]
    simp only
    rw [if_pos (by omega), ← hm, Nat.add_sub_cancel_left, List.drop_left]
    exact ih k' (by omega)

theorem consume_wf {pre : Bytes} (h : WellFormed pre) (rest : Bytes) :
    consume pre.length (pre ++ rest) = .ok rest := consumeLoop_wf h rest _ (le_refl _)

theorem consumeLoop_ok : ∀ k n s s', consumeLoop k n s = .ok s' → s' = s.drop n ∧ n ≤ s.length := by
  intro k
  induction k with
  | zero =>
    intro n s s' h
    cases n with
    | zero => simp only [consumeLoop] at h; cases h; simp
    | succ n => simp only [consumeLoop] at h; cases h
  | succ k ih =>
    intro n s s' h
    cases n with
    | zero => simp only [consumeLoop] at h; cases h; simp
    | succ n =>
      obtain ⟨r, hr, hb⟩ := Utf.C08_decode_total s s.length (le_refl _)
      simp only [consumeLoop, hr] at h
      match r, hr, hb, h with
      | some (cp, len), hr, hb, h =>
        simp only at h
        obtain ⟨h1, h2⟩ := hb cp len rfl
        by_cases hl : len ≤ n + 1
        · rw [if_pos hl] at h
          obtain ⟨e1, e2⟩ := ih _ _ _ h
          rw [List.length_drop] at e2
          rw [List.drop_drop] at e1
          refine ⟨?_, by omega⟩
          rw [e1]; congr 1; omega
        · rw [if_neg hl] at h; cases h
      | none, hr, hb, h => cases h

theorem consume_ok {n : Nat} {s s' : Bytes} (h : consume n s = .ok s') : s' = s.drop n ∧ n ≤ s.length :=
  consumeLoop_ok _ _ _ _ h

theorem consumeLoop_throw : ∀ k n s, consumeLoop k n s ≠ .throw := by
  intro k
  induction k with
  | zero => intro n s; cases n <;> simp [consumeLoop]
  | succ k ih =>
    intro n s
    cases n with
    | zero => simp [consumeLoop]
    | succ n =>
      simp only [consumeLoop]
      split
      · split
        · exact ih _ _
        · simp
      · simp

/-! ### Well-formed text -/

theorem wf_ascii {s : Bytes} (h : ∀ c ∈ s, c.toNat < 128) : WellFormed s := by
  induction s with
  | nil => exact .nil
  | cons c t ih =>
    exact .cons [c] t (.r1 c ⟨by omega, by have := h c (List.mem_cons_self ..); omega⟩)
      (ih fun x hx => h x (List.mem_cons_of_mem _ hx))

theorem wf_append {s t : Bytes} (h : WellFormed s) (h' : WellFormed t) : WellFormed (s ++ t) := by
  induction h with
  | nil => exact h'
  | cons c r hc _ ih => rw [List.append_assoc]; exact .cons c _ hc ih

theorem wfChar_cases {c : Bytes} (h : WfChar c) : (∃ a, c = [a] ∧ a.toNat < 128) ∨ ∀ x ∈ c, 128 ≤ x.toNat := by
  cases h with
  | r1 a h => exact .inl ⟨a, rfl, by unfold inR at h; omega⟩
  | _ =>
    right
    unfold inR at *
    intro x hx
    simp only [List.mem_cons, List.not_mem_nil, or_false] at hx
    rcases hx with rfl | rfl | rfl | rfl <;> omega

theorem wf_split {s : Bytes} (h : WellFormed s) : ∀ (pre : Bytes) (a : UInt8) (rest : Bytes), s = pre ++ a :: rest →
    a.toNat < 128 → WellFormed (pre ++ [a]) ∧ WellFormed rest := by
  induction h with
  | nil => intro pre a rest e; simp at e
  | cons c t hc ht ih =>
    intro pre a rest e ha
    rcases wfChar_cases hc with ⟨b, rfl, hb⟩ | hbig
    · cases pre with
      | nil =>
        simp at e
        obtain ⟨rfl, rfl⟩ := e
        exact ⟨wf_ascii (by simpa using hb), ht⟩
      | cons x pre =>
        simp at e
        obtain ⟨rfl, e⟩ := e
        obtain ⟨h1, h2⟩ := ih pre a rest e ha
        exact ⟨.cons [b] _ hc h1, h2⟩
    · rw [List.append_eq_append_iff] at e
      rcases e with ⟨d, e1, e2⟩ | ⟨d, e1, e2⟩
      · obtain ⟨h1, h2⟩ := ih d a rest e2 ha
        rw [e1, List.append_assoc]
        exact ⟨.cons c _ hc h1, h2⟩
      · cases d with
        | nil =>
          simp at e1 e2
          obtain ⟨h1, h2⟩ := ih [] a rest (by simpa using e2.symm) ha
          rw [← e1]
          exact ⟨.cons c _ hc h1, h2⟩
        | cons x d =>
          simp at e2
          obtain ⟨rfl, e2⟩ := e2
          have := hbig a (by rw [e1]; simp)
          omega

/-! ### What the acceptors take -/

/-- `rest` is what is left of `s` after some ASCII characters. -/
structure Asc (s rest : Bytes) : Prop where
  prop : ∃ pre, s = pre ++ rest ∧ ∀ c ∈ pre, c.toNat < 128

theorem Asc.refl (s : Bytes) : Asc s s := ⟨[], rfl, by simp⟩

theorem Asc.trans {s t u : Bytes} (h : Asc s t) (h' : Asc t u) : Asc s u := by
  obtain ⟨a, rfl, ha⟩ := h
  obtain ⟨b, rfl, hb⟩ := h'
  refine ⟨a ++ b, by simp, ?_⟩
  intro c hc
  rcases List.mem_append.1 hc with hc | hc
  · exact ha c hc
  · exact hb c hc

theorem Asc.cons {c : UInt8} {s t : Bytes} (h : c.toNat < 128) (h' : Asc s t) : Asc (c :: s) t := by
  obtain ⟨a, rfl, ha⟩ := h'
  exact ⟨c :: a, rfl, by simpa using ⟨h, fun x hx => ha x hx⟩⟩

theorem Asc.length {s t : Bytes} (h : Asc s t) : t.length ≤ s.length := by
  obtain ⟨a, rfl, _⟩ := h; simp

/-- `rest` is what is left of `s` after something that ends with an ASCII character. -/
structure Ends (s rest : Bytes) : Prop where
  prop : ∃ pre a, s = pre ++ a :: rest ∧ a.toNat < 128

theorem Asc.ends {s t : Bytes} (h : Asc s t) (hl : t.length < s.length) : Ends s t := by
  obtain ⟨a, rfl, ha⟩ := h
  rcases List.eq_nil_or_concat a with rfl | ⟨b, x, rfl⟩
  · simp at hl
  · exact ⟨b, x, by simp, ha x (by simp)⟩

theorem Ends.length {s t : Bytes} (h : Ends s t) : t.length < s.length := by
  obtain ⟨a, x, rfl, _⟩ := h; simp; omega

theorem collect_asc (mask : UInt8) (s : Bytes) : Asc s (collect mask s).2 := by
  induction s with
  | nil => exact .refl _
  | cons c s ih =>
    unfold collect
    by_cases h : c = 96
    · rw [if_pos h]; exact .cons (by subst h; decide) ih
    · rw [if_neg h]
      by_cases h2 : isCmask mask c = true
      · rw [if_pos h2]; exact .cons (cmask_ascii _ _ h2) ih
      · rw [if_neg h2]; exact .refl _

theorem sign_asc (s : Bytes) : Asc s (sign s).2 := by
  unfold sign
  split
  · exact .cons (by decide) (.refl _)
  · exact .cons (by decide) (.refl _)
  · exact .refl _

theorem or_ascii (c d : UInt8) (h : (c ||| 0x20) = d) (hd : d.toNat < 128) : c.toNat < 128 := by
  have : ∀ c : UInt8, (c ||| 0x20).toNat < 128 → c.toNat < 128 := forall_byte (by decide +kernel)
  exact this c (by rw [h]; exact hd)

theorem radix_asc (s : Bytes) : Asc s (radix s).2.2.2 := by
  unfold radix
  split
  · split
    · rename_i h
      refine .cons (by decide) (.cons ?_ (.refl _))
      rcases h with h | h <;> exact or_ascii _ _ h (by decide)
    · exact .cons (by decide) (.refl _)
  · exact .cons (by decide) (.refl _)
  · exact .refl _

theorem fraction_asc (mask : UInt8) (s : Bytes) : Asc s (fraction mask s).2.2 := by
  unfold fraction
  split
  · exact .cons (by decide) (collect_asc _ _)
  · exact .refl _

theorem exponent_asc (e : UInt8) (he : e.toNat < 128) (s : Bytes) : Asc s (exponent e s).2 := by
  unfold exponent
  split
  · split
    · rename_i h
      exact .cons (or_ascii _ _ h he) ((sign_asc _).trans (collect_asc _ _))
    · exact .refl _
  · exact .refl _

theorem radix_exp (s : Bytes) : (radix s).2.2.1.toNat < 128 := by
  unfold radix
  split
  · split
    · exact show (112 : UInt8).toNat < 128 by decide
    · exact show (101 : UInt8).toNat < 128 by decide
  · exact show (101 : UInt8).toNat < 128 by decide
  · exact show (101 : UInt8).toNat < 128 by decide

theorem numericText_asc (s : Bytes) : Asc s (numericText s).2.2 :=
  (radix_asc s).trans ((collect_asc _ _).trans ((fraction_asc _ _).trans ((exponent_asc _ (radix_exp s) _).trans
    (collect_asc _ _))))

/-- After a digit, the literal takes at least that digit. -/
theorem numericText_length (c : UInt8) (s : Bytes) (h : 48 ≤ c ∧ c ≤ 57) :
    (numericText (c :: s)).2.2.length < (c :: s).length := by
  have key : (collect (radix (c :: s)).2.1 (radix (c :: s)).2.2.2).2.length < (c :: s).length := by
    by_cases h0 : c = 48
    · have h1 := (collect_asc (radix (c :: s)).2.1 (radix (c :: s)).2.2.2).length
      have h2 : (radix (c :: s)).2.2.2.length < (c :: s).length := by
        subst h0
        cases s with
        | nil => simp [radix]
        | cons d s => unfold radix; simp only; split <;> simp; omega
      omega
    · have hr : radix (c :: s) = ([], 0x04, 101, c :: s) := by
        unfold radix
        split
        · rename_i e; cases e; exact absurd rfl h0
        · rename_i e; cases e; exact absurd rfl h0
        · rfl
      rw [hr]
      simp only [collect]
      have h96 : c ≠ 96 := by rintro rfl; revert h; decide
      have hd : isCmask 0x04 c = true := by
        rw [cmask_digit]
        have : ∀ c : UInt8, 48 ≤ c ∧ c ≤ 57 → Spec.digit c = true := forall_byte (by decide +kernel)
        exact this c h
      rw [if_neg h96, if_pos hd]
      have := (collect_asc 0x04 s).length
      simp; omega
  have h1 := ((fraction_asc (radix (c :: s)).2.1 (collect (radix (c :: s)).2.1 (radix (c :: s)).2.2.2).2).trans
    ((exponent_asc _ (radix_exp (c :: s)) _).trans (collect_asc 0x06 _))).length
  exact lt_of_le_of_lt h1 key

theorem takeWhile_name (s : Bytes) (n : Nat) (h : n ≤ (s.takeWhile (isCmask 0x14)).length) : Asc s (s.drop n) := by
  refine ⟨s.take n, (List.take_append_drop n s).symm, ?_⟩
  intro c hc
  have h1 : s.take n = (s.takeWhile (isCmask 0x14)).take n := by
    conv_lhs => rw [← List.takeWhile_append_dropWhile (p := isCmask 0x14) (l := s)]
    rw [List.take_append_of_le_length h]
  rw [h1] at hc
  exact cmask_ascii _ _ (List.all_eq_true.1 (List.all_takeWhile (l := s) (p := isCmask 0x14)) c (List.mem_of_mem_take hc))

theorem takeWhile_ends (s : Bytes) (n : Nat) (hn : 0 < n) (h : n ≤ (s.takeWhile (isCmask 0x14)).length) :
    Ends s (s.drop n) := by
  refine (takeWhile_name s n h).ends ?_
  have := (List.takeWhile_prefix (l := s) (isCmask 0x14)).length_le
  rw [List.length_drop]; omega

theorem acceptNan_ends {neg : Bool} {s : Bytes} {r : Tok R × Bytes} (h : acceptNan neg s = some r) : Ends s r.2 := by
  unfold acceptNan at h
  split at h
  · rename_i x y z e
    split at h
    · cases h
    · cases h; exact takeWhile_ends s 3 (by decide) (by rw [e]; simp)
  · cases h

theorem acceptInf_ends {neg : Bool} {s : Bytes} {r : Tok R × Bytes} (h : acceptInf neg s = some r) : Ends s r.2 := by
  unfold acceptInf at h
  split at h
  · rename_i x w e
    split at h
    · rename_i hw
      cases h; exact takeWhile_ends s 8 (by decide) (by rw [e, hw]; simp)
    · cases h
  · cases h

theorem Asc.trans_ends {s t u : Bytes} (h : Asc s t) (h' : Ends t u) : Ends s u := by
  obtain ⟨a, rfl, ha⟩ := h
  obtain ⟨b, x, rfl, hx⟩ := h'
  exact ⟨a ++ b, x, by simp, hx⟩

theorem acceptNumeric_ends {castD : NumGet → Option R} {prev : Option (Tok R)} {s : Bytes} {r : Tok R × Bytes}
    (h : acceptNumeric castD prev s = .ok (some r)) : Ends s r.2 := by
  unfold acceptNumeric at h
  simp only at h
  split at h
  · cases h
  · refine (sign_asc s).trans_ends ?_
    split at h
    · cases h
    · rename_i c t e
      split at h
      · exact acceptNan_ends (Res.ok.inj h)
      · split at h
        · exact acceptInf_ends (Res.ok.inj h)
        · split at h
          · rename_i hd
            cases hc : convert castD (numericText (sign s).2).2.1 ((sign s).1 ++ (numericText (sign s).2).1) with
            | ok x =>
              rw [hc] at h
              cases h
              refine (numericText_asc _).ends ?_
              rw [e]
              exact numericText_length c t hd
            | throw => rw [hc] at h; cases h
            | ub => rw [hc] at h; cases h
          · cases h

theorem puncts_ascii : ∀ e ∈ puncts, e.1 ≠ [] ∧ ∀ c ∈ e.1, c.toNat < 128 := by decide +kernel

theorem acceptPunct_ends {s : Bytes} {r} (h : acceptPunct s = some r) : Ends s r.2 := by
  unfold acceptPunct at h
  rw [Option.map_eq_some_iff] at h
  obtain ⟨e, he, rfl⟩ := h
  have hm := List.mem_of_find?_eq_some he
  have hp := List.find?_some he
  rw [List.mem_reverse] at hm
  obtain ⟨h1, h2⟩ := puncts_ascii e (List.mem_filter.1 hm).1
  obtain ⟨t, ht⟩ := List.isPrefixOf_iff_prefix.1 hp
  simp only
  rw [← ht, List.drop_left]
  refine Asc.ends ⟨e.1, rfl, h2⟩ ?_
  have : 0 < e.1.length := List.length_pos_iff.2 h1
  rw [List.length_append]; omega

theorem hexDigits_rest : ∀ n cp s r, hexDigits n cp s = .ok r → Asc s r.2 := by
  intro n
  induction n with
  | zero => intro cp s r h; simp only [hexDigits] at h; cases h; exact .refl _
  | succ n ih =>
    intro cp s r h
    cases s with
    | nil => simp only [hexDigits] at h; cases h
    | cons c s =>
      simp only [hexDigits] at h
      split at h
      · rename_i hc; exact .cons (cmask_ascii _ _ hc) (ih _ _ _ h)
      · cases h

theorem ite_or {α : Type} {p : Prop} [Decidable p] {a b x : α} (h : (if p then a else b) = x) :
    (p ∧ a = x) ∨ (¬ p ∧ b = x) := by
  by_cases hp : p
  · rw [if_pos hp] at h; exact .inl ⟨hp, h⟩
  · rw [if_neg hp] at h; exact .inr ⟨hp, h⟩

theorem escape_rest {s : Bytes} {r} (h : escape s = .ok r) : ∃ pre, s = pre ++ r.2 ∧ 0 < pre.length := by
  cases s with
  | nil => simp only [escape] at h; cases h
  | cons c s =>
    simp only [escape] at h
    iterate 11
      rcases ite_or h with ⟨_, h⟩ | ⟨_, h⟩
      · cases h; exact ⟨[c], rfl, by simp⟩
    rcases ite_or h with ⟨_, h⟩ | ⟨_, h⟩
    · cases hx : hexDigits 2 0 s with
      | ok x =>
        rw [hx] at h; cases h
        obtain ⟨p, e, _⟩ := hexDigits_rest _ _ _ _ hx
        exact ⟨c :: p, by rw [e]; rfl, by simp⟩
      | throw => rw [hx] at h; cases h
      | ub => rw [hx] at h; cases h
    rcases ite_or h with ⟨_, h⟩ | ⟨_, h⟩
    · cases hx : hexDigits (if c = 117 then 4 else 6) 0 s with
      | ok x =>
        rw [hx] at h
        simp only [Res.bind] at h
        split at h
        · cases h
          obtain ⟨p, e, _⟩ := hexDigits_rest _ _ _ _ hx
          exact ⟨c :: p, by rw [e]; rfl, by simp⟩
        · cases h
      | throw => rw [hx] at h; cases h
      | ub => rw [hx] at h; cases h
    · cases h

theorem strLoop_ends {head : UInt8} (hh : head.toNat < 128) : ∀ n val s r, strLoop head n val s = .ok r → Ends s r.2 := by
  intro n
  induction n with
  | zero => intro val s r h; simp only [strLoop] at h; cases h
  | succ n ih =>
    intro val s r h
    cases s with
    | nil => simp only [strLoop] at h; cases h
    | cons c s =>
      simp only [strLoop] at h
      split at h
      · cases h
      · split at h
        · rename_i e; cases h; exact ⟨[], c, rfl, by rw [e]; exact hh⟩
        · split at h
          · obtain ⟨p, a, e, ha⟩ := ih _ _ _ h
            exact ⟨c :: p, a, by rw [e]; rfl, ha⟩
          · cases hx : escape s with
            | ok x =>
              rw [hx] at h
              obtain ⟨q, e', _⟩ := escape_rest hx
              obtain ⟨p, a, e, ha⟩ := ih _ _ _ h
              exact ⟨c :: (q ++ p), a, by rw [e', e]; simp, ha⟩
            | throw => rw [hx] at h; cases h
            | ub => rw [hx] at h; cases h

theorem acceptString_ends {head : UInt8} (hh : head.toNat < 128) {s : Bytes} {r : Tok R × Bytes}
    (h : acceptString head s = .ok (some r)) : Ends s r.2 := by
  cases s with
  | nil => simp only [acceptString] at h; cases h
  | cons c s =>
    simp only [acceptString] at h
    split at h
    · cases h
    · cases hx : strLoop head (s.length + 1) [] s with
      | ok x =>
        rw [hx] at h
        cases h
        obtain ⟨p, a, e, ha⟩ := strLoop_ends hh _ _ _ _ hx
        exact ⟨c :: p, a, by rw [e]; rfl, ha⟩
      | throw => rw [hx] at h; cases h
      | ub => rw [hx] at h; cases h

theorem namei_name (c : UInt8) (h : isCmask 0x10 c = true) : isCmask 0x14 c = true := by
  rw [cmask_namei] at h; rw [cmask_name, h]; rfl

theorem acceptName_ends {s : Bytes} {r : Tok R × Bytes} (h : acceptName s = some r) : Ends s r.2 := by
  unfold acceptName at h
  split at h
  · cases h
  · rename_i hc
    have hpos : 0 < (s.takeWhile (isCmask 0x14)).length := by
      cases s with
      | nil => revert hc; decide +kernel
      | cons c s =>
        have : isCmask 0x14 c = true := namei_name c (by simpa using hc)
        rw [List.takeWhile_cons_of_pos this]; simp
    have := takeWhile_ends s _ hpos (le_refl _)
    simp only at h
    split at h <;> cases h <;> exact this

theorem token_ends {castD : NumGet → Option R} {prev : Option (Tok R)} {s : Bytes} {r : Tok R × Bytes}
    (h : token castD prev s = .ok (some r)) : Ends s r.2 := by
  unfold token at h
  cases h1 : acceptNumeric castD prev s with
  | throw => rw [h1] at h; cases h
  | ub => rw [h1] at h; cases h
  | ok o =>
    rw [h1] at h
    cases o with
    | some x => cases h; exact acceptNumeric_ends h1
    | none =>
      simp only [Res.bind] at h
      split at h
      · rename_i x hx; cases h; exact acceptPunct_ends hx
      · cases h2 : (acceptString 34 s : Res (Option (Tok R × Bytes))) with
        | throw => rw [h2] at h; cases h
        | ub => rw [h2] at h; cases h
        | ok o =>
          rw [h2] at h
          cases o with
          | some x => cases h; exact acceptString_ends (by decide) h2
          | none =>
            simp only at h
            cases h3 : (acceptString 39 s : Res (Option (Tok R × Bytes))) with
            | throw => rw [h3] at h; cases h
            | ub => rw [h3] at h; cases h
            | ok o =>
              rw [h3] at h
              cases o with
              | some x => cases h; exact acceptString_ends (by decide) h3
              | none => exact acceptName_ends (Res.ok.inj h)

end Asteria.Lexer
