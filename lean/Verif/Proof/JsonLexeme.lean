import Verif.Proof.JsonLoad

/-!
# The tokens that the parser finds are those that are written
-/

namespace Asteria.Json

open JsonSpec (Blank Digits Sign Fraction Exponent Number utf8 Char Chars)
open Utf (Scalar utf8Encode)

/-- The context stands before `t`; the first character may have been loaded. -/
def At (ctx : Ctx) (t : Bytes) : Prop :=
  ctx.eof = false ∧ (ctx.c = none ∧ ctx.rest = t ∨ ∃ c, ctx.c = some c ∧ load t = .ok (some (c, ctx.rest)))

theorem at_fresh (t : Bytes) : At ⟨none, false, t⟩ t := ⟨rfl, .inl ⟨rfl, rfl⟩⟩

theorem bind_ok {x : Res α} {f : α → Res β} {b : β} (h : x.bind f = .ok b) : ∃ a, x = .ok a ∧ f a = .ok b := by
  cases x with
  | ok a => exact ⟨a, rfl, h⟩
  | throw => cases h
  | ub => cases h

theorem map_ok {x : Res α} {f : α → β} {b : β} (h : x.map f = .ok b) : ∃ a, x = .ok a ∧ f a = b := by
  cases x with
  | ok a => exact ⟨a, rfl, by simpa [Res.map] using h⟩
  | throw => cases h
  | ub => cases h

theorem run_inv {p : Nat → Bool} : ∀ {s t r : Bytes} {c : Option Nat}, run p s = .ok (t, c, r) →
    ∃ q, s = t ++ q ∧ (∀ b ∈ t, p b.toNat = true) ∧ At ⟨c, false, r⟩ q
  | [], t, r, c, h => by
    rw [run] at h
    cases h
    exact ⟨[], rfl, nofun, at_fresh []⟩
  | b :: s, t, r, c, h => by
    rw [run] at h
    split at h
    · rename_i hb
      obtain ⟨⟨t', c', r'⟩, h1, h2⟩ := map_ok h
      cases h2
      obtain ⟨q, k1, k2, k3⟩ := run_inv h1
      refine ⟨q, by rw [k1]; rfl, ?_, k3⟩
      intro x hx
      rcases List.mem_cons.1 hx with rfl | hx
      · exact hb
      · exact k2 x hx
    · obtain ⟨x, h1, h2⟩ := map_ok h
      cases x with
      | none => cases load_none h1
      | some x =>
        cases h2
        exact ⟨b :: s, rfl, nofun, rfl, .inr ⟨_, rfl, h1⟩⟩

theorem digits_inv {s t r : Bytes} {c : Option Nat} (h : digits s = .ok (t, c, r)) :
    ∃ q, s = t ++ q ∧ Digits t ∧ At ⟨c, false, r⟩ q := by
  obtain ⟨x, h1, h2⟩ := bind_ok h
  cases x with
  | none => cases h2
  | some x =>
    simp only at h2
    split at h2
    · rename_i hd
      obtain ⟨⟨t', c', r'⟩, h3, h4⟩ := map_ok h2
      cases h4
      obtain ⟨q, k1, k2, k3⟩ := run_inv h3
      have hlt : x.1 < 128 := by simp [isDigit] at hd; omega
      refine ⟨q, ?_, ⟨by simp, ?_⟩, k3⟩
      · rw [load_inv_ascii (c := x.1) (s := x.2) h1 hlt, k1]; rfl
      · intro b hb
        rcases List.mem_cons.1 hb with rfl | hb
        · exact ofNat_digit hd
        · exact isDigit_iff.1 (k2 b hb)
    · cases h2

theorem exponent_inv {t t' r r' q : Bytes} {c c' : Option Nat} (h : exponent t c r = .ok (t', c', r')) (ha : At ⟨c, false, r⟩ q) :
    ∃ e q', q = e ++ q' ∧ Exponent e ∧ t' = t ++ e ∧ At ⟨c', false, r'⟩ q' := by
  have none' : ∀ {c}, At ⟨c, false, r⟩ q → ∃ e q', q = e ++ q' ∧ Exponent e ∧ t = t ++ e ∧ At ⟨c, false, r⟩ q' := fun ha =>
    ⟨[], q, rfl, .inl rfl, by simp, ha⟩
  unfold exponent at h
  cases c with
  | none => cases h; exact none' ha
  | some c =>
    simp only at h
    split at h
    · rename_i hc
      obtain ⟨x, h1, h2⟩ := bind_ok h
      have hq : q = UInt8.ofNat c :: r := by
        rcases ha.2 with ⟨h, _⟩ | ⟨_, h, k⟩
        · cases h
        · cases h; exact load_inv_ascii k (by omega)
      have hE : UInt8.ofNat c = 0x65 ∨ UInt8.ofNat c = 0x45 := by rcases hc with rfl | rfl <;> decide
      cases x with
      | none => cases h2
      | some x =>
        simp only at h2
        split at h2
        · rename_i hx
          obtain ⟨⟨d, c1, r1⟩, h3, h4⟩ := map_ok h2
          cases h4
          obtain ⟨q', k1, k2, k3⟩ := digits_inv h3
          have hr := load_inv_ascii (c := x.1) (s := x.2) h1 (by omega)
          refine ⟨UInt8.ofNat c :: UInt8.ofNat x.1 :: d, q', ?_, .inr ⟨_, [UInt8.ofNat x.1], d, hE, ?_, k2, rfl⟩, rfl, k3⟩
          · rw [hq, hr, k1]; rfl
          · rcases hx with e | e
            · exact .inr (.inl (by rw [e]; rfl))
            · exact .inr (.inr (by rw [e]; rfl))
        · obtain ⟨⟨d, c1, r1⟩, h3, h4⟩ := map_ok h2
          cases h4
          obtain ⟨q', k1, k2, k3⟩ := digits_inv h3
          refine ⟨UInt8.ofNat c :: d, q', ?_, .inr ⟨_, [], d, hE, .inl rfl, k2, rfl⟩, rfl, k3⟩
          rw [hq, k1]; rfl
    · cases h; exact none' ha

theorem fraction_inv {t t' r r' q : Bytes} {c c' : Option Nat} (h : fraction t c r = .ok (t', c', r')) (ha : At ⟨c, false, r⟩ q) :
    ∃ f e q', q = f ++ (e ++ q') ∧ Fraction f ∧ Exponent e ∧ t' = t ++ (f ++ e) ∧ At ⟨c', false, r'⟩ q' := by
  unfold fraction at h
  cases c with
  | none => cases h; exact ⟨[], [], q, rfl, .inl rfl, .inl rfl, by simp, ha⟩
  | some c =>
    simp only at h
    split at h
    · rename_i hc
      obtain ⟨⟨d, c1, r1⟩, h1, h2⟩ := bind_ok h
      obtain ⟨q1, k1, k2, k3⟩ := digits_inv h1
      obtain ⟨e, q', i1, i2, i3, i4⟩ := exponent_inv h2 k3
      have hq : q = 0x2E :: r := by
        rcases ha.2 with ⟨h, _⟩ | ⟨_, h, k⟩
        · cases h
        · cases h; subst hc; exact load_inv_ascii k (by decide)
      refine ⟨0x2E :: d, e, q', ?_, .inr ⟨d, k2, rfl⟩, i2, ?_, i4⟩
      · rw [hq, k1, i1]; rfl
      · rw [i3, hc]; simp
    · obtain ⟨e, q', i1, i2, i3, i4⟩ := exponent_inv h ha
      exact ⟨[], e, q', i1, .inl rfl, i2, i3, i4⟩

theorem number_inv {s t r : Bytes} {c : Nat} {c' : Option Nat} (h : number c s = .ok (t, c', r))
    (hc : c = 0x2B ∨ c = 0x2D ∨ isDigit c = true) :
    ∃ u q, s = u ++ q ∧ t = UInt8.ofNat c :: u ∧ Number t ∧ At ⟨c', false, r⟩ q := by
  unfold number at h
  split at h
  · rename_i hs
    obtain ⟨⟨d, c1, r1⟩, h1, h2⟩ := bind_ok h
    obtain ⟨q1, k1, k2, k3⟩ := digits_inv h1
    obtain ⟨f, e, q', i1, i2, i3, i4, i5⟩ := fraction_inv h2 k3
    refine ⟨d ++ (f ++ e), q', by rw [k1, i1]; simp, by rw [i4]; rfl, ?_, i5⟩
    refine ⟨[UInt8.ofNat c], d, f, e, ?_, k2, i2, i3, by rw [i4]; rfl⟩
    rcases hs with rfl | rfl
    · exact .inr (.inl rfl)
    · exact .inr (.inr rfl)
  · rename_i hs
    have hd : isDigit c = true := by
      rcases hc with h | h | h
      · exact absurd (.inl h) hs
      · exact absurd (.inr h) hs
      · exact h
    obtain ⟨⟨d, c1, r1⟩, h1, h2⟩ := bind_ok h
    obtain ⟨q1, k1, k2, k3⟩ := run_inv h1
    obtain ⟨f, e, q', i1, i2, i3, i4, i5⟩ := fraction_inv h2 k3
    refine ⟨d ++ (f ++ e), q', by rw [k1, i1]; simp, by rw [i4]; rfl, ?_, i5⟩
    refine ⟨[], UInt8.ofNat c :: d, f, e, .inl rfl, ⟨by simp, ?_⟩, i2, i3, by rw [i4]; rfl⟩
    intro b hb
    rcases List.mem_cons.1 hb with rfl | hb
    · exact ofNat_digit hd
    · exact isDigit_iff.1 (k2 b hb)

/-- The text of a token. -/
inductive Lexeme : Bytes → Bytes → Prop
  | punct {c} : c = 0x5B ∨ c = 0x5D ∨ c = 0x7B ∨ c = 0x7D ∨ c = 0x3A ∨ c = 0x2C → Lexeme [c] [c]
  | word {b u} : isIdent1 b.toNat = true → (∀ x ∈ u, isIdent x.toNat = true) → Lexeme (b :: u) (b :: u)
  | number {t} : Number t → Lexeme t t
  | string {u cs} : Chars u cs → Lexeme (0x22 :: (u ++ [0x22])) (0x22 :: utf8 cs)

theorem body_inv {c : Nat} {s tok : Bytes} {ctx : Ctx} (h : body false c s = .ok (tok, ctx)) :
    c < 128 ∧ ∃ u r, s = u ++ r ∧ Lexeme (UInt8.ofNat c :: u) tok ∧ At ctx r := by
  unfold body at h
  split at h
  · rename_i hc
    cases h
    refine ⟨by omega, [], s, rfl, .punct ?_, at_fresh s⟩
    rcases hc with rfl | rfl | rfl | rfl | rfl | rfl <;> decide
  split at h
  · rename_i hc
    have hlt : c < 128 := by simp [isIdent1] at hc; omega
    have e : (UInt8.ofNat c).toNat = c := by rw [Utf.ofNat_toNat]; omega
    obtain ⟨⟨d, c1, r1⟩, h1, h2⟩ := map_ok h
    cases h2
    obtain ⟨q, k1, k2, k3⟩ := run_inv h1
    exact ⟨hlt, d, q, k1, .word (by rw [e]; exact hc) k2, k3⟩
  split at h
  · rename_i hc
    obtain ⟨⟨d, c1, r1⟩, h1, h2⟩ := map_ok h
    cases h2
    obtain ⟨u, q, k1, k2, k3, k4⟩ := number_inv h1 hc
    refine ⟨?_, u, q, k1, ?_, k4⟩
    · rcases hc with h | h | h
      · omega
      · omega
      · simp [isDigit] at h; omega
    · dsimp only
      rw [k2] at k3 ⊢
      exact .number k3
  split at h
  · rename_i hc
    obtain ⟨⟨d, r⟩, h1, h2⟩ := map_ok h
    cases h2
    obtain ⟨u, cs, k1, k2, k3⟩ := strLoop_inv _ h1
    refine ⟨by omega, u ++ [0x22], r, by rw [k2]; simp, ?_, at_fresh r⟩
    dsimp only
    rw [k3, hc]
    exact .string k1
  · cases h

/-- `do_token` where there is no byte order mark. -/
def tok0 (t : Bytes) : Res (Bytes × Ctx) :=
  (load t).bind fun
    | none => .ok ([], ⟨none, true, []⟩)
    | some x => skipWs false x.1 x.2

theorem token_at {ctx : Ctx} {t : Bytes} {total : Nat} (h : At ctx t) (ht : t.length < total) : token total ctx = tok0 t := by
  obtain ⟨c, eof, rest⟩ := ctx
  obtain ⟨h1, h2⟩ := h
  simp only at h1 h2
  subst h1
  unfold token tok0
  rcases h2 with ⟨rfl, rfl⟩ | ⟨c, rfl, h3⟩
  · simp only
    congr 1
    funext x
    cases x with
    | none => rfl
    | some x => simp only; rw [if_neg (by omega)]
  · simp only [h3, Res.bind]

theorem isWs_iff {c : Nat} : isWs c = true ↔ c = 0x20 ∨ c = 0x09 ∨ c = 0x0D ∨ c = 0x0A := by
  unfold isWs; simp [or_assoc]

theorem blank_of_ws {b : UInt8} (h : isWs b.toNat = true) : b = 0x20 ∨ b = 0x09 ∨ b = 0x0A ∨ b = 0x0D := by
  rw [isWs_iff] at h
  rcases h with h | h | h | h
  · exact .inl (eq_of_toNat h)
  · exact .inr (.inl (eq_of_toNat h))
  · exact .inr (.inr (.inr (eq_of_toNat h)))
  · exact .inr (.inr (.inl (eq_of_toNat h)))

theorem blank_takeWhile : ∀ s : Bytes, Blank (s.takeWhile fun b => isWs b.toNat)
  | [] => nofun
  | b :: s => by
    by_cases hb : isWs b.toNat = true
    · rw [List.takeWhile_cons_of_pos (by simpa using hb)]
      intro x hx
      rcases List.mem_cons.1 hx with rfl | hx
      · exact blank_of_ws hb
      · exact blank_takeWhile s x hx
    · rw [List.takeWhile_cons_of_neg (by simpa using hb)]
      exact nofun

/-- A token comes after blanks; or there is nothing but blanks. -/
theorem tok0_inv {t tok : Bytes} {ctx : Ctx} (h : tok0 t = .ok (tok, ctx)) :
    (Blank t ∧ tok = [] ∧ ctx.eof = true) ∨
      ∃ w u r, t = w ++ (u ++ r) ∧ Blank w ∧ Lexeme u tok ∧ At ctx r ∧ r.length < t.length := by
  obtain ⟨x, h1, h2⟩ := bind_ok h
  cases x with
  | none =>
    cases h2
    cases load_none h1
    exact .inl ⟨nofun, rfl, rfl⟩
  | some x =>
    simp only at h2
    unfold skipWs at h2
    split at h2
    · rename_i hw
      have hlt : x.1 < 128 := by rw [isWs_iff] at hw; omega
      have ht := load_inv_ascii (c := x.1) (s := x.2) h1 hlt
      have hx : Blank (UInt8.ofNat x.1 :: x.2.takeWhile fun b => isWs b.toNat) := by
        intro b hb
        rcases List.mem_cons.1 hb with rfl | hb
        · have e : (UInt8.ofNat x.1).toNat = x.1 := by rw [Utf.ofNat_toNat]; omega
          exact blank_of_ws (by rw [e]; exact hw)
        · exact blank_takeWhile _ b hb
      have hs : (x.2.takeWhile fun b => isWs b.toNat) ++ (x.2.dropWhile fun b => isWs b.toNat) = x.2 :=
        List.takeWhile_append_dropWhile
      obtain ⟨y, h3, h4⟩ := bind_ok h2
      cases y with
      | none =>
        cases h4
        refine .inl ⟨?_, rfl, rfl⟩
        rw [load_none h3, List.append_nil] at hs
        rw [ht, ← hs]
        exact hx
      | some y =>
        obtain ⟨k0, u, r, k1, k2, k3⟩ := body_inv h4
        have hd := load_inv_ascii (c := y.1) (s := y.2) h3 k0
        have e : t = (UInt8.ofNat x.1 :: x.2.takeWhile fun b => isWs b.toNat) ++ ((UInt8.ofNat y.1 :: u) ++ r) := by
          rw [ht, List.cons_append, List.cons_append, ← k1, ← hd, hs]
        refine .inr ⟨_, _, r, e, hx, k2, k3, ?_⟩
        rw [e]; simp; omega
    · obtain ⟨k0, u, r, k1, k2, k3⟩ := body_inv h2
      have hd := load_inv_ascii (c := x.1) (s := x.2) h1 k0
      have e : t = [] ++ ((UInt8.ofNat x.1 :: u) ++ r) := by rw [hd, k1]; rfl
      refine .inr ⟨[], _, r, e, nofun, k2, k3, ?_⟩
      rw [e]; simp; omega

theorem lexeme_number {t : Bytes} (h : Number t) : at0 t = 0x2B ∨ at0 t = 0x2D ∨ isDigit (at0 t).toNat = true := by
  obtain ⟨s, i, f, e, hs, hi, hf, he, rfl⟩ := h
  rcases hs with rfl | rfl | rfl
  · cases i with
    | nil => exact absurd rfl hi.1
    | cons a i => exact .inr (.inr (isDigit_iff.2 (hi.2 a (by simp))))
  · exact .inl rfl
  · exact .inr (.inl rfl)

theorem Lexeme.ne {u tok : Bytes} (h : Lexeme u tok) : tok ≠ [] ∧ u ≠ [] := by
  cases h with
  | punct _ => simp
  | word _ _ => simp
  | number h =>
    obtain ⟨s, i, f, e, hs, hi, hf, he, rfl⟩ := h
    have := hi.1
    simp [this]
  | string _ => simp

theorem word_facts {b : UInt8} (h : isIdent1 b.toNat = true) :
    b ≠ 0x5B ∧ b ≠ 0x5D ∧ b ≠ 0x7B ∧ b ≠ 0x7D ∧ b ≠ 0x3A ∧ b ≠ 0x2C ∧ b ≠ 0x22 ∧ b ≠ 0x2B ∧ b ≠ 0x2D ∧ isDigit b.toNat = false := by
  simp only [isIdent1, Bool.or_eq_true, decide_eq_true_eq, Bool.and_eq_true] at h
  simp only [ne_eq, ← UInt8.toNat_inj, isDigit, Bool.and_eq_false_iff, decide_eq_false_iff_not]
  have : (0x5B : UInt8).toNat = 0x5B ∧ (0x5D : UInt8).toNat = 0x5D ∧ (0x7B : UInt8).toNat = 0x7B ∧ (0x7D : UInt8).toNat = 0x7D ∧
    (0x3A : UInt8).toNat = 0x3A ∧ (0x2C : UInt8).toNat = 0x2C ∧ (0x22 : UInt8).toNat = 0x22 ∧ (0x2B : UInt8).toNat = 0x2B ∧
    (0x2D : UInt8).toNat = 0x2D := by decide
  omega

theorem number_facts {b : UInt8} (h : b = 0x2B ∨ b = 0x2D ∨ isDigit b.toNat = true) :
    b ≠ 0x5B ∧ b ≠ 0x5D ∧ b ≠ 0x7B ∧ b ≠ 0x7D ∧ b ≠ 0x3A ∧ b ≠ 0x2C ∧ b ≠ 0x22 := by
  rw [isDigit_iff] at h
  simp only [ne_eq, ← UInt8.toNat_inj] at *
  have : (0x5B : UInt8).toNat = 0x5B ∧ (0x5D : UInt8).toNat = 0x5D ∧ (0x7B : UInt8).toNat = 0x7B ∧ (0x7D : UInt8).toNat = 0x7D ∧
    (0x3A : UInt8).toNat = 0x3A ∧ (0x2C : UInt8).toNat = 0x2C ∧ (0x22 : UInt8).toNat = 0x22 ∧ (0x2B : UInt8).toNat = 0x2B ∧
    (0x2D : UInt8).toNat = 0x2D := by decide
  omega

/-- A token that begins with a punctuator is that. -/
theorem Lexeme.punct_inv {u tok : Bytes} (h : Lexeme u tok) {c : UInt8} (hc : at0 tok = c)
    (hp : c = 0x5B ∨ c = 0x5D ∨ c = 0x7B ∨ c = 0x7D ∨ c = 0x3A ∨ c = 0x2C) : u = [c] := by
  cases h with
  | @punct a _ => change a = c at hc; rw [hc]
  | @word b u hb _ =>
    exfalso
    change b = c at hc
    have := word_facts hb
    subst hc
    tauto
  | number h =>
    exfalso
    have := lexeme_number h
    rw [hc] at this
    have := number_facts this
    tauto
  | string _ =>
    exfalso
    change (0x22 : UInt8) = c at hc
    subst hc
    revert hp
    decide

theorem Lexeme.string_inv {u tok : Bytes} (h : Lexeme u tok) (hc : at0 tok = 0x22) :
    ∃ q cs, Chars q cs ∧ u = 0x22 :: (q ++ [0x22]) ∧ tok = 0x22 :: utf8 cs := by
  cases h with
  | @punct c h =>
    change c = 0x22 at hc
    subst hc
    exact absurd h (by decide)
  | @word b u hb _ =>
    change b = 0x22 at hc
    have := word_facts hb
    tauto
  | number h =>
    have := lexeme_number h
    rw [hc] at this
    have := number_facts this
    tauto
  | string h => exact ⟨_, _, h, rfl, rfl⟩

theorem Lexeme.number_inv {u tok : Bytes} (h : Lexeme u tok) (hc : at0 tok = 0x2B ∨ at0 tok = 0x2D ∨ isDigit (at0 tok).toNat = true) :
    u = tok ∧ Number tok := by
  cases h with
  | @punct c h =>
    change c = 0x2B ∨ c = 0x2D ∨ isDigit c.toNat = true at hc
    have := number_facts hc
    tauto
  | @word b u hb _ =>
    change b = 0x2B ∨ b = 0x2D ∨ isDigit b.toNat = true at hc
    have := word_facts hb
    rcases hc with h | h | h
    · tauto
    · tauto
    · rw [this.2.2.2.2.2.2.2.2.2] at h; cases h
  | number h => exact ⟨rfl, h⟩
  | string h =>
    change (0x22 : UInt8) = 0x2B ∨ (0x22 : UInt8) = 0x2D ∨ isDigit (0x22 : UInt8).toNat = true at hc
    exact absurd hc (by decide)

theorem Lexeme.same {u tok : Bytes} (h : Lexeme u tok) (hc : at0 tok ≠ 0x22) : u = tok := by
  cases h with
  | punct _ => rfl
  | word _ _ => rfl
  | number _ => rfl
  | string _ => exact absurd rfl hc

end Asteria.Json
