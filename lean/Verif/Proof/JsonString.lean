import Verif.Proof.JsonToken

/-!
# Strings in JSON texts
-/

namespace Asteria.Json

open JsonSpec (hex unit escaped utf8 Quoted)
open Utf (Scalar utf8Encode WfChar WellFormed encOne)

/-! ### Hexadecimal digits -/

theorem hex_mod (n : Nat) : hex n = hex (n % 16) := by unfold hex; rw [Nat.mod_mod]

theorem lt16 {P : Nat → Prop} (h : ∀ i : Fin 16, P i.val) (n : Nat) (hn : n < 16) : P n := h ⟨n, hn⟩

theorem hexDigit_hex (n : Nat) : hexDigit (hex n) = some (n % 16) := by
  rw [hex_mod]
  exact lt16 (P := fun n => hexDigit (hex n) = some n) (by decide +kernel) _ (Nat.mod_lt _ (by omega))

theorem hexChar_hex (n : Nat) : hexChar (n % 16) = hex n := by
  rw [hex_mod]
  exact lt16 (P := fun n => hexChar n = hex n) (by decide +kernel) _ (Nat.mod_lt _ (by omega))

theorem u4_unit (c : Nat) : u4 c = unit c := by
  unfold u4 unit
  simp only [hexChar_hex]

theorem hex4_unit {c : Nat} (h : c < 65536) (s : Bytes) :
    hex4 (hex (c / 4096) :: hex (c / 256) :: hex (c / 16) :: hex c :: s) = some (c, s) := by
  unfold hex4
  simp only [hexDigit_hex]
  rw [Option.some.injEq, Prod.mk.injEq]
  exact ⟨by omega, rfl⟩

/-! ### Reading -/

theorem put_eq (c : Nat) : put c = (utf8Encode c).getD [] := by
  unfold put
  by_cases h : c ≤ 0x7F
  · rw [if_pos h]; unfold utf8Encode; rw [if_pos (by omega)]; rfl
  · rw [if_neg h]

theorem strLoop_plain (n : Nat) (tok : Bytes) {b : UInt8} (s : Bytes) (h : plain b = true) :
    strLoop n tok (b :: s) = strLoop n (tok ++ [b]) s := by
  cases n with
  | zero => rfl
  | succ n =>
    unfold strLoop
    rw [List.dropWhile_cons_of_pos h, List.takeWhile_cons_of_pos h]
    simp only [List.append_assoc, List.singleton_append]

theorem strLoop_escape (n : Nat) (tok s : Bytes) :
    strLoop (n + 1) tok (0x5C :: s) = (escape s).bind fun y => strLoop n (tok ++ put y.1) y.2 := by
  rw [strLoop, List.dropWhile_cons_of_neg (by decide +kernel), List.takeWhile_cons_of_neg (by decide +kernel),
    load_ascii s (by decide +kernel)]
  simp only [Res.bind, List.append_nil]
  rw [if_neg (by decide +kernel), if_neg (by decide +kernel), if_pos (by decide +kernel)]

theorem strLoop_end (n : Nat) (tok s : Bytes) : strLoop (n + 1) tok (0x22 :: s) = .ok (tok, s) := by
  rw [strLoop, List.dropWhile_cons_of_neg (by decide +kernel), List.takeWhile_cons_of_neg (by decide +kernel),
    load_ascii s (by decide +kernel)]
  simp only [Res.bind, List.append_nil]
  rw [if_neg (by decide +kernel), if_pos (by decide +kernel)]

theorem escape_unit {c : Nat} (h : c < 65536) (hs : ¬ (0xD800 ≤ c ∧ c ≤ 0xDFFF)) (s : Bytes) :
    escape ((unit c).tail ++ s) = .ok (c, s) := by
  unfold unit
  simp only [List.tail_cons, List.cons_append, List.nil_append]
  unfold escape
  simp only
  rw [if_neg (by decide), if_neg (by decide), if_neg (by decide), if_neg (by decide), if_neg (by decide),
    if_neg (by decide), if_pos (by decide), hex4_unit h]
  simp only
  rw [if_neg (by omega), if_neg (by omega)]

theorem escape_pair {c d : Nat} (hc : 0xD800 ≤ c ∧ c ≤ 0xDBFF) (hd : 0xDC00 ≤ d ∧ d ≤ 0xDFFF) (s : Bytes) :
    escape ((unit c).tail ++ (unit d ++ s)) = .ok (0x10000 + (c - 0xD800) * 1024 + (d - 0xDC00), s) := by
  unfold unit
  simp only [List.tail_cons, List.cons_append, List.nil_append]
  unfold escape
  simp only
  rw [if_neg (by decide), if_neg (by decide), if_neg (by decide), if_neg (by decide), if_neg (by decide),
    if_neg (by decide), if_pos (by decide), hex4_unit (by omega)]
  simp only
  rw [if_neg (by omega), if_pos (by omega)]
  rw [hex4_unit (by omega)]
  simp only
  rw [if_pos hd]

/-- One character of a string. -/
theorem strLoop_char {c : Nat} (h : Scalar c) (tok s : Bytes) (n : Nat) (hn : (escaped c).length ≤ n) :
    ∃ m, n ≤ m + (escaped c).length ∧
      strLoop n tok (escaped c ++ s) = strLoop m (tok ++ (utf8Encode c).getD []) s := by
  have hs := h
  unfold Scalar at hs
  have small : ∀ (e : UInt8), escaped c = [0x5C, e] → escape (e :: s) = .ok (c, s) →
      ∃ m, n ≤ m + (escaped c).length ∧
        strLoop n tok (escaped c ++ s) = strLoop m (tok ++ (utf8Encode c).getD []) s := by
    intro e he hx
    rw [he] at hn ⊢
    obtain ⟨k, rfl⟩ : ∃ k, n = k + 1 := ⟨n - 1, by simp at hn; omega⟩
    refine ⟨k, by simp, ?_⟩
    rw [List.cons_append, strLoop_escape, List.singleton_append, hx, Res.bind, put_eq]
  by_cases h1 : c = 0x5C ∨ c = 0x22 ∨ c = 0x2F
  · refine small (UInt8.ofNat c) (by unfold escaped; rw [if_pos h1]) ?_
    rcases h1 with rfl | rfl | rfl <;> rfl
  by_cases h2 : 0x20 ≤ c ∧ c ≤ 0x7E
  · have he : escaped c = [UInt8.ofNat c] := by unfold escaped; rw [if_neg h1, if_pos h2]
    have ht : (UInt8.ofNat c).toNat = c := by rw [Utf.ofNat_toNat]; omega
    have hp : plain (UInt8.ofNat c) = true := by
      have hne : ∀ d : UInt8, d.toNat ≠ c → UInt8.ofNat c ≠ d := fun d hd e => hd (by rw [← e, ht])
      have h3 := hne 0x5C (fun e => h1 (.inl e.symm))
      have h4 := hne 0x22 (fun e => h1 (.inr (.inl e.symm)))
      unfold plain
      rw [ht]
      simp [h3, h4, h2]
    refine ⟨n, by omega, ?_⟩
    rw [he, List.singleton_append, strLoop_plain _ _ _ hp]
    have : utf8Encode c = some [UInt8.ofNat c] := by unfold utf8Encode; rw [if_pos (by omega)]
    rw [this]; rfl
  by_cases h3 : c = 8
  · subst h3; exact small 0x62 rfl rfl
  by_cases h4 : c = 12
  · subst h4; exact small 0x66 rfl rfl
  by_cases h5 : c = 10
  · subst h5; exact small 0x6E rfl rfl
  by_cases h6 : c = 13
  · subst h6; exact small 0x72 rfl rfl
  by_cases h7 : c = 9
  · subst h7; exact small 0x74 rfl rfl
  by_cases h8 : c < 0x10000
  · have he : escaped c = unit c := by
      unfold escaped
      rw [if_neg h1, if_neg h2, if_neg h3, if_neg h4, if_neg h5, if_neg h6, if_neg h7, if_pos h8]
    rw [he] at hn ⊢
    have hu : unit c = 0x5C :: (unit c).tail := rfl
    have hl : (unit c).length = 6 := rfl
    obtain ⟨k, rfl⟩ : ∃ k, n = k + 1 := ⟨n - 1, by omega⟩
    refine ⟨k, by omega, ?_⟩
    rw [hu, List.cons_append, strLoop_escape, escape_unit h8 (by omega), Res.bind, put_eq]
  · have he : escaped c = unit (0xD800 + (c - 0x10000) / 1024) ++ unit (0xDC00 + (c - 0x10000) % 1024) := by
      unfold escaped
      rw [if_neg h1, if_neg h2, if_neg h3, if_neg h4, if_neg h5, if_neg h6, if_neg h7, if_neg h8]
    rw [he] at hn ⊢
    have hl : ∀ a, (unit a).length = 6 := fun _ => rfl
    rw [List.length_append, hl, hl] at hn ⊢
    obtain ⟨k, rfl⟩ : ∃ k, n = k + 1 := ⟨n - 1, by omega⟩
    refine ⟨k, by omega, ?_⟩
    generalize ha : 0xD800 + (c - 0x10000) / 1024 = a
    generalize hb : 0xDC00 + (c - 0x10000) % 1024 = b
    have hu : unit a = 0x5C :: (unit a).tail := rfl
    rw [hu, List.append_assoc, List.cons_append, strLoop_escape, escape_pair (by omega) (by omega), Res.bind, put_eq]
    have : 0x10000 + (a - 0xD800) * 1024 + (b - 0xDC00) = c := by omega
    rw [this]

/-- A string is read to its end. -/
theorem strLoop_ok (cs : List Nat) (h : ∀ c ∈ cs, Scalar c) (tok r : Bytes) (n : Nat)
    (hn : (cs.flatMap escaped).length < n) :
    strLoop n tok (cs.flatMap escaped ++ 0x22 :: r) = .ok (tok ++ utf8 cs, r) := by
  induction cs generalizing tok n with
  | nil =>
    obtain ⟨k, rfl⟩ : ∃ k, n = k + 1 := ⟨n - 1, by omega⟩
    rw [List.flatMap_nil, List.nil_append, strLoop_end]
    simp [utf8]
  | cons c cs ih =>
    rw [List.flatMap_cons, List.length_append] at hn
    obtain ⟨m, hm, he⟩ := strLoop_char (h c (by simp)) tok (cs.flatMap escaped ++ 0x22 :: r) n (by omega)
    rw [List.flatMap_cons, List.append_assoc, he, ih (fun x hx => h x (by simp [hx])) _ _ (by omega)]
    simp [utf8]

/-- The token of a string. -/
theorem body_string {s q r : Bytes} (h : Quoted s q) :
    ∃ u, q = 0x22 :: u ∧ body false (0x22 : UInt8).toNat (u ++ r) = .ok (0x22 :: s, ⟨none, false, r⟩) := by
  obtain ⟨cs, hc, rfl, rfl⟩ := h
  refine ⟨_, rfl, ?_⟩
  unfold body
  rw [if_neg (by decide +kernel), if_neg (by decide +kernel), if_neg (by decide +kernel), if_pos (by decide +kernel)]
  rw [List.append_assoc, List.singleton_append, strLoop_ok cs hc _ _ _ (by simp; omega)]
  rfl

/-! ### Writing -/

theorem utf16_low {c : Nat} (h : Scalar c) (hc : c < 0x10000) : Utf.utf16Encode c = some [c] := by
  unfold Scalar at h
  unfold Utf.utf16Encode
  rw [if_neg (by rw [Bool.not_eq_true, Utf.notScalar_false]; omega), if_pos hc]

theorem utf16_high {c : Nat} (h : Scalar c) (hc : ¬ c < 0x10000) :
    Utf.utf16Encode c = some [0xD800 + (c - 0x10000) / 1024, 0xDC00 + (c - 0x10000) % 1024] := by
  unfold Scalar at h
  unfold Utf.utf16Encode
  rw [if_neg (by rw [Bool.not_eq_true, Utf.notScalar_false]; omega), if_neg hc, Nat.shiftRight_eq_div_pow, Utf.and_3FF]
  have h1 : (0xD800 + (c - 0x10000) / 2 ^ 10) % 2 ^ 16 = 0xD800 + (c - 0x10000) / 1024 := by omega
  have h2 : (0xDC00 + c % 1024) % 2 ^ 16 = 0xDC00 + (c - 0x10000) % 1024 := by omega
  rw [h1, h2]

theorem enc_high {c : Nat} (h : Scalar c) (hc : ¬ c < 0x80) :
    ∃ b t, utf8Encode c = some (b :: t) ∧ 0x80 ≤ b.toNat := by
  obtain ⟨bs, hb⟩ := (Utf.C07_encode_domain c).2 h
  have hw := Utf.C07_encode_well_formed c bs hb
  unfold Scalar at h
  unfold utf8Encode at hb
  rw [if_neg hc, if_neg (by rw [Bool.not_eq_true, Utf.notScalar_false]; omega)] at hb
  unfold utf8Encode
  rw [if_neg hc, if_neg (by rw [Bool.not_eq_true, Utf.notScalar_false]; omega)]
  by_cases h2 : c < 0x800
  · rw [if_pos h2]; exact ⟨_, _, rfl, by rw [Utf.encOne_1F]; omega⟩
  rw [if_neg h2]
  by_cases h3 : c < 0x10000
  · rw [if_pos h3]; exact ⟨_, _, rfl, by rw [Utf.encOne_0F]; omega⟩
  rw [if_neg h3]; exact ⟨_, _, rfl, by rw [Utf.encOne_07]; omega⟩

theorem ne_of_toNat {b d : UInt8} (h : b.toNat ≠ d.toNat) : b ≠ d := fun e => h (by rw [e])

theorem eq_of_toNat {b d : UInt8} (h : b.toNat = d.toNat) : b = d := UInt8.toNat_inj.1 h

/-- What is neither a printable nor one of the named control characters. -/
theorem esc_other {n c : Nat} {b : UInt8} {t s : Bytes} (h : Scalar c)
    (h2 : ¬ (0x20 ≤ b.toNat ∧ b.toNat ≤ 0x7E)) (h3 : b.toNat ≠ 8) (h4 : b.toNat ≠ 12) (h5 : b.toNat ≠ 10)
    (h6 : b.toNat ≠ 13) (h7 : b.toNat ≠ 9) (hb : utf8Encode c = some (b :: t)) {r : Bytes} (hr : esc n s = .ok r) :
    esc (n + 1) (b :: t ++ s) =
      .ok ((if c < 0x10000 then unit c else unit (0xD800 + (c - 0x10000) / 1024) ++ unit (0xDC00 + (c - 0x10000) % 1024)) ++ r) := by
  have h1 : ¬ (b = 0x5C ∨ b = 0x22 ∨ b = 0x2F) := by
    rintro (rfl | rfl | rfl) <;> exact h2 (by decide +kernel)
  have hd := Utf.C07_round_trip c (b :: t) s ((t ++ s).length + 1) hb (by simp)
  rw [List.cons_append, esc]
  rw [if_neg h1, if_neg h2, if_neg (ne_of_toNat h3), if_neg (ne_of_toNat h4), if_neg (ne_of_toNat h5),
    if_neg (ne_of_toNat h6), if_neg (ne_of_toNat h7)]
  rw [← List.cons_append, hd]
  simp only [Res.bind]
  by_cases hc : c < 0x10000
  · rw [utf16_low h hc]
    simp only
    rw [List.drop_left, hr, Res.map, u4_unit, if_pos hc]
  · rw [utf16_high h hc]
    simp only
    rw [List.drop_left, hr, Res.map, u4_unit, u4_unit, if_neg hc, List.append_assoc]

theorem esc_char {c n : Nat} (h : Scalar c) {s r : Bytes} (hr : esc n s = .ok r) :
    esc (n + 1) ((utf8Encode c).getD [] ++ s) = .ok (escaped c ++ r) := by
  by_cases hc : c < 0x80
  · have he : utf8Encode c = some [UInt8.ofNat c] := by unfold utf8Encode; rw [if_pos hc]
    have ht : (UInt8.ofNat c).toNat = c := by rw [Utf.ofNat_toNat]; omega
    rw [he, Option.getD_some]
    unfold escaped
    by_cases h1 : c = 0x5C ∨ c = 0x22 ∨ c = 0x2F
    · rw [if_pos h1]
      rcases h1 with rfl | rfl | rfl <;>
      · rw [List.singleton_append, esc, if_pos (by decide), hr]; rfl
    rw [if_neg h1]
    by_cases h2 : 0x20 ≤ c ∧ c ≤ 0x7E
    · rw [if_pos h2, List.singleton_append, esc, if_neg, if_pos (by rw [ht]; exact h2), hr]
      · rfl
      · rintro (h | h | h) <;> rw [h] at ht <;> simp at ht <;> omega
    rw [if_neg h2]
    by_cases h3 : c = 8
    · subst h3
      rw [if_pos rfl, List.singleton_append, esc, if_neg (by decide), if_neg (by decide), if_pos (by decide), hr]; rfl
    rw [if_neg h3]
    by_cases h4 : c = 12
    · subst h4
      rw [if_pos rfl, List.singleton_append, esc, if_neg (by decide), if_neg (by decide), if_neg (by decide),
        if_pos (by decide), hr]; rfl
    rw [if_neg h4]
    by_cases h5 : c = 10
    · subst h5
      rw [if_pos rfl, List.singleton_append, esc, if_neg (by decide), if_neg (by decide), if_neg (by decide),
        if_neg (by decide), if_pos (by decide), hr]; rfl
    rw [if_neg h5]
    by_cases h6 : c = 13
    · subst h6
      rw [if_pos rfl, List.singleton_append, esc, if_neg (by decide), if_neg (by decide), if_neg (by decide),
        if_neg (by decide), if_neg (by decide), if_pos (by decide), hr]; rfl
    rw [if_neg h6]
    by_cases h7 : c = 9
    · subst h7
      rw [if_pos rfl, List.singleton_append, esc, if_neg (by decide), if_neg (by decide), if_neg (by decide),
        if_neg (by decide), if_neg (by decide), if_neg (by decide), if_pos (by decide), hr]; rfl
    rw [if_neg h7]
    exact esc_other h (by rw [ht]; exact h2) (by rw [ht]; exact h3) (by rw [ht]; exact h4) (by rw [ht]; exact h5)
      (by rw [ht]; exact h6) (by rw [ht]; exact h7) he hr
  · obtain ⟨b, t, hb, hb8⟩ := enc_high h hc
    rw [hb, Option.getD_some]
    unfold escaped
    rw [if_neg (by omega), if_neg (by omega), if_neg (by omega), if_neg (by omega), if_neg (by omega),
      if_neg (by omega), if_neg (by omega)]
    exact esc_other h (by omega) (by omega) (by omega) (by omega) (by omega) (by omega) hb hr

theorem esc_ok (cs : List Nat) (h : ∀ c ∈ cs, Scalar c) (n : Nat) (hn : (utf8 cs).length ≤ n) :
    esc n (utf8 cs) = .ok (cs.flatMap escaped) := by
  induction cs generalizing n with
  | nil => cases n <;> rfl
  | cons c cs ih =>
    obtain ⟨bs, hb⟩ := (Utf.C07_encode_domain c).2 (h c (by simp))
    have hu : utf8 (c :: cs) = (utf8Encode c).getD [] ++ utf8 cs := by simp [utf8]
    have hl : 0 < ((utf8Encode c).getD []).length := by
      rw [hb, Option.getD_some]
      cases Utf.C07_encode_well_formed c bs hb <;> simp
    rw [hu, List.length_append] at hn
    obtain ⟨k, rfl⟩ : ∃ k, n = k + 1 := ⟨n - 1, by omega⟩
    rw [hu, esc_char (h c (by simp)) (ih (fun x hx => h x (by simp [hx])) k (by omega)), List.flatMap_cons]

theorem quote_ok {s q : Bytes} (h : Quoted s q) : quote s = .ok q := by
  obtain ⟨cs, hc, rfl, rfl⟩ := h
  unfold quote
  rw [esc_ok cs hc _ (Nat.le_refl _)]
  rfl

/-! ### Characters of well-formed text -/

theorem wfchar_enc {u : Bytes} (h : WfChar u) : ∃ c, Scalar c ∧ utf8Encode c = some u := by
  have key : ∀ c, Scalar c → (∀ bs, utf8Encode c = some bs → bs = u) → ∃ c, Scalar c ∧ utf8Encode c = some u := by
    intro c hc hb
    obtain ⟨bs, h⟩ := (Utf.C07_encode_domain c).2 hc
    exact ⟨c, hc, by rw [h, hb bs h]⟩
  have two : ∀ a b : UInt8, 0xC2 ≤ a.toNat → a.toNat ≤ 0xDF → 0x80 ≤ b.toNat → b.toNat ≤ 0xBF → u = [a, b] →
      ∃ c, Scalar c ∧ utf8Encode c = some u := by
    rintro a b h1 h2 h3 h4 rfl
    refine key ((a.toNat - 0xC0) * 64 + (b.toNat - 0x80)) (by unfold Scalar; omega) fun bs hb => ?_
    unfold utf8Encode at hb
    rw [if_neg (by omega), if_neg (by rw [Bool.not_eq_true, Utf.notScalar_false]; omega), if_pos (by omega)] at hb
    cases hb
    congr 1
    · exact eq_of_toNat (by rw [Utf.encOne_1F]; omega)
    · congr 1; exact eq_of_toNat (by rw [Utf.encOne_3F]; omega)
  have three : ∀ a b c : UInt8, 0xE0 ≤ a.toNat → a.toNat ≤ 0xEF → 0x80 ≤ b.toNat → b.toNat ≤ 0xBF →
      0x80 ≤ c.toNat → c.toNat ≤ 0xBF → (a.toNat = 0xE0 → 0xA0 ≤ b.toNat) → (a.toNat = 0xED → b.toNat ≤ 0x9F) →
      u = [a, b, c] → ∃ c, Scalar c ∧ utf8Encode c = some u := by
    rintro a b c h1 h2 h3 h4 h5 h6 h7 h8 rfl
    refine key (((a.toNat - 0xE0) * 64 + (b.toNat - 0x80)) * 64 + (c.toNat - 0x80)) (by unfold Scalar; omega)
      fun bs hb => ?_
    unfold utf8Encode at hb
    rw [if_neg (by omega), if_neg (by rw [Bool.not_eq_true, Utf.notScalar_false]; omega), if_neg (by omega),
      if_pos (by omega)] at hb
    cases hb
    congr 1
    · exact eq_of_toNat (by rw [Utf.encOne_0F]; omega)
    · congr 1
      · exact eq_of_toNat (by rw [Utf.encOne_3F]; omega)
      · congr 1; exact eq_of_toNat (by rw [Utf.encOne_3F]; omega)
  have four : ∀ a b c d : UInt8, 0xF0 ≤ a.toNat → a.toNat ≤ 0xF4 → 0x80 ≤ b.toNat → b.toNat ≤ 0xBF →
      0x80 ≤ c.toNat → c.toNat ≤ 0xBF → 0x80 ≤ d.toNat → d.toNat ≤ 0xBF → (a.toNat = 0xF0 → 0x90 ≤ b.toNat) →
      (a.toNat = 0xF4 → b.toNat ≤ 0x8F) → u = [a, b, c, d] → ∃ c, Scalar c ∧ utf8Encode c = some u := by
    rintro a b c d h1 h2 h3 h4 h5 h6 h7 h8 h9 h10 rfl
    refine key ((((a.toNat - 0xF0) * 64 + (b.toNat - 0x80)) * 64 + (c.toNat - 0x80)) * 64 + (d.toNat - 0x80))
      (by unfold Scalar; omega) fun bs hb => ?_
    unfold utf8Encode at hb
    rw [if_neg (by omega), if_neg (by rw [Bool.not_eq_true, Utf.notScalar_false]; omega), if_neg (by omega),
      if_neg (by omega)] at hb
    cases hb
    congr 1
    · exact eq_of_toNat (by rw [Utf.encOne_07]; omega)
    · congr 1
      · exact eq_of_toNat (by rw [Utf.encOne_3F]; omega)
      · congr 1
        · exact eq_of_toNat (by rw [Utf.encOne_3F]; omega)
        · congr 1; exact eq_of_toNat (by rw [Utf.encOne_3F]; omega)
  cases h with
  | r1 a ha =>
    unfold Utf.inR at ha
    refine ⟨a.toNat, by unfold Scalar; omega, ?_⟩
    unfold utf8Encode
    rw [if_pos (by omega), ofNat_toNat]
  | r2 a b h1 h2 => unfold Utf.inR at h1 h2; exact two a b (by omega) (by omega) (by omega) (by omega) rfl
  | r3 a b c h1 h2 h3 =>
    unfold Utf.inR at h1 h2 h3
    exact three a b c (by omega) (by omega) (by omega) (by omega) (by omega) (by omega) (by omega) (by omega) rfl
  | r4 a b c h1 h2 h3 =>
    unfold Utf.inR at h1 h2 h3
    exact three a b c (by omega) (by omega) (by omega) (by omega) (by omega) (by omega) (by omega) (by omega) rfl
  | r5 a b c h1 h2 h3 =>
    unfold Utf.inR at h1 h2 h3
    exact three a b c (by omega) (by omega) (by omega) (by omega) (by omega) (by omega) (by omega) (by omega) rfl
  | r6 a b c h1 h2 h3 =>
    unfold Utf.inR at h1 h2 h3
    exact three a b c (by omega) (by omega) (by omega) (by omega) (by omega) (by omega) (by omega) (by omega) rfl
  | r7 a b c d h1 h2 h3 h4 =>
    unfold Utf.inR at h1 h2 h3 h4
    exact four a b c d (by omega) (by omega) (by omega) (by omega) (by omega) (by omega) (by omega) (by omega)
      (by omega) (by omega) rfl
  | r8 a b c d h1 h2 h3 h4 =>
    unfold Utf.inR at h1 h2 h3 h4
    exact four a b c d (by omega) (by omega) (by omega) (by omega) (by omega) (by omega) (by omega) (by omega)
      (by omega) (by omega) rfl
  | r9 a b c d h1 h2 h3 h4 =>
    unfold Utf.inR at h1 h2 h3 h4
    exact four a b c d (by omega) (by omega) (by omega) (by omega) (by omega) (by omega) (by omega) (by omega)
      (by omega) (by omega) rfl

/-- Well-formed text has a JSON text. -/
theorem quoted_exists {s : Bytes} (h : WellFormed s) : ∃ q, Quoted s q := by
  suffices ∃ cs : List Nat, (∀ c ∈ cs, Scalar c) ∧ s = utf8 cs by
    obtain ⟨cs, h1, h2⟩ := this
    exact ⟨_, cs, h1, h2, rfl⟩
  induction h with
  | nil => exact ⟨[], by simp, rfl⟩
  | cons u rest hu _ ih =>
    obtain ⟨cs, h1, h2⟩ := ih
    obtain ⟨c, hc, he⟩ := wfchar_enc hu
    refine ⟨c :: cs, ?_, ?_⟩
    · intro x hx
      rcases List.mem_cons.1 hx with rfl | hx
      · exact hc
      · exact h1 x hx
    · rw [h2]; simp [utf8, he]

end Asteria.Json
