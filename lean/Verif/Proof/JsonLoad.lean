import Verif.Proof.JsonRead
import Verif.Proof.JsonSafe
import Verif.Spec.JsonText

/-!
# Characters of JSON texts, in both directions
-/

namespace Asteria.Json

open JsonSpec (Blank Digits Sign Fraction Exponent Number utf8 Char Chars Hex4 HexDigit)
open Utf (Scalar utf8Encode)

theorem load_enc {c : Nat} {u : Bytes} (h : utf8Encode c = some u) (s : Bytes) : load (u ++ s) = .ok (some (c, s)) := by
  have hs := (Utf.C07_encode_domain c).1 ⟨u, h⟩
  unfold Scalar at hs
  unfold utf8Encode at h
  by_cases h1 : c < 0x80
  · rw [if_pos h1] at h
    cases h
    have : (UInt8.ofNat c).toNat = c := by rw [Utf.ofNat_toNat]; omega
    rw [List.singleton_append, load_ascii s (by omega), this]
  rw [if_neg h1, if_neg (by rw [Bool.not_eq_true, Utf.notScalar_false]; omega)] at h
  by_cases h2 : c < 0x800
  · rw [if_pos h2] at h
    cases h
    have e1 := Utf.encOne_1F c 6
    have e2 := Utf.encOne_3F c 0
    generalize Utf.encOne c 6 0x1F = a at *
    generalize Utf.encOne c 0 0x3F = b at *
    simp only [List.cons_append, List.nil_append, load]
    have hn : u8len a.toNat = 2 := by unfold u8len; rw [if_pos (by omega)]
    rw [if_neg (by omega), if_pos (by omega), hn, if_neg (by omega), if_neg (by simp), if_neg (by simp)]
    simp only [Nat.add_one_sub_one, List.take_succ_cons, List.take_zero, trail, List.drop_succ_cons, List.drop_zero]
    rw [if_pos (by omega)]
    have : a.toNat % 2 ^ (7 - 2) * 64 + b.toNat % 64 = c := by omega
    simp only [this]
    rw [if_neg (by omega)]
  rw [if_neg h2] at h
  by_cases h3 : c < 0x10000
  · rw [if_pos h3] at h
    cases h
    have e1 := Utf.encOne_0F c 12
    have e2 := Utf.encOne_3F c 6
    have e3 := Utf.encOne_3F c 0
    generalize Utf.encOne c 12 0x0F = a at *
    generalize Utf.encOne c 6 0x3F = b at *
    generalize Utf.encOne c 0 0x3F = d at *
    simp only [List.cons_append, List.nil_append, load]
    have hn : u8len a.toNat = 3 := by unfold u8len; rw [if_neg (by omega), if_pos (by omega)]
    rw [if_neg (by omega), if_pos (by omega), hn, if_neg (by omega), if_neg (by simp), if_neg (by simp)]
    simp only [Nat.add_one_sub_one, List.take_succ_cons, List.take_zero, trail, List.drop_succ_cons, List.drop_zero,
      Nat.reduceSub]
    rw [if_pos (by omega), if_pos (by omega)]
    have : (a.toNat % 2 ^ 4 * 64 + b.toNat % 64) * 64 + d.toNat % 64 = c := by omega
    simp only [this]
    rw [if_neg (by omega)]
  · rw [if_neg h3] at h
    cases h
    have e1 := Utf.encOne_07 c 18
    have e2 := Utf.encOne_3F c 12
    have e3 := Utf.encOne_3F c 6
    have e4 := Utf.encOne_3F c 0
    generalize Utf.encOne c 18 0x07 = a at *
    generalize Utf.encOne c 12 0x3F = b at *
    generalize Utf.encOne c 6 0x3F = d at *
    generalize Utf.encOne c 0 0x3F = e at *
    simp only [List.cons_append, List.nil_append, load]
    have hn : u8len a.toNat = 4 := by unfold u8len; rw [if_neg (by omega), if_neg (by omega), if_pos (by omega)]
    rw [if_neg (by omega), if_pos (by omega), hn, if_neg (by omega), if_neg (by simp), if_neg (by simp)]
    simp only [Nat.add_one_sub_one, List.take_succ_cons, List.take_zero, trail, List.drop_succ_cons, List.drop_zero,
      Nat.reduceSub]
    rw [if_pos (by omega), if_pos (by omega), if_pos (by omega)]
    have : ((a.toNat % 2 ^ 3 * 64 + b.toNat % 64) * 64 + d.toNat % 64) * 64 + e.toNat % 64 = c := by omega
    simp only [this]
    rw [if_neg (by omega)]

theorem enc_of_bytes {c : Nat} {u : Bytes} (hc : Scalar c) (h : ∀ bs, utf8Encode c = some bs → bs = u) : utf8Encode c = some u := by
  obtain ⟨bs, hb⟩ := (Utf.C07_encode_domain c).2 hc
  rw [hb, h bs hb]

/-- A character that has been loaded is the one that is written. -/
theorem load_inv {t s : Bytes} {c : Nat} (h : load t = .ok (some (c, s))) : ∃ u, utf8Encode c = some u ∧ t = u ++ s := by
  cases t with
  | nil => cases h
  | cons b t =>
    unfold load at h
    simp only at h
    split at h
    · cases h
    rename_i h1
    split at h
    · rename_i h2
      split at h
      · cases h
      split at h
      · cases h
      split at h
      · cases h
      rename_i h3 h4 h5
      split at h
      · cases h
      rename_i cp hcp
      split at h
      · cases h
      rename_i h6
      simp only [Res.ok.injEq, Option.some.injEq, Prod.mk.injEq] at h
      obtain ⟨rfl, hs⟩ := h
      have hb := b.toNat_lt
      unfold u8len at hcp h5 hs h6 h3
      by_cases k1 : b.toNat < 0xE0
      · rw [if_pos k1] at hcp h5 hs h6
        obtain ⟨x, t, rfl⟩ : ∃ x t', t = x :: t' := by
          cases t with
          | nil => simp at h5
          | cons x t => exact ⟨x, t, rfl⟩
        simp only [Nat.add_one_sub_one, List.take_succ_cons, List.take_zero, trail, List.drop_succ_cons, List.drop_zero,
          Nat.reduceSub] at hcp hs
        split at hcp
        · rename_i k2
          cases hcp
          subst hs
          refine ⟨[b, x], enc_of_bytes (by unfold Scalar; omega) fun bs hbs => ?_, rfl⟩
          unfold utf8Encode at hbs
          rw [if_neg (by omega), if_neg (by rw [Bool.not_eq_true, Utf.notScalar_false]; omega), if_pos (by omega)] at hbs
          cases hbs
          congr 1
          · exact eq_of_toNat (by rw [Utf.encOne_1F]; omega)
          · congr 1; exact eq_of_toNat (by rw [Utf.encOne_3F]; omega)
        · cases hcp
      rw [if_neg k1] at hcp h5 hs h6 h3
      by_cases k2 : b.toNat < 0xF0
      · rw [if_pos k2] at hcp h5 hs h6
        obtain ⟨x, y, t, rfl⟩ : ∃ x y t', t = x :: y :: t' := by
          match t, h5 with
          | [], h5 => simp at h5
          | [_], h5 => simp at h5
          | x :: y :: t, _ => exact ⟨x, y, t, rfl⟩
        simp only [Nat.add_one_sub_one, List.take_succ_cons, List.take_zero, trail, List.drop_succ_cons, List.drop_zero,
          Nat.reduceSub] at hcp hs
        split at hcp
        · rename_i k3
          split at hcp
          · rename_i k4
            cases hcp
            subst hs
            refine ⟨[b, x, y], enc_of_bytes (by unfold Scalar; omega) fun bs hbs => ?_, rfl⟩
            unfold utf8Encode at hbs
            rw [if_neg (by omega), if_neg (by rw [Bool.not_eq_true, Utf.notScalar_false]; omega), if_neg (by omega),
              if_pos (by omega)] at hbs
            cases hbs
            congr 1
            · exact eq_of_toNat (by rw [Utf.encOne_0F]; omega)
            · congr 1
              · exact eq_of_toNat (by rw [Utf.encOne_3F]; omega)
              · congr 1; exact eq_of_toNat (by rw [Utf.encOne_3F]; omega)
          · cases hcp
        · cases hcp
      rw [if_neg k2] at hcp h5 hs h6 h3
      by_cases k3 : b.toNat < 0xF8
      · rw [if_pos k3] at hcp h5 hs h6
        obtain ⟨x, y, z, t, rfl⟩ : ∃ x y z t', t = x :: y :: z :: t' := by
          match t, h5 with
          | [], h5 => simp at h5
          | [_], h5 => simp at h5
          | [_, _], h5 => simp at h5
          | x :: y :: z :: t, _ => exact ⟨x, y, z, t, rfl⟩
        simp only [Nat.add_one_sub_one, List.take_succ_cons, List.take_zero, trail, List.drop_succ_cons, List.drop_zero,
          Nat.reduceSub] at hcp hs
        split at hcp
        · rename_i k4
          split at hcp
          · rename_i k5
            split at hcp
            · rename_i k6
              cases hcp
              subst hs
              refine ⟨[b, x, y, z], enc_of_bytes (by unfold Scalar; omega) fun bs hbs => ?_, rfl⟩
              unfold utf8Encode at hbs
              rw [if_neg (by omega), if_neg (by rw [Bool.not_eq_true, Utf.notScalar_false]; omega), if_neg (by omega),
                if_neg (by omega)] at hbs
              cases hbs
              congr 1
              · exact eq_of_toNat (by rw [Utf.encOne_07]; omega)
              · congr 1
                · exact eq_of_toNat (by rw [Utf.encOne_3F]; omega)
                · congr 1
                  · exact eq_of_toNat (by rw [Utf.encOne_3F]; omega)
                  · congr 1; exact eq_of_toNat (by rw [Utf.encOne_3F]; omega)
            · cases hcp
          · cases hcp
        · cases hcp
      · exfalso
        rw [if_neg k3] at h6 h3
        have : (2 : Nat) ^ 21 ≤ 2 ^ ((if b.toNat < 252 then 5 else if b.toNat < 254 then 6 else if b.toNat < 255 then 7 else 8) * 5 - 4) := by
          refine Nat.pow_le_pow_right (by norm_num) ?_
          split
          · omega
          · split
            · omega
            · split <;> omega
        omega
    · rename_i h2
      cases h
      refine ⟨[b], ?_, rfl⟩
      unfold utf8Encode
      rw [if_pos (by omega), ofNat_toNat]

theorem load_none {t : Bytes} (h : load t = .ok none) : t = [] := by
  cases t with
  | nil => rfl
  | cons b t =>
    exfalso
    unfold load at h
    simp only at h
    repeat' split at h
    all_goals cases h

theorem load_inv_ascii {t s : Bytes} {c : Nat} (h : load t = .ok (some (c, s))) (hc : c < 128) : t = UInt8.ofNat c :: s := by
  obtain ⟨u, h1, rfl⟩ := load_inv h
  unfold utf8Encode at h1
  rw [if_pos hc] at h1
  cases h1
  rfl

/-! ### Escape sequences -/

theorem hexDigit_iff (b : UInt8) (n : Nat) : hexDigit b = some n ↔ HexDigit b n := by
  constructor
  · intro h
    have hb := b.toNat_lt
    unfold hexDigit at h
    simp only at h
    split at h
    · rename_i h1
      cases h
      have : b = UInt8.ofNat (0x30 + (b.toNat - 0x30)) := eq_of_toNat (by rw [Utf.ofNat_toNat]; omega)
      rw [this]
      have e : (UInt8.ofNat (48 + (b.toNat - 48))).toNat = b.toNat := by rw [Utf.ofNat_toNat]; omega
      rw [e]
      exact .dec (by omega)
    · split at h
      · rename_i h1
        cases h
        have : b = UInt8.ofNat (0x41 + (b.toNat - 0x41)) := eq_of_toNat (by rw [Utf.ofNat_toNat]; omega)
        rw [this]
        have e : (UInt8.ofNat (65 + (b.toNat - 65))).toNat = b.toNat := by rw [Utf.ofNat_toNat]; omega
        rw [e, Nat.add_comm (b.toNat - 65) 10]
        exact .upper (by omega)
      · split at h
        · rename_i h1
          cases h
          have : b = UInt8.ofNat (0x61 + (b.toNat - 0x61)) := eq_of_toNat (by rw [Utf.ofNat_toNat]; omega)
          rw [this]
          have e : (UInt8.ofNat (97 + (b.toNat - 97))).toNat = b.toNat := by rw [Utf.ofNat_toNat]; omega
          rw [e, Nat.add_comm (b.toNat - 97) 10]
          exact .lower (by omega)
        · cases h
  · intro h
    unfold hexDigit
    cases h with
    | dec h =>
      have e : (UInt8.ofNat (0x30 + n)).toNat = 0x30 + n := by rw [Utf.ofNat_toNat]; omega
      simp only [e]
      rw [if_pos (by omega)]; congr 1; omega
    | @upper n h =>
      have e : (UInt8.ofNat (0x41 + n)).toNat = 0x41 + n := by rw [Utf.ofNat_toNat]; omega
      simp only [e]
      rw [if_neg (by omega), if_pos (by omega)]; congr 1; omega
    | @lower n h =>
      have e : (UInt8.ofNat (0x61 + n)).toNat = 0x61 + n := by rw [Utf.ofNat_toNat]; omega
      simp only [e]
      rw [if_neg (by omega), if_neg (by omega), if_pos (by omega)]; congr 1; omega

theorem HexDigit.lt {b : UInt8} {n : Nat} (h : HexDigit b n) : n < 16 := by cases h <;> omega

theorem Hex4.lt {h : Bytes} {n : Nat} (k : Hex4 h n) : n < 65536 := by
  cases k with
  | mk a b c d =>
    have := HexDigit.lt a; have := HexDigit.lt b; have := HexDigit.lt c; have := HexDigit.lt d
    omega

theorem hex4_of {h : Bytes} {n : Nat} (k : Hex4 h n) (s : Bytes) : hex4 (h ++ s) = some (n, s) := by
  cases k with
  | mk a b c d =>
    simp only [List.cons_append, List.nil_append, hex4, (hexDigit_iff _ _).2 a, (hexDigit_iff _ _).2 b, (hexDigit_iff _ _).2 c,
      (hexDigit_iff _ _).2 d]
    congr 2
    omega

theorem hex4_inv {t s : Bytes} {n : Nat} (h : hex4 t = some (n, s)) : ∃ u, Hex4 u n ∧ t = u ++ s := by
  unfold hex4 at h
  split at h
  · rename_i a b c d r
    split at h
    · rename_i x y z w hx hy hz hw
      cases h
      refine ⟨[a, b, c, d], ?_, rfl⟩
      have := Hex4.mk ((hexDigit_iff _ _).1 hx) ((hexDigit_iff _ _).1 hy) ((hexDigit_iff _ _).1 hz) ((hexDigit_iff _ _).1 hw)
      convert this using 1
      omega
    · cases h
  · cases h

theorem escape_inv {t s : Bytes} {c : Nat} (h : escape t = .ok (c, s)) : ∃ u, Char (0x5C :: u) c ∧ t = u ++ s := by
  cases t with
  | nil => cases h
  | cons b t =>
    rw [escape] at h
    split at h
    · rename_i hb
      cases h
      refine ⟨[b], ?_, rfl⟩
      rcases hb with rfl | rfl | rfl
      · exact .backslash
      · exact .quote
      · exact .slash
    split at h
    · rename_i hb; cases h; subst hb; exact ⟨_, .b, rfl⟩
    split at h
    · rename_i hb; cases h; subst hb; exact ⟨_, .f, rfl⟩
    split at h
    · rename_i hb; cases h; subst hb; exact ⟨_, .n, rfl⟩
    split at h
    · rename_i hb; cases h; subst hb; exact ⟨_, .r, rfl⟩
    split at h
    · rename_i hb; cases h; subst hb; exact ⟨_, .t, rfl⟩
    split at h
    · rename_i hb
      subst hb
      split at h
      · cases h
      · rename_i c' s' hc
        obtain ⟨u, hu, rfl⟩ := hex4_inv hc
        have hlt := Hex4.lt hu
        split at h
        · cases h
        · split at h
          · rename_i k2
            split at h
            · split at h
              · cases h
              · rename_i d s3 hd
                obtain ⟨k, hk, rfl⟩ := hex4_inv hd
                split at h
                · rename_i k3
                  simp only [Res.ok.injEq, Prod.mk.injEq] at h
                  obtain ⟨rfl, rfl⟩ := h
                  exact ⟨_, .pair hu hk k2.1 k2.2 k3.1 k3.2, by simp⟩
                · cases h
            · cases h
          · cases h
            exact ⟨_, .u hu (by unfold Scalar; omega), rfl⟩
    · cases h

theorem escape_of {u : Bytes} {c : Nat} (h : Char (0x5C :: u) c) (s : Bytes) : escape (u ++ s) = .ok (c, s) := by
  generalize hq : (0x5C : UInt8) :: u = q at h
  cases h with
  | plain h1 h2 h3 h4 h5 =>
    exfalso
    subst hq
    have := load_enc h1 []
    rw [List.append_nil, load_ascii u (by decide)] at this
    cases this
    exact h5 (by decide)
  | quote => cases hq; rfl
  | backslash => cases hq; rfl
  | slash => cases hq; rfl
  | b => cases hq; rfl
  | f => cases hq; rfl
  | n => cases hq; rfl
  | r => cases hq; rfl
  | t => cases hq; rfl
  | u hh hs =>
    cases hq
    unfold Scalar at hs
    rw [List.cons_append, escape]
    rw [if_neg (by decide), if_neg (by decide), if_neg (by decide), if_neg (by decide), if_neg (by decide), if_neg (by decide),
      if_pos rfl, hex4_of hh]
    simp only
    rw [if_neg (by omega), if_neg (by omega)]
  | pair hh hk h1 h2 h3 h4 =>
    cases hq
    rw [List.cons_append, List.append_assoc, escape]
    rw [if_neg (by decide), if_neg (by decide), if_neg (by decide), if_neg (by decide), if_neg (by decide), if_neg (by decide),
      if_pos rfl, hex4_of hh]
    simp only
    rw [if_neg (by omega), if_pos (by omega)]
    simp only [List.cons_append, hex4_of hk]
    rw [if_pos (by omega)]

/-! ### Strings -/

theorem utf8_append (a b : List Nat) : utf8 (a ++ b) = utf8 a ++ utf8 b := by simp [utf8]

theorem utf8_cons (c : Nat) (cs : List Nat) : utf8 (c :: cs) = put c ++ utf8 cs := by rw [put_eq]; simp [utf8]

theorem chars_append {a b : Bytes} {cs ds : List Nat} (h : Chars a cs) (k : Chars b ds) : Chars (a ++ b) (cs ++ ds) := by
  induction h with
  | nil => exact k
  | cons h _ ih => rw [List.append_assoc]; exact .cons h ih

theorem plain_iff {b : UInt8} : plain b = true ↔ b.toNat ≠ 0x5C ∧ b.toNat ≠ 0x22 ∧ 0x20 ≤ b.toNat ∧ b.toNat ≤ 0x7E := by
  unfold plain
  simp only [Bool.and_eq_true, decide_eq_true_eq, ne_eq, ← UInt8.toNat_inj]
  tauto

theorem chars_plain : ∀ (s : Bytes), ∃ cs, Chars (s.takeWhile plain) cs ∧ utf8 cs = s.takeWhile plain
  | [] => ⟨[], .nil, rfl⟩
  | b :: s => by
    by_cases hb : plain b = true
    · obtain ⟨cs, h1, h2⟩ := chars_plain s
      have hp := plain_iff.1 hb
      have he : utf8Encode b.toNat = some [b] := by unfold utf8Encode; rw [if_pos (by omega), ofNat_toNat]
      rw [List.takeWhile_cons_of_pos hb]
      refine ⟨b.toNat :: cs, .cons (u := [b]) (.plain he hp.2.2.1 (by omega) hp.2.1 hp.1) h1, ?_⟩
      rw [utf8_cons, h2, put_eq, he]
      rfl
    · rw [List.takeWhile_cons_of_neg hb]
      exact ⟨[], .nil, rfl⟩

theorem strLoop_inv : ∀ (n : Nat) {tok s tok' r : Bytes}, strLoop n tok s = .ok (tok', r) →
    ∃ u cs, Chars u cs ∧ s = u ++ 0x22 :: r ∧ tok' = tok ++ utf8 cs
  | 0, _, _, _, _, h => by cases h
  | n + 1, tok, s, tok', r, h => by
    rw [strLoop] at h
    obtain ⟨cs, h1, h2⟩ := chars_plain s
    have hs : s.takeWhile plain ++ s.dropWhile plain = s := List.takeWhile_append_dropWhile
    cases hl : load (s.dropWhile plain) with
    | ok x =>
      rw [hl] at h
      simp only [Res.bind] at h
      cases x with
      | none => cases h
      | some x =>
        simp only at h
        split at h
        · cases h
        rename_i k1
        split at h
        · rename_i k2
          cases h
          refine ⟨_, cs, h1, ?_, by rw [h2]⟩
          have := load_inv_ascii (t := s.dropWhile plain) (s := x.2) (c := 0x22) (by rw [hl, ← k2]) (by omega)
          rw [this] at hs
          exact hs.symm
        rename_i k2
        split at h
        · rename_i k3
          cases he : escape x.2 with
          | ok y =>
            rw [he] at h
            obtain ⟨e, e1, e2⟩ := escape_inv (c := y.1) (s := y.2) he
            obtain ⟨u, ds, i1, i2, i3⟩ := strLoop_inv n h
            refine ⟨s.takeWhile plain ++ ((0x5C :: e) ++ u), cs ++ (y.1 :: ds), chars_append h1 (.cons e1 i1), ?_, ?_⟩
            · have := load_inv_ascii (t := s.dropWhile plain) (s := x.2) (c := 0x5C) (by rw [hl, ← k3]) (by omega)
              rw [List.append_assoc, List.append_assoc, ← i2, List.cons_append, ← e2]
              rw [this] at hs
              exact hs.symm
            · rw [i3, utf8_append, utf8_cons, h2]
              simp only [List.append_assoc]
          | throw => rw [he] at h; cases h
          | ub => rw [he] at h; cases h
        · rename_i k3
          obtain ⟨e, e1, e2⟩ := load_inv (c := x.1) (s := x.2) hl
          obtain ⟨u, ds, i1, i2, i3⟩ := strLoop_inv n h
          refine ⟨s.takeWhile plain ++ (e ++ u), cs ++ (x.1 :: ds), chars_append h1 (.cons (.plain e1 (by omega) (by omega) k2 k3) i1), ?_, ?_⟩
          · rw [List.append_assoc, List.append_assoc, ← i2, ← e2, hs]
          · rw [i3, utf8_append, utf8_cons, h2]
            simp only [List.append_assoc]
    | throw => rw [hl] at h; cases h
    | ub => rw [hl] at h; cases h

theorem strLoop_of {u : Bytes} {cs : List Nat} (h : Chars u cs) : ∀ (tok r : Bytes) (n : Nat), u.length < n →
    strLoop n tok (u ++ 0x22 :: r) = .ok (tok ++ utf8 cs, r) := by
  induction h with
  | nil =>
    intro tok r n hn
    obtain ⟨k, rfl⟩ : ∃ k, n = k + 1 := ⟨n - 1, by omega⟩
    rw [List.nil_append, strLoop_end]
    simp [utf8]
  | @cons u c s cs h _ ih =>
    intro tok r n hn
    rw [List.length_append] at hn
    have esc : ∀ e, u = 0x5C :: e → strLoop n tok (u ++ s ++ 0x22 :: r) = .ok (tok ++ utf8 (c :: cs), r) := by
      rintro e rfl
      obtain ⟨k, rfl⟩ : ∃ k, n = k + 1 := ⟨n - 1, by omega⟩
      rw [List.append_assoc, List.cons_append, strLoop_escape, escape_of h]
      simp only [Res.bind]
      rw [ih _ _ _ (by simp at hn; omega), utf8_cons]
      simp only [List.append_assoc]
    cases h with
    | plain h1 h2 h3 h4 h5 =>
      by_cases hc : c < 0x80
      · have hu : u = [UInt8.ofNat c] := by
          unfold utf8Encode at h1
          rw [if_pos hc] at h1
          cases h1
          rfl
        have e : (UInt8.ofNat c).toNat = c := by rw [Utf.ofNat_toNat]; omega
        subst hu
        rw [List.append_assoc, List.singleton_append, strLoop_plain _ _ _ (plain_iff.2 (by rw [e]; omega)),
          ih _ _ _ (by simp at hn; omega), utf8_cons, put, if_pos (by omega)]
        simp only [List.append_assoc]
      · obtain ⟨k, rfl⟩ : ∃ k, n = k + 1 := ⟨n - 1, by omega⟩
        obtain ⟨b, u', rfl, hb⟩ : ∃ b u', u = b :: u' ∧ plain b = false := by
          cases u with
          | nil => have := load_enc h1 []; cases this
          | cons b u' =>
            refine ⟨b, u', rfl, ?_⟩
            rw [Bool.eq_false_iff]
            intro hb
            have hb := plain_iff.1 hb
            have := load_enc h1 []
            rw [List.append_nil, load_ascii u' (by omega)] at this
            cases this
            omega
        rw [List.append_assoc, List.cons_append, strLoop, List.dropWhile_cons_of_neg (by rw [hb]; decide),
          List.takeWhile_cons_of_neg (by rw [hb]; decide), ← List.cons_append, load_enc h1]
        simp only [Res.bind]
        rw [if_neg (by omega), if_neg h4, if_neg h5, List.append_nil, ih _ _ _ (by simp at hn; omega), utf8_cons]
        simp only [List.append_assoc]
    | quote => exact esc _ rfl
    | backslash => exact esc _ rfl
    | slash => exact esc _ rfl
    | b => exact esc _ rfl
    | f => exact esc _ rfl
    | n => exact esc _ rfl
    | r => exact esc _ rfl
    | t => exact esc _ rfl
    | u _ _ => exact esc _ rfl
    | pair _ _ _ _ _ _ => exact esc _ rfl

end Asteria.Json
