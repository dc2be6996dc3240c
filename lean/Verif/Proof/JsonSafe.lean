import Verif.Proof.JsonNum

/-!
# The parser is safe if there are no bytes above 0xFB
-/

namespace Asteria.Json

open JsonSpec (Digits Sign Fraction Exponent Number)
open NumText (NumGet parseBase)

/-- The outcome is not undefined, and what is returned satisfies `P`. -/
def Sat (x : Res α) (P : α → Prop) : Prop :=
  match x with
  | .ok a => P a
  | .throw => True
  | .ub => False

theorem Sat.bind {x : Res α} {P : α → Prop} {f : α → Res β} {Q : β → Prop} (h : Sat x P) (hf : ∀ a, P a → Sat (f a) Q) :
    Sat (x.bind f) Q := by
  cases x with
  | ok a => exact hf a h
  | throw => trivial
  | ub => exact h

theorem Sat.map {x : Res α} {P : α → Prop} {f : α → β} {Q : β → Prop} (h : Sat x P) (hf : ∀ a, P a → Q (f a)) :
    Sat (x.map f) Q := by
  cases x with
  | ok a => exact hf a h
  | throw => trivial
  | ub => exact h

theorem Sat.mono {x : Res α} {P Q : α → Prop} (h : Sat x P) (hf : ∀ a, P a → Q a) : Sat x Q := by
  cases x with
  | ok a => exact hf a h
  | throw => trivial
  | ub => exact h

/-- No byte starts a sequence of more than five bytes. -/
def Low (s : Bytes) : Prop := ∀ b ∈ s, b.toNat < 0xFC

theorem Low.suffix {r s : Bytes} (h : Low s) (hr : r <:+ s) : Low r := fun b hb => h b (hr.subset hb)

theorem load_sat {s : Bytes} (h : Low s) : Sat (load s) fun
    | none => s = []
    | some x => x.2 <:+ s ∧ x.2.length < s.length := by
  cases s with
  | nil => rfl
  | cons b t =>
    have hb := h b (by simp)
    unfold load
    simp only
    split
    · trivial
    · split
      · rename_i h1 h2
        have hn : u8len b.toNat ≤ 5 := by unfold u8len; (repeat' split) <;> omega
        rw [if_neg (by omega), if_neg (by omega)]
        split
        · trivial
        · split
          · trivial
          · split
            · trivial
            · exact ⟨(List.drop_suffix _ _).trans (List.suffix_cons _ _), by simp; omega⟩
      · exact ⟨List.suffix_cons _ _, by simp⟩

/-- The length of what is left, where the character that has been read counts as one. -/
def rem (c : Option Nat) (s : Bytes) : Nat := s.length + (if c.isSome then 1 else 0)

theorem run_sat (p : Nat → Bool) {s : Bytes} (h : Low s) :
    Sat (run p s) fun r => r.2.2 <:+ s ∧ rem r.2.1 r.2.2 ≤ s.length ∧ ∀ b ∈ r.1, p b.toNat = true := by
  induction s with
  | nil => exact ⟨List.suffix_refl _, by simp [rem], by simp⟩
  | cons b s ih =>
    rw [run]
    split
    · rename_i hp
      refine (ih fun x hx => h x (by simp [hx])).map ?_
      rintro a ⟨h1, h2, h3⟩
      refine ⟨h1.trans (List.suffix_cons _ _), by simp only [List.length_cons]; omega, ?_⟩
      intro x hx
      rcases List.mem_cons.1 hx with rfl | hx
      · exact hp
      · exact h3 x hx
    · refine (load_sat h).map ?_
      rintro (_ | x) ha
      · exact ⟨List.nil_suffix, by simp [rem], by simp⟩
      · exact ⟨ha.1, by have := ha.2; simp [rem] at *; omega, by simp⟩

theorem isDigit_iff {b : UInt8} : isDigit b.toNat = true ↔ 0x30 ≤ b.toNat ∧ b.toNat ≤ 0x39 := by simp [isDigit]

theorem ofNat_digit {c : Nat} (h : isDigit c = true) : 0x30 ≤ (UInt8.ofNat c).toNat ∧ (UInt8.ofNat c).toNat ≤ 0x39 := by
  simp [isDigit] at h
  rw [Utf.ofNat_toNat]; omega

theorem digits_sat {s : Bytes} (h : Low s) :
    Sat (digits s) fun r => r.2.2 <:+ s ∧ rem r.2.1 r.2.2 ≤ s.length ∧ Digits r.1 := by
  unfold digits
  refine (load_sat h).bind ?_
  rintro (_ | x) ha
  · trivial
  · simp only at ha ⊢
    split
    · rename_i hd
      refine (run_sat isDigit (h.suffix ha.1)).map ?_
      rintro r ⟨h1, h2, h3⟩
      refine ⟨h1.trans ha.1, by simp only; omega, by simp, ?_⟩
      intro b hb
      rcases List.mem_cons.1 hb with rfl | hb
      · exact ofNat_digit hd
      · exact isDigit_iff.1 (h3 b hb)
    · trivial

theorem exponent_sat (t : Bytes) (c : Option Nat) {s : Bytes} (h : Low s) :
    Sat (exponent t c s) fun r => r.2.2 <:+ s ∧ rem r.2.1 r.2.2 ≤ rem c s ∧ ∃ e, Exponent e ∧ r.1 = t ++ e := by
  cases c with
  | none => exact ⟨List.suffix_refl _, Nat.le_refl _, [], .inl rfl, by simp⟩
  | some c =>
    unfold exponent
    simp only
    split
    · rename_i hc
      have hc' : UInt8.ofNat c = 0x65 ∨ UInt8.ofNat c = 0x45 := by
        rcases hc with rfl | rfl
        · exact .inl rfl
        · exact .inr rfl
      refine (load_sat h).bind ?_
      rintro (_ | x) ha
      · trivial
      · simp only at ha ⊢
        split
        · rename_i hx
          refine (digits_sat (h.suffix ha.1)).map ?_
          rintro r ⟨h1, h2, h3⟩
          refine ⟨h1.trans ha.1, by simp only; simp [rem] at *; omega, _, .inr ⟨UInt8.ofNat c, [UInt8.ofNat x.1], r.1, hc', ?_, h3, rfl⟩, rfl⟩
          rcases hx with h | h <;> rw [h]
          · exact .inr (.inl rfl)
          · exact .inr (.inr rfl)
        · refine (digits_sat h).map ?_
          rintro r ⟨h1, h2, h3⟩
          exact ⟨h1, by simp only; simp [rem] at *; omega, _, .inr ⟨UInt8.ofNat c, [], r.1, hc', .inl rfl, h3, rfl⟩, rfl⟩
    · exact ⟨List.suffix_refl _, Nat.le_refl _, [], .inl rfl, by simp⟩

theorem fraction_sat (t : Bytes) (c : Option Nat) {s : Bytes} (h : Low s) :
    Sat (fraction t c s) fun r => r.2.2 <:+ s ∧ rem r.2.1 r.2.2 ≤ rem c s ∧
      ∃ f e, Fraction f ∧ Exponent e ∧ r.1 = t ++ (f ++ e) := by
  cases c with
  | none => exact ⟨List.suffix_refl _, Nat.le_refl _, [], [], .inl rfl, .inl rfl, by simp⟩
  | some c =>
    unfold fraction
    simp only
    split
    · rename_i hc
      refine (digits_sat h).bind ?_
      rintro r ⟨h1, h2, h3⟩
      refine (exponent_sat _ _ (h.suffix h1)).mono ?_
      rintro q ⟨k1, k2, e, k3, k4⟩
      refine ⟨k1.trans h1, by simp [rem] at *; omega, 0x2E :: r.1, e, .inr ⟨r.1, h3, rfl⟩, k3, ?_⟩
      rw [k4, hc]; simp
    · refine (exponent_sat t (some c) h).mono ?_
      rintro q ⟨k1, k2, e, k3, k4⟩
      exact ⟨k1, k2, [], e, .inl rfl, k3, by simpa using k4⟩

theorem number_sat {c : Nat} {s : Bytes} (h : Low s) (hc : c = 0x2B ∨ c = 0x2D ∨ isDigit c = true) :
    Sat (number c s) fun r => r.2.2 <:+ s ∧ rem r.2.1 r.2.2 ≤ s.length ∧ Number r.1 := by
  unfold number
  split
  · rename_i hs
    refine (digits_sat h).bind ?_
    rintro r ⟨h1, h2, h3⟩
    refine (fraction_sat _ _ (h.suffix h1)).mono ?_
    rintro q ⟨k1, k2, f, e, k3, k4, k5⟩
    refine ⟨k1.trans h1, by omega, [UInt8.ofNat c], r.1, f, e, ?_, h3, k3, k4, by rw [k5]; simp⟩
    rcases hs with rfl | rfl
    · exact .inr (.inl rfl)
    · exact .inr (.inr rfl)
  · rename_i hs
    have hd : isDigit c = true := by rcases hc with h | h | h <;> first | exact h | exact absurd (by simp [h]) hs
    refine (run_sat isDigit h).bind ?_
    rintro r ⟨h1, h2, h3⟩
    refine (fraction_sat _ _ (h.suffix h1)).mono ?_
    rintro q ⟨k1, k2, f, e, k3, k4, k5⟩
    refine ⟨k1.trans h1, by omega, [], UInt8.ofNat c :: r.1, f, e, .inl rfl, ⟨by simp, ?_⟩, k3, k4, by rw [k5]; simp⟩
    intro b hb
    rcases List.mem_cons.1 hb with rfl | hb
    · exact ofNat_digit hd
    · exact isDigit_iff.1 (h3 b hb)

theorem hex4_some {s : Bytes} {c : Nat} {r : Bytes} (h : hex4 s = some (c, r)) : r <:+ s ∧ r.length < s.length := by
  match s, h with
  | a :: b :: c' :: d :: s, h =>
    rw [hex4] at h
    split at h
    · cases h
      exact ⟨⟨[a, b, c', d], rfl⟩, by simp only [List.length_cons]; omega⟩
    · cases h
  | [], h => cases h
  | [_], h => cases h
  | [_, _], h => cases h
  | [_, _, _], h => cases h

theorem escape_sat (s : Bytes) : Sat (escape s) fun r => r.2 <:+ s ∧ r.2.length < s.length := by
  have cons : ∀ (b : UInt8) (s : Bytes), s <:+ b :: s ∧ s.length < (b :: s).length := fun b s =>
    ⟨List.suffix_cons _ _, by simp⟩
  cases s with
  | nil => trivial
  | cons b s =>
    unfold escape
    simp only
    split
    · exact cons b s
    split
    · exact cons b s
    split
    · exact cons b s
    split
    · exact cons b s
    split
    · exact cons b s
    split
    · exact cons b s
    split
    · split
      · trivial
      · rename_i c r hr
        have hr := hex4_some hr
        split
        · trivial
        split
        · split
          · rename_i u _
            split
            · trivial
            · rename_i d q hq
              have hq := hex4_some hq
              split
              · refine ⟨(hq.1.trans (((List.suffix_cons _ _).trans (List.suffix_cons _ _)).trans hr.1)).trans (List.suffix_cons _ _), ?_⟩
                have := hr.2; have := hq.2
                simp at *; omega
              · trivial
          · trivial
        · exact ⟨hr.1.trans (List.suffix_cons _ _), by have := hr.2; simp; omega⟩
    · trivial

theorem strLoop_sat : ∀ (n : Nat) (tok s : Bytes), Low s → s.length < n →
    Sat (strLoop n tok s) fun r => r.2 <:+ s ∧ r.2.length < s.length ∧ ∃ u, r.1 = tok ++ u
  | 0, _, _, _, hn => absurd hn (by omega)
  | n + 1, tok, s, h, hn => by
    have hd : s.dropWhile plain <:+ s := List.dropWhile_suffix _
    rw [strLoop]
    refine (load_sat (h.suffix hd)).bind ?_
    rintro (_ | x) ha
    · trivial
    · simp only at ha ⊢
      have hl := hd.length_le
      split
      · trivial
      split
      · exact ⟨ha.1.trans hd, by have := ha.2; simp only; omega, _, rfl⟩
      split
      · refine (escape_sat x.2).bind ?_
        rintro y ⟨h1, h2⟩
        have hs := (h1.trans ha.1).trans hd
        refine (strLoop_sat n _ _ (h.suffix hs) (by omega)).mono ?_
        rintro q ⟨k1, k2, u, k3⟩
        exact ⟨k1.trans hs, by omega, _, by rw [k3, List.append_assoc, List.append_assoc]⟩
      · refine (strLoop_sat n _ _ (h.suffix (ha.1.trans hd)) (by omega)).mono ?_
        rintro q ⟨k1, k2, u, k3⟩
        exact ⟨k1.trans (ha.1.trans hd), by omega, _, by rw [k3, List.append_assoc, List.append_assoc]⟩

/-- Tokens that begin like a number are numbers. -/
def TokOk (tok : Bytes) : Prop := (at0 tok = 0x2B ∨ at0 tok = 0x2D ∨ isDigit (at0 tok).toNat = true) → Number tok

/-- What holds of a token and the context after it. -/
def AfterTok (s : Bytes) (n : Nat) (r : Bytes × Ctx) : Prop :=
  r.2.rest <:+ s ∧ (r.1 = [] → r.2.eof = true) ∧ (r.1 ≠ [] → rem r.2.c r.2.rest < n) ∧ TokOk r.1

theorem body_sat (eof : Bool) (c : Nat) {s : Bytes} (h : Low s) : Sat (body eof c s) (AfterTok s (s.length + 1)) := by
  unfold body
  split
  · rename_i hc
    refine ⟨List.suffix_refl _, by simp, by simp [rem], ?_⟩
    rcases hc with rfl | rfl | rfl | rfl | rfl | rfl <;> exact fun hx => absurd hx (by dsimp only; decide +kernel)
  split
  · rename_i hc hi
    refine (run_sat isIdent h).map ?_
    rintro r ⟨h1, h2, _⟩
    refine ⟨h1, by simp, fun _ => by simp only; omega, ?_⟩
    have hi' : c = 0x5F ∨ c = 0x24 ∨ 0x41 ≤ c ∧ c ≤ 0x5A ∨ 0x61 ≤ c ∧ c ≤ 0x7A := by
      simp [isIdent1] at hi; omega
    have ht : (UInt8.ofNat c).toNat = c := by rw [Utf.ofNat_toNat]; omega
    intro hx
    change UInt8.ofNat c = 43 ∨ UInt8.ofNat c = 45 ∨ isDigit (UInt8.ofNat c).toNat = true at hx
    rcases hx with hx | hx | hx
    · have : (43 : UInt8).toNat = c := by rw [← hx, ht]
      change 43 = c at this; omega
    · have : (45 : UInt8).toNat = c := by rw [← hx, ht]
      change 45 = c at this; omega
    · rw [ht] at hx; simp [isDigit] at hx; omega
  split
  · rename_i hc
    refine (number_sat h hc).map ?_
    rintro r ⟨h1, h2, h3⟩
    have : r.1 ≠ [] := by
      obtain ⟨s, i, f, e, _, hi, _, _, h⟩ := h3
      rw [h]
      have := List.length_pos_iff.2 hi.1
      intro hn
      have := congrArg List.length hn
      simp at this
      exact hi.1 this.2.1
    exact ⟨h1, fun h => absurd h this, fun _ => by simp only; omega, fun _ => h3⟩
  split
  · refine (strLoop_sat _ _ _ h (by omega)).map ?_
    rintro r ⟨h1, h2, u, h3⟩
    refine ⟨h1, ?_, fun _ => by simp [rem]; omega, ?_⟩
    · rw [h3]; simp
    · rw [h3]
      intro hx
      change (0x22 : UInt8) = 43 ∨ (0x22 : UInt8) = 45 ∨ isDigit (0x22 : UInt8).toNat = true at hx
      exact absurd hx (by decide +kernel)
  · trivial

theorem AfterTok.mono {s s' : Bytes} {n n' : Nat} {r : Bytes × Ctx} (h : AfterTok s n r) (hs : s <:+ s') (hn : n ≤ n') :
    AfterTok s' n' r := ⟨h.1.trans hs, h.2.1, fun e => Nat.lt_of_lt_of_le (h.2.2.1 e) hn, h.2.2.2⟩

theorem afterTok_end (s : Bytes) (n : Nat) : AfterTok s n ([], ⟨none, true, []⟩) :=
  ⟨List.nil_suffix, by simp, by simp, fun h => absurd h (by decide +kernel)⟩

theorem skipWs_sat (eof : Bool) (c : Nat) {s : Bytes} (h : Low s) : Sat (skipWs eof c s) (AfterTok s (s.length + 1)) := by
  unfold skipWs
  split
  · have hd : s.dropWhile (fun b => isWs b.toNat) <:+ s := List.dropWhile_suffix _
    refine (load_sat (h.suffix hd)).bind ?_
    rintro (_ | x) ha
    · exact afterTok_end _ _
    · have hs := ha.1.trans hd
      exact (body_sat eof x.1 (h.suffix hs)).mono fun r hr => hr.mono hs (by have := hs.length_le; omega)
  · exact body_sat eof c h

/-- A token does not run into undefined behaviour, and makes progress. -/
theorem token_sat (total : Nat) {ctx : Ctx} (h : Low ctx.rest) :
    Sat (token total ctx) (AfterTok ctx.rest (rem ctx.c ctx.rest)) := by
  unfold token
  cases hc : ctx.c with
  | some c => simpa [rem] using skipWs_sat ctx.eof c h
  | none =>
    simp only
    refine (load_sat h).bind ?_
    rintro (_ | x) ha
    · exact afterTok_end _ _
    · simp only at ha ⊢
      split
      · refine (load_sat (h.suffix ha.1)).bind ?_
        rintro (_ | y) hb
        · exact afterTok_end _ _
        · simp only at hb ⊢
          exact (skipWs_sat ctx.eof y.1 (h.suffix (hb.1.trans ha.1))).mono fun r hr =>
            hr.mono (hb.1.trans ha.1) (by simp [rem]; omega)
      · exact (skipWs_sat ctx.eof x.1 (h.suffix ha.1)).mono fun r hr => hr.mono ha.1 (by simp [rem]; omega)

/-- What holds of a state. -/
def StOk : State → Prop
  | .pack tok ctx _ => Low ctx.rest ∧ TokOk tok
  | .close _ ctx _ => Low ctx.rest

/-- A bound of the number of steps. -/
def measure : State → Nat
  | .pack _ ctx _ => 2 * rem ctx.c ctx.rest + 1
  | .close _ ctx _ => 2 * rem ctx.c ctx.rest

/-- One step does not run into undefined behaviour, and makes progress. -/
theorem step_sat (castD : NumGet → Option Dbl) (total : Nat) {st : State} (h : StOk st) :
    Sat (step castD total st) fun
      | .inl st' => StOk st' ∧ measure st' < measure st
      | .inr _ => True := by
  have hcolon : ∀ (ctx : Ctx) (m : Nat) (k : Bytes → Ctx → Res (State ⊕ Value)) (mk : Bytes → Ctx → State),
      (∀ tok c, k tok c = .ok (.inl (mk tok c))) → (∀ tok c, Low c.rest → TokOk tok → StOk (mk tok c)) →
      (∀ tok c, measure (mk tok c) = 2 * rem c.c c.rest + 1) → Low ctx.rest → 2 * rem ctx.c ctx.rest ≤ m →
      Sat (colon total ctx k) fun
        | .inl st' => StOk st' ∧ measure st' < m
        | .inr _ => True := by
    intro ctx m k mk hk hs hm hl hle
    unfold colon
    refine (token_sat total hl).bind ?_
    rintro t ⟨h1, h2, h3, h4⟩
    split
    · trivial
    · rename_i hne
      have hne : t.1 ≠ [] := by intro e; apply hne; rw [e]; decide
      refine (token_sat total (hl.suffix h1)).bind ?_
      rintro u ⟨k1, k2, k3, k4⟩
      split
      · trivial
      · rename_i he
        have hu : u.1 ≠ [] := fun e => he (k2 e)
        rw [hk]
        exact ⟨hs _ _ (hl.suffix (k1.trans h1)) k4, by rw [hm]; have := h3 hne; have := k3 hu; omega⟩
  match st, h with
  | .pack tok ctx fs, ⟨hl, ht⟩ =>
    rw [step]
    split
    · trivial
    split
    · refine (token_sat total hl).bind ?_
      rintro t ⟨h1, h2, h3, h4⟩
      split
      · trivial
      · rename_i he
        have := h3 fun e => he (h2 e)
        split
        · exact ⟨⟨hl.suffix h1, h4⟩, by simp only [measure]; omega⟩
        · exact ⟨hl.suffix h1, by simp only [measure]; omega⟩
    split
    · refine (token_sat total hl).bind ?_
      rintro t ⟨h1, h2, h3, h4⟩
      split
      · trivial
      · rename_i he
        have := h3 fun e => he (h2 e)
        split
        · split
          · trivial
          · exact hcolon _ _ _ _ (fun _ _ => rfl) (fun _ _ a b => ⟨a, b⟩) (fun _ _ => rfl) (hl.suffix h1)
              (by simp only [measure]; omega)
        · exact ⟨hl.suffix h1, by simp only [measure]; omega⟩
    split
    · rename_i hn
      obtain ⟨g, hg⟩ := parse_number (ht hn)
      rw [hg]
      simp only
      split
      · exact ⟨hl, by simp only [measure]; omega⟩
      · trivial
    split
    · exact ⟨hl, by simp only [measure]; omega⟩
    split
    · exact ⟨hl, by simp only [measure]; omega⟩
    split
    · exact ⟨hl, by simp only [measure]; omega⟩
    split
    · exact ⟨hl, by simp only [measure]; omega⟩
    · trivial
  | .close v ctx [], hl =>
    rw [step]
    refine (token_sat total hl).bind ?_
    rintro t _
    split
    · trivial
    · trivial
  | .close v ctx (.arr items :: fs), hl =>
    rw [step]
    refine (token_sat total hl).bind ?_
    rintro t ⟨h1, h2, h3, h4⟩
    split
    · trivial
    · rename_i he
      have hlt := h3 fun e => he (h2 e)
      split
      · split
        · trivial
        · refine (token_sat total (hl.suffix h1)).bind ?_
          rintro u ⟨k1, k2, k3, k4⟩
          split
          · trivial
          · rename_i he
            have := k3 fun e => he (k2 e)
            split
            · exact ⟨⟨hl.suffix (k1.trans h1), k4⟩, by simp only [measure]; omega⟩
            · exact ⟨hl.suffix (k1.trans h1), by simp only [measure]; omega⟩
      · exact ⟨hl.suffix h1, by simp only [measure]; omega⟩
  | .close v ctx (.obj entries key :: fs), hl =>
    rw [step]
    refine (token_sat total hl).bind ?_
    rintro t ⟨h1, h2, h3, h4⟩
    split
    · trivial
    · rename_i he
      have hlt := h3 fun e => he (h2 e)
      split
      · split
        · trivial
        · refine (token_sat total (hl.suffix h1)).bind ?_
          rintro u ⟨k1, k2, k3, k4⟩
          split
          · trivial
          · rename_i he
            have := k3 fun e => he (k2 e)
            split
            · split
              · trivial
              split
              · trivial
              · exact hcolon _ _ _ _ (fun _ _ => rfl) (fun _ _ a b => ⟨a, b⟩) (fun _ _ => rfl)
                  (hl.suffix (k1.trans h1)) (by simp only [measure]; omega)
            · exact ⟨hl.suffix (k1.trans h1), by simp only [measure]; omega⟩
      · exact ⟨hl.suffix h1, by simp only [measure]; omega⟩

theorem steps_sat (castD : NumGet → Option Dbl) (total : Nat) : ∀ (n : Nat) (st : State), StOk st → measure st < n →
    steps castD total n st ≠ .ub
  | 0, _, _, hn => absurd hn (by omega)
  | n + 1, st, h, hn => by
    rw [steps]
    have hs := step_sat castD total h
    cases hq : step castD total st with
    | ok a =>
      rw [hq] at hs
      cases a with
      | inl st' => exact steps_sat castD total n st' hs.1 (by have := hs.2; omega)
      | inr v => simp
    | throw => simp
    | ub => rw [hq] at hs; exact hs.elim

theorem parse_sat (castD : NumGet → Option Dbl) {text : Bytes} (h : Low text) : parse castD text ≠ .ub := by
  unfold parse
  have ht := token_sat text.length (ctx := ⟨none, false, text⟩) h
  cases hq : token text.length ⟨none, false, text⟩ with
  | ok t =>
    rw [hq] at ht
    simp only [Res.bind]
    split
    · simp
    · rename_i hn
      refine steps_sat castD _ _ _ ⟨h.suffix ht.1, ht.2.2.2⟩ ?_
      have := ht.2.2.1 hn
      simp [rem, measure] at *; omega
  | throw => simp
  | ub => rw [hq] at ht; exact ht.elim

end Asteria.Json
