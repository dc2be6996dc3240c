import Verif.Spec.Log
import Verif.Proof.Backtrace
import Verif.Proof.Lexer

/-!
# Messages on standard error
-/

namespace Asteria.Log
open Asteria.NumText (writeDigits digits digitChar)
open Asteria.Print (lit)
open Asteria.Backtrace (numeral writeDigits_numeral)

/-! ### Numbers -/

theorem lit_dash : lit "-" = [0x2D] := by decide +kernel
theorem lit_space : lit " " = [0x20] := by decide +kernel
theorem lit_colon : lit ":" = [0x3A] := by decide +kernel
theorem lit_dot : lit "." = [0x2E] := by decide +kernel

theorem digits_acc : ∀ (f n : Nat) (acc : Bytes), digits 10 f n acc = digits 10 f n [] ++ acc := by
  intro f
  induction f with
  | zero => intro n acc; rfl
  | succ f ih =>
    intro n acc
    simp only [digits]
    by_cases h : n = 0
    · simp [h]
    · rw [if_neg h, if_neg h, ih, ih _ [_]]
      simp

theorem digit_char : ∀ d < 10, digitChar d = UInt8.ofNat (0x30 + d) := by decide +kernel

theorem dec_zero (k : Nat) : dec k 0 = List.replicate k 48 := by
  induction k with
  | zero => rfl
  | succ k ih =>
    rw [dec, Nat.zero_div, ih, List.replicate_succ']
    rfl

theorem digits_pad : ∀ (p f n : Nat), n < 10 ^ p → p ≤ f → (digits 10 f n []).length ≤ p ∧
    List.replicate (p - (digits 10 f n []).length) 48 ++ digits 10 f n [] = dec p n := by
  intro p
  induction p with
  | zero =>
    intro f n hn _
    have : n = 0 := by simpa using hn
    subst this
    cases f <;> simp [digits, dec]
  | succ p ih =>
    intro f n hn hf
    obtain ⟨f, rfl⟩ : ∃ g, f = g + 1 := ⟨f - 1, by omega⟩
    simp only [digits]
    by_cases h : n = 0
    · rw [if_pos h, h, dec_zero]
      simp
    · rw [if_neg h, digits_acc]
      have hn' : n / 10 < 10 ^ p := by
        rw [Nat.pow_succ] at hn
        omega
      obtain ⟨h1, h2⟩ := ih f (n / 10) hn' (by omega)
      rw [List.length_append, List.length_singleton]
      refine ⟨by omega, ?_⟩
      rw [show p + 1 - ((digits 10 f (n / 10) []).length + 1) = p - (digits 10 f (n / 10) []).length by omega, ← List.append_assoc, h2, dec,
        digit_char _ (Nat.mod_lt _ (by omega))]

theorem digits_long : ∀ (k f n : Nat), 10 ^ k ≤ n → k < f → k < (digits 10 f n []).length := by
  intro k
  induction k with
  | zero =>
    intro f n hn hf
    obtain ⟨f, rfl⟩ : ∃ g, f = g + 1 := ⟨f - 1, by omega⟩
    simp only [digits]
    rw [if_neg (by simp at hn; omega), digits_acc]
    simp
  | succ k ih =>
    intro f n hn hf
    obtain ⟨f, rfl⟩ : ∃ g, f = g + 1 := ⟨f - 1, by omega⟩
    have hp : 0 < 10 ^ k := Nat.pow_pos (by omega)
    simp only [digits]
    rw [Nat.pow_succ] at hn
    rw [if_neg (by omega), digits_acc]
    have := ih f (n / 10) (by omega) (by omega)
    simp
    omega

theorem writeDigits_dec (p n : Nat) (hn : n < 10 ^ p) (hp : p ≤ 64) : writeDigits 10 n p = dec p n := by
  unfold writeDigits
  exact (digits_pad p 64 n hn hp).2

theorem writeDigits_full (p n : Nat) (hn : n < 10 ^ (p + 1)) (hn' : 10 ^ p ≤ n) (hp : p + 1 ≤ 64) : writeDigits 10 n 1 = dec (p + 1) n := by
  obtain ⟨h1, h2⟩ := digits_pad (p + 1) 64 n hn hp
  have h3 := digits_long p 64 n hn' (by omega)
  unfold writeDigits
  dsimp only
  rw [show p + 1 - (digits 10 64 n []).length = 0 by omega] at h2
  rw [show 1 - (digits 10 64 n []).length = 0 by omega]
  exact h2

theorem dec_two (k n r : Nat) (hr : r < 100) : dec (k + 2) (n * 100 + r) = dec k n ++ dec 2 r := by
  simp only [dec, List.nil_append, List.append_assoc]
  rw [show (n * 100 + r) / 10 / 10 = n by omega, show (n * 100 + r) / 10 % 10 = r / 10 % 10 by omega, show (n * 100 + r) % 10 = r % 10 by omega]

theorem dec_length (k n : Nat) : (dec k n).length = k := by
  induction k generalizing n with
  | zero => rfl
  | succ k ih => simp [dec, ih]

theorem dec_plain (k n : Nat) : ∀ c ∈ dec k n, Plain c ∧ isSpace c = false := by
  have hd : ∀ d < 10, Plain (UInt8.ofNat (0x30 + d)) ∧ isSpace (UInt8.ofNat (0x30 + d)) = false := by decide +kernel
  induction k generalizing n with
  | zero => intro c hc; cases hc
  | succ k ih =>
    intro c hc
    rcases List.mem_append.1 hc with hc | hc
    · exact ih _ c hc
    · rw [List.mem_singleton] at hc
      subst hc
      exact hd _ (Nat.mod_lt _ (by omega))

theorem part_append {a b : Bytes} {i n : Nat} (h : a.length = i) : part (a ++ b) (i + n) m = part b n m := by
  subst h
  unfold part
  rw [List.drop_append, show a.length + n - a.length = n by omega, List.drop_eq_nil_of_le (by omega)]
  rfl

theorem part_head {a b : Bytes} {n : Nat} (h : a.length = n) : part (a ++ b) 0 n = a := by
  subst h
  unfold part
  simp

theorem stamp_text (t : Time) (h : t.Valid) : stampText t = dateText t ++ [0x20] := by
  obtain ⟨⟨h1, h1'⟩, h2, h3, h4, h5, h6, h7⟩ := h
  have e : writeDigits 10 (datetime t) 1 = dec 4 (t.year + 1900) ++ (dec 2 (t.mon + 1) ++ (dec 2 t.mday ++ (dec 2 t.hour ++ (dec 2 t.min ++ dec 2 t.sec)))) := by
    have hb : datetime t < 10 ^ 14 ∧ 10 ^ 13 ≤ datetime t := by
      unfold datetime
      dsimp only
      omega
    rw [writeDigits_full 13 _ hb.1 hb.2 (by omega)]
    unfold datetime
    dsimp only
    rw [dec_two 12 _ _ (by omega), dec_two 10 _ _ (by omega), dec_two 8 _ _ (by omega), dec_two 6 _ _ (by omega), dec_two 4 _ _ (by omega)]
    simp only [List.append_assoc]
  have p0 := fun b => part_head (b := b) (dec_length 4 (t.year + 1900))
  have ff : part (writeDigits 10 t.nsec 9) 0 9 = dec 9 t.nsec := by
    rw [writeDigits_dec 9 _ (by omega) (by omega)]
    have := part_head (a := dec 9 t.nsec) (b := []) (dec_length 9 _)
    rwa [List.append_nil] at this
  have p1 : ∀ (a b c : Bytes) (i : Nat), a.length = i → b.length = 2 → part (a ++ (b ++ c)) i 2 = b := by
    intro a b c i ha hb
    have := part_append (m := 2) (n := 0) (b := b ++ c) ha
    rw [Nat.add_zero] at this
    rw [this, part_head hb]
  unfold stampText dateText
  dsimp only
  rw [e, ff, p0]
  have q4 := p1 (dec 4 (t.year + 1900)) (dec 2 (t.mon + 1)) (dec 2 t.mday ++ (dec 2 t.hour ++ (dec 2 t.min ++ dec 2 t.sec))) 4 (dec_length _ _) (dec_length _ _)
  have q6 := p1 (dec 4 (t.year + 1900) ++ dec 2 (t.mon + 1)) (dec 2 t.mday) (dec 2 t.hour ++ (dec 2 t.min ++ dec 2 t.sec)) 6 (by simp [dec_length]) (dec_length _ _)
  have q8 := p1 (dec 4 (t.year + 1900) ++ (dec 2 (t.mon + 1) ++ dec 2 t.mday)) (dec 2 t.hour) (dec 2 t.min ++ dec 2 t.sec) 8 (by simp [dec_length]) (dec_length _ _)
  have q10 := p1 (dec 4 (t.year + 1900) ++ (dec 2 (t.mon + 1) ++ (dec 2 t.mday ++ dec 2 t.hour))) (dec 2 t.min) (dec 2 t.sec) 10 (by simp [dec_length]) (dec_length _ _)
  have q12 := p1 (dec 4 (t.year + 1900) ++ (dec 2 (t.mon + 1) ++ (dec 2 t.mday ++ (dec 2 t.hour ++ dec 2 t.min)))) (dec 2 t.sec) [] 12 (by simp [dec_length]) (dec_length _ _)
  simp only [List.append_assoc, List.append_nil] at q4 q6 q8 q10 q12 ⊢
  rw [q4, q6, q8, q10, q12, lit_dash, lit_space, lit_colon, lit_dot]

/-! ### Characters -/

theorem Tame.append {a b : Bytes} (ha : Tame a) (hb : Tame b) : Tame (a ++ b) := by
  induction ha with
  | nil => exact hb
  | plain h _ ih => exact .plain h ih
  | tab _ ih => exact .tab ih
  | next _ ih => exact .next ih

theorem Tame.of_plain {a : Bytes} (h : ∀ c ∈ a, Plain c) : Tame a := by
  induction a with
  | nil => exact .nil
  | cons c a ih => exact .plain (h c (by simp)) (ih fun d hd => h d (by simp [hd]))

/-- A decision procedure for short texts. -/
def tame : Bytes → Bool
  | [] => true
  | 0x1B :: 0x45 :: r => tame r
  | c :: r => (c = 0x09 ∨ Plain c) && tame r

theorem Tame.of_tame : ∀ {a : Bytes}, tame a = true → Tame a := by
  intro a
  fun_induction tame a with
  | case1 => intro _; exact .nil
  | case2 r ih => intro h; exact .next (ih h)
  | case3 c r hne ih =>
    intro h
    rw [Bool.and_eq_true] at h
    obtain ⟨h1, h2⟩ := h
    rcases of_decide_eq_true h1 with rfl | h1
    · exact .tab (ih h2)
    · exact .plain h1 (ih h2)

theorem neutral_tame : ∀ c, Tame (neutral c) := by
  have : ∀ c, tame (neutral c) = true := Lexer.forall_byte (by decide +kernel)
  exact fun c => .of_tame (this c)

theorem neutral_plain : ∀ c, Plain c → neutral c = [c] := Lexer.forall_byte (by decide +kernel)

theorem Tame.mem {a : Bytes} (h : Tame a) : ∀ c ∈ a, Plain c ∨ c = 0x09 ∨ c = 0x1B := by
  have hE : Plain 0x45 := by decide
  induction h with
  | nil => intro c hc; cases hc
  | plain h _ ih =>
    intro c hc
    rcases List.mem_cons.1 hc with rfl | hc
    · exact .inl h
    · exact ih c hc
  | tab _ ih =>
    intro c hc
    rcases List.mem_cons.1 hc with rfl | hc
    · exact .inr (.inl rfl)
    · exact ih c hc
  | next _ ih =>
    intro c hc
    rcases List.mem_cons.1 hc with rfl | hc
    · exact .inr (.inr rfl)
    · rcases List.mem_cons.1 hc with rfl | hc
      · exact .inl hE
      · exact ih c hc

theorem takeWhile_mem : ∀ (a : Bytes) (c : UInt8), c ∈ a.takeWhile isSpace → isSpace c = true := by
  intro a
  induction a with
  | nil => intro c hc; cases hc
  | cons d a ih =>
    intro c hc
    rw [List.takeWhile_cons] at hc
    split at hc
    · rename_i hd
      rcases List.mem_cons.1 hc with rfl | hc
      · exact hd
      · exact ih c hc
    · cases hc

/-- Trimming takes spaces from the end only. -/
theorem trim_spec (a : Bytes) : ∃ s, a = trim a ++ s ∧ (∀ c ∈ s, isSpace c = true) ∧ ∀ c, (trim a).getLast? = some c → isSpace c = false := by
  refine ⟨(a.reverse.takeWhile isSpace).reverse, ?_, ?_, ?_⟩
  · unfold trim
    rw [← List.reverse_append, List.takeWhile_append_dropWhile, List.reverse_reverse]
  · intro c hc
    rw [List.mem_reverse] at hc
    exact takeWhile_mem _ c hc
  · intro c hc
    unfold trim at hc
    rw [List.getLast?_reverse] at hc
    have := List.head?_dropWhile_not isSpace a.reverse
    rw [hc] at this
    simpa using this

theorem trim_of_last (a : Bytes) (c : UInt8) (h : isSpace c = false) : trim (a ++ [c]) = a ++ [c] := by
  unfold trim
  rw [List.reverse_append]
  simp [h]

theorem tame_prefix_aux {x : Bytes} (h : Tame x) : ∀ a s : Bytes, x = a ++ s → (∀ c, a.getLast? = some c → c ≠ 0x1B) → Tame a := by
  induction h with
  | nil =>
    intro a s e _
    have := List.append_eq_nil_iff.1 e.symm
    rw [this.1]
    exact .nil
  | @plain c r hc _ ih =>
    intro a s e hl
    cases a with
    | nil => exact .nil
    | cons d a =>
      rw [List.cons_append] at e
      obtain ⟨rfl, e1⟩ := List.cons.inj e
      refine .plain hc (ih a s e1 fun c' h' => hl c' ?_)
      cases a with
      | nil => cases h'
      | cons => simpa using h'
  | @tab r _ ih =>
    intro a s e hl
    cases a with
    | nil => exact .nil
    | cons d a =>
      rw [List.cons_append] at e
      obtain ⟨rfl, e1⟩ := List.cons.inj e
      refine .tab (ih a s e1 fun c' h' => hl c' ?_)
      cases a with
      | nil => cases h'
      | cons => simpa using h'
  | @next r _ ih =>
    intro a s e hl
    cases a with
    | nil => exact .nil
    | cons d a =>
      rw [List.cons_append] at e
      obtain ⟨rfl, e1⟩ := List.cons.inj e
      clear e
      cases a with
      | nil => exact absurd rfl (hl 0x1B rfl)
      | cons d a =>
        rw [List.cons_append] at e1
        obtain ⟨rfl, e2⟩ := List.cons.inj e1
        refine .next (ih a s e2 fun c' h' => hl c' ?_)
        cases a with
        | nil => cases h'
        | cons => simpa using h'

theorem Tame.last {a : Bytes} (h : Tame a) : ∀ c, a.getLast? = some c → c ≠ 0x1B := by
  have hp : ∀ c, Plain c → c ≠ 0x1B := Lexer.forall_byte (by decide +kernel)
  induction h with
  | nil => intro c h; cases h
  | @plain c r hc _ ih =>
    intro d hd
    cases r with
    | nil =>
      cases hd
      exact hp c hc
    | cons => exact ih d (by simpa using hd)
  | @tab r _ ih =>
    intro d hd
    cases r with
    | nil =>
      cases hd
      decide
    | cons => exact ih d (by simpa using hd)
  | @next r _ ih =>
    intro d hd
    cases r with
    | nil =>
      cases hd
      decide
    | cons => exact ih d (by simpa using hd)

theorem last_space_before {a s : Bytes} (h : Tame (a ++ s)) (hs : ∀ c ∈ s, isSpace c = true) : ∀ c, a.getLast? = some c → c ≠ 0x1B := by
  intro c hc hE
  subst hE
  cases s with
  | nil =>
    rw [List.append_nil] at h
    exact h.last _ hc rfl
  | cons d s =>
    obtain ⟨a', rfl⟩ : ∃ a', a = a' ++ [0x1B] := by
      obtain ⟨hne, e⟩ := List.getLast?_eq_some_iff.1 hc
      exact ⟨hne, e⟩
    have hd : d ≠ 0x45 := by
      rintro rfl
      exact absurd (hs 0x45 (by simp)) (by decide)
    have key : ∀ {x : Bytes}, Tame x → ∀ a' : Bytes, x = a' ++ 0x1B :: d :: s → False := by
      have hp : ¬ Plain 0x1B := by decide
      intro x hx
      induction hx with
      | nil => intro a' e; simp at e
      | @plain c r hc _ ih =>
        intro a' e
        cases a' with
        | nil =>
          cases e
          exact hp hc
        | cons y a' => exact ih a' (List.cons.inj e).2
      | @tab r _ ih =>
        intro a' e
        cases a' with
        | nil => exact absurd (List.cons.inj e).1 (by decide)
        | cons y a' => exact ih a' (List.cons.inj e).2
      | @next r _ ih =>
        intro a' e
        cases a' with
        | nil =>
          have := (List.cons.inj (List.cons.inj e).2).1
          exact hd this.symm
        | cons y a' =>
          have e := (List.cons.inj e).2
          cases a' with
          | nil => exact absurd (List.cons.inj e).1 (by decide)
          | cons z a' => exact ih a' (List.cons.inj e).2
    exact key h a' (by simp)

theorem Tame.trim {a : Bytes} (h : Tame a) : Tame (trim a) := by
  obtain ⟨s, e, hs, _⟩ := trim_spec a
  exact tame_prefix_aux h _ s e (last_space_before (e ▸ h) hs)

theorem flatMap_tame (msg : Bytes) : Tame (msg.flatMap neutral) := by
  induction msg with
  | nil => exact .nil
  | cons c msg ih => exact (neutral_tame c).append ih

theorem flatMap_plain {msg : Bytes} (h : ∀ c ∈ msg, Plain c) : msg.flatMap neutral = msg := by
  induction msg with
  | nil => rfl
  | cons c msg ih =>
    rw [List.flatMap_cons, neutral_plain c (h c (by simp)), ih fun d hd => h d (by simp [hd])]
    rfl

theorem numeral_plain (n : Nat) : ∀ c ∈ numeral n, Plain c := by
  have hd : ∀ d < 10, Plain (UInt8.ofNat (0x30 + d)) := by decide +kernel
  intro b hb
  unfold numeral at hb
  split at hb
  · simp at hb
    subst hb
    decide
  · obtain ⟨d, h, rfl⟩ := List.mem_map.mp hb
    exact hd d (Nat.digits_lt_base (by omega) (List.mem_reverse.mp h))

end Asteria.Log
