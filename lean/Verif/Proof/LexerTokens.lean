import Verif.Proof.LexerLoop

/-!
# Lemmas about single tokens
-/

namespace Asteria.Lexer

open Utf (WellFormed)
open NumText (NumGet castI)
open Asteria.Parser (Punct)

variable {R : Type} {castD : NumGet → Option R}

/-! ### Punctuators -/

theorem puncts_text : ∀ e ∈ puncts, e.1 = Spec.bytes (Spec.text e.2) := by decide +kernel

theorem puncts_all : ∀ p : Punct, (Spec.bytes (Spec.text p), p) ∈ puncts := by
  intro p
  cases p <;> decide +kernel

theorem puncts_sorted : puncts.Pairwise fun a b => ¬ b.1 <+: a.1 := by decide +kernel

theorem text_inj : ∀ p q : Punct, Spec.bytes (Spec.text p) = Spec.bytes (Spec.text q) → p = q := by
  have h : ∀ a ∈ puncts, ∀ b ∈ puncts, a.1 = b.1 → a.2 = b.2 := by decide +kernel
  intro p q e
  exact h _ (puncts_all p) _ (puncts_all q) e

theorem text_ne (p : Punct) : Spec.bytes (Spec.text p) ≠ [] := (puncts_ascii _ (puncts_all p)).1

theorem headD_prefix {a s : Bytes} (h : a <+: s) (ha : a ≠ []) : a.headD 0 = s.headD 0 := by
  obtain ⟨t, rfl⟩ := h
  cases a with
  | nil => exact absurd rfl ha
  | cons c a => rfl

theorem acceptPunct_none {s : Bytes} (h : ∀ q, ¬ Spec.bytes (Spec.text q) <+: s) : acceptPunct s = none := by
  unfold acceptPunct
  rw [Option.map_eq_none_iff, List.find?_eq_none]
  intro e he hp
  rw [List.mem_reverse, List.mem_filter] at he
  rw [List.isPrefixOf_iff_prefix, puncts_text e he.1] at hp
  exact h _ hp

theorem acceptPunct_some {s : Bytes} {p : Punct} {rest : Bytes} (h : acceptPunct s = some (p, rest)) :
    s = Spec.bytes (Spec.text p) ++ rest ∧
      ∀ q, Spec.bytes (Spec.text q) <+: s → (Spec.bytes (Spec.text q)).length ≤ (Spec.bytes (Spec.text p)).length := by
  unfold acceptPunct at h
  rw [Option.map_eq_some_iff] at h
  obtain ⟨e, he, heq⟩ := h
  obtain ⟨rfl, rfl⟩ := Prod.mk.inj heq
  rw [List.find?_eq_some_iff_append] at he
  obtain ⟨hp, as, bs, hl, has⟩ := he
  have hF : (puncts.filter fun e => e.1.headD 0 = s.headD 0) = bs.reverse ++ e :: as.reverse := by
    have := congrArg List.reverse hl
    simpa using this
  have hmem : e ∈ puncts := by
    have : e ∈ puncts.filter fun e => e.1.headD 0 = s.headD 0 := by rw [hF]; simp
    exact (List.mem_filter.1 this).1
  have htext := puncts_text e hmem
  rw [List.isPrefixOf_iff_prefix] at hp
  rw [← htext]
  refine ⟨?_, ?_⟩
  · obtain ⟨t, rfl⟩ := hp
    rw [List.drop_left]
  · intro q hq
    have hqm := puncts_all q
    have hqF : (Spec.bytes (Spec.text q), q) ∈ puncts.filter fun e => e.1.headD 0 = s.headD 0 := by
      rw [List.mem_filter]
      exact ⟨hqm, by simpa using headD_prefix hq (text_ne q)⟩
    have hpw : (puncts.filter fun e => e.1.headD 0 = s.headD 0).Pairwise fun a b => ¬ b.1 <+: a.1 :=
      puncts_sorted.sublist List.filter_sublist
    rw [hF] at hqF hpw
    rw [List.mem_append, List.mem_cons, List.mem_reverse, List.mem_reverse] at hqF
    rcases hqF with hqF | hqF | hqF
    · have := (List.pairwise_append.1 hpw).2.2 _ (List.mem_reverse.2 hqF) e (List.mem_cons_self ..)
      rcases List.prefix_or_prefix_of_prefix hp hq with h | h
      · exact absurd h this
      · exact h.length_le
    · rw [← hqF]
    · have := has _ hqF
      rw [← List.isPrefixOf_iff_prefix] at hq
      simp [hq] at this

theorem acceptPunct_eq {p : Punct} {rest : Bytes} (h : ∀ q, Spec.bytes (Spec.text q) <+: Spec.bytes (Spec.text p) ++ rest →
    (Spec.bytes (Spec.text q)).length ≤ (Spec.bytes (Spec.text p)).length) :
    acceptPunct (Spec.bytes (Spec.text p) ++ rest) = some (p, rest) := by
  cases hx : acceptPunct (Spec.bytes (Spec.text p) ++ rest) with
  | none =>
    unfold acceptPunct at hx
    rw [Option.map_eq_none_iff, List.find?_eq_none] at hx
    refine absurd ?_ (hx (Spec.bytes (Spec.text p), p) ?_)
    · rw [List.isPrefixOf_iff_prefix]; exact List.prefix_append _ _
    · rw [List.mem_reverse, List.mem_filter]
      exact ⟨puncts_all p, by simpa using headD_prefix (List.prefix_append _ _) (text_ne p)⟩
  | some r =>
    obtain ⟨q, rest'⟩ := r
    obtain ⟨h1, h2⟩ := acceptPunct_some hx
    have a := h q ⟨rest', h1.symm⟩
    have b := h2 p (List.prefix_append _ _)
    obtain ⟨e1, e2⟩ := List.append_inj h1 (by omega)
    rw [text_inj _ _ e1, e2]

/-! ### Where no number starts -/

theorem takeWhile_word (s : Bytes) : s.takeWhile (isCmask 0x14) = Spec.word s := by
  unfold Spec.word
  congr 1
  funext c
  exact cmask_name c

theorem digit_iff : ∀ c : UInt8, (48 ≤ c ∧ c ≤ 57) ↔ Spec.digit c = true := by
  have : ∀ c : UInt8, decide (48 ≤ c ∧ c ≤ 57) = Spec.digit c := forall_byte (by decide +kernel)
  intro c
  rw [← this c]; simp

theorem acceptNan_none {neg : Bool} {s : Bytes} (h : ¬ Spec.NumStart s) (h' : s.headD 0 = 110 ∨ s.headD 0 = 78) :
    acceptNan (R := R) neg s = none := by
  unfold acceptNan
  rw [takeWhile_word]
  split
  · rename_i x y z e
    split
    · rfl
    · rename_i hy
      rw [not_or, not_not, not_not] at hy
      obtain ⟨rfl, rfl⟩ := hy
      exfalso
      apply h
      right
      have hx : s.headD 0 = z := by
        cases s with
        | nil => cases e
        | cons c s =>
          unfold Spec.word at e
          rw [List.takeWhile_cons] at e
          split at e
          · exact (List.cons.inj e).1
          · cases e
      rw [e]
      rw [hx] at h'
      rcases h' with rfl | rfl <;> decide +kernel
  · rfl

theorem acceptInf_none {neg : Bool} {s : Bytes} (h : ¬ Spec.NumStart s) (h' : s.headD 0 = 105 ∨ s.headD 0 = 73) :
    acceptInf (R := R) neg s = none := by
  unfold acceptInf
  rw [takeWhile_word]
  split
  · rename_i x w e
    split
    · rename_i hw
      exfalso
      apply h
      right
      have hx : s.headD 0 = x := by
        cases s with
        | nil => cases e
        | cons c s =>
          unfold Spec.word at e
          rw [List.takeWhile_cons] at e
          split at e
          · cases e; rfl
          · cases e
      rw [e, hw]
      rw [hx] at h'
      rcases h' with rfl | rfl <;> decide +kernel
    · rfl
  · rfl

theorem acceptNumeric_none {prev : Option (Tok R)} {s : Bytes}
    (h : (sign s).1 ≠ [] ∧ mayInfixFollow prev = true ∨ ¬ Spec.NumStart (sign s).2) :
    acceptNumeric castD prev s = .ok none := by
  unfold acceptNumeric
  simp only
  split
  · rfl
  · rename_i h1
    have h : ¬ Spec.NumStart (sign s).2 := h.resolve_left h1
    split
    · rfl
    · rename_i c t e
      split
      · rename_i hc; rw [acceptNan_none h (by rw [e]; exact hc)]
      · split
        · rename_i hc; rw [acceptInf_none h (by rw [e]; exact hc)]
        · split
          · rename_i hd
            exact absurd (.inl ⟨c, t, e, (digit_iff c).1 hd⟩) h
          · rfl

theorem sign_none {s : Bytes} (h1 : s.headD 0 ≠ 43) (h2 : s.headD 0 ≠ 45) : sign s = ([], s) := by
  unfold sign
  split
  · exact absurd rfl h1
  · exact absurd rfl h2
  · rfl

/-! ### Tokens -/

theorem acceptString_none {head : UInt8} {s : Bytes} (h : s.headD 0 ≠ head) :
    (acceptString head s : Res (Option (Tok R × Bytes))) = .ok none := by
  cases s with
  | nil => rfl
  | cons c s => simp only [acceptString]; rw [if_pos (by simpa using h)]

theorem token_punct {prev : Option (Tok R)} {s : Bytes} {p : Punct} {rest : Bytes}
    (h1 : acceptNumeric castD prev s = .ok none) (h2 : acceptPunct s = some (p, rest)) :
    token castD prev s = .ok (some (.punct p, rest)) := by
  unfold token
  rw [h1]
  simp only [Res.bind, h2]

theorem token_name {prev : Option (Tok R)} {s : Bytes} {t : Tok R} {rest : Bytes}
    (h1 : acceptNumeric castD prev s = .ok none) (h2 : acceptPunct s = none) (h3 : s.headD 0 ≠ 34) (h4 : s.headD 0 ≠ 39)
    (h5 : acceptName s = some (t, rest)) : token castD prev s = .ok (some (t, rest)) := by
  unfold token
  rw [h1]
  simp only [Res.bind, h2, acceptString_none h3,
    acceptString_none h4, h5]

theorem punct_head (c : UInt8) (s : Bytes) (h : ∀ e ∈ puncts, e.1.headD 0 ≠ c) : acceptPunct (c :: s) = none := by
  apply acceptPunct_none
  intro q hq
  exact h _ (puncts_all q) (headD_prefix hq (text_ne q))

theorem letter_not_punct : ∀ c, Spec.letter c = true → ∀ e ∈ puncts, e.1.headD 0 ≠ c := by
  have : ∀ e ∈ puncts, Spec.letter (e.1.headD 0) = false := by decide +kernel
  intro c hc e he h
  rw [← h, this e he] at hc
  cases hc

theorem keywords_eq : keywords = Spec.keywords.map Spec.bytes := by decide +kernel

theorem keywords_name : ∀ k ∈ keywords, Spec.isName k = true := by decide +kernel

theorem isName_iff (w : Bytes) : Spec.isName w = true ↔ Spec.Name w := by
  constructor
  · intro h
    cases w with
    | nil => cases h
    | cons c t =>
      simp only [Spec.isName, Bool.and_eq_true, List.all_eq_true, Bool.or_eq_true] at h
      exact ⟨c, t, rfl, h.1, h.2⟩
  · rintro ⟨c, t, rfl, h1, h2⟩
    simp only [Spec.isName, Bool.and_eq_true, List.all_eq_true, Bool.or_eq_true]
    exact ⟨h1, h2⟩

/-- A word that is over where the rest starts. -/
theorem word_append {w rest : Bytes} (h : Spec.Name w) (hr : ∀ c t, rest = c :: t → Spec.letter c = false ∧ Spec.digit c = false) :
    Spec.word (w ++ rest) = w := by
  obtain ⟨c, t, rfl, h1, h2⟩ := h
  unfold Spec.word
  rw [List.takeWhile_append_of_pos]
  · cases rest with
    | nil => simp
    | cons d r =>
      obtain ⟨a, b⟩ := hr d r rfl
      rw [List.takeWhile_cons_of_neg (by simp [a, b])]; simp
  · intro x hx
    rcases List.mem_cons.1 hx with rfl | hx
    · simp [h1]
    · simpa using h2 x hx

theorem prefix_eq_of_word {k s : Bytes} (hl : k.length = (Spec.word s).length) (hp : k <+: s) : k = Spec.word s := by
  have h2 : Spec.word s <+: s := List.takeWhile_prefix _
  rw [List.prefix_iff_eq_take.1 hp, List.prefix_iff_eq_take.1 h2, hl]

theorem acceptName_eq {w rest : Bytes} (h : Spec.Name w)
    (hr : ∀ c t, rest = c :: t → Spec.letter c = false ∧ Spec.digit c = false) :
    acceptName (w ++ rest) = some (if w ∈ Spec.keywords.map Spec.bytes then (Tok.kw w : Tok R) else .ident w, rest) := by
  have hw := word_append h hr
  obtain ⟨c, t, e, h1, h2⟩ := h
  unfold acceptName
  rw [if_neg (by rw [e]; simp [cmask_namei, h1])]
  simp only [takeWhile_word, hw, List.drop_left, ← keywords_eq]
  split
  · rename_i k hk
    have hm := List.mem_of_find?_eq_some hk
    have hp := List.find?_some hk
    simp only [decide_eq_true_eq, List.isPrefixOf_iff_prefix] at hp
    have := prefix_eq_of_word (by rw [hw]; exact hp.1) hp.2
    rw [hw] at this
    subst this
    rw [if_pos (List.mem_filter.1 hm).1]
  · rename_i hk
    rw [List.find?_eq_none] at hk
    rw [if_neg]
    intro hm
    refine hk w ?_ (by simp)
    rw [List.mem_filter]
    refine ⟨hm, ?_⟩
    rw [e]; simp

/-! ### String literals -/

theorem hexNumber_append : ∀ (n : Nat) (h s : Bytes) (m : Nat), Spec.hexNumber n h = some m →
    hexDigits h.length n (h ++ s) = .ok (m, s) := by
  intro n h
  induction h generalizing n with
  | nil => intro s m e; simp only [Spec.hexNumber] at e; cases e; rfl
  | cons c h ih =>
    intro s m e
    simp only [Spec.hexNumber] at e
    cases hd : Spec.hexDigit c with
    | none => rw [hd] at e; cases e
    | some d =>
      rw [hd] at e
      simp only [List.length_cons, List.cons_append, hexDigits]
      rw [if_pos (by rw [cmask_xdigit, hd]; rfl), hexVal_eq c d hd, Nat.mul_comm]
      exact ih _ s m e

theorem hexDigits_some : ∀ (k n : Nat) (s : Bytes) (m : Nat) (rest : Bytes), hexDigits k n s = .ok (m, rest) →
    ∃ h, s = h ++ rest ∧ h.length = k ∧ Spec.hexNumber n h = some m := by
  intro k
  induction k with
  | zero => intro n s m rest h; simp only [hexDigits] at h; cases h; exact ⟨[], rfl, rfl, rfl⟩
  | succ k ih =>
    intro n s m rest h
    cases s with
    | nil => simp only [hexDigits] at h; cases h
    | cons c s =>
      simp only [hexDigits] at h
      rcases ite_or h with ⟨hc, h⟩ | ⟨_, h⟩
      · obtain ⟨x, e1, e2, e3⟩ := ih _ _ _ _ h
        rw [cmask_xdigit, Option.isSome_iff_exists] at hc
        obtain ⟨d, hd⟩ := hc
        rw [hexVal_eq c d hd] at e3
        refine ⟨c :: x, by rw [e1]; rfl, by simp [e2], ?_⟩
        simp only [Spec.hexNumber, hd, Option.bind_some]
        rw [Nat.mul_comm]; exact e3
      · cases h

/-- One escape sequence. -/
inductive Escape : Bytes → Bytes → Prop
  | simple {e c} : (e, c) ∈ Spec.simpleEscapes → Escape [e] [c]
  | byte {h n} : h.length = 2 → Spec.hexNumber 0 h = some n → Escape (0x78 :: h) [UInt8.ofNat n]
  | unicode {x h n b} : (x = 0x75 ∧ h.length = 4 ∨ x = 0x55 ∧ h.length = 6) → Spec.hexNumber 0 h = some n →
      Utf.utf8Encode n = some b → Escape (x :: h) b

theorem escape_eq {src v : Bytes} (h : Escape src v) (rest : Bytes) : escape (src ++ rest) = .ok (v, rest) := by
  cases h with
  | @simple e c h =>
    simp only [Spec.simpleEscapes, List.mem_cons, List.not_mem_nil, or_false, Prod.mk.injEq] at h
    rcases h with ⟨rfl, rfl⟩ | ⟨rfl, rfl⟩ | ⟨rfl, rfl⟩ | ⟨rfl, rfl⟩ | ⟨rfl, rfl⟩ | ⟨rfl, rfl⟩ | ⟨rfl, rfl⟩ | ⟨rfl, rfl⟩ |
      ⟨rfl, rfl⟩ | ⟨rfl, rfl⟩ | ⟨rfl, rfl⟩ | ⟨rfl, rfl⟩ | ⟨rfl, rfl⟩ | ⟨rfl, rfl⟩ | ⟨rfl, rfl⟩ <;> rfl
  | @byte h n hl hn =>
    have := hexNumber_append 0 h rest n hn
    rw [hl] at this
    show ((hexDigits 2 0 (h ++ rest)).map fun r => ([UInt8.ofNat r.1], r.2)) = _
    rw [this]; rfl
  | @unicode x h n b hx hn hb =>
    have := hexNumber_append 0 h rest n hn
    rcases hx with ⟨rfl, hl⟩ | ⟨rfl, hl⟩
    · rw [hl] at this
      show ((hexDigits 4 0 (h ++ rest)).bind fun r =>
        match Utf.utf8Encode r.1 with
        | some bs => .ok (bs, r.2)
        | none => .throw) = _
      rw [this]; simp only [Res.bind, hb]
    · rw [hl] at this
      show ((hexDigits 6 0 (h ++ rest)).bind fun r =>
        match Utf.utf8Encode r.1 with
        | some bs => .ok (bs, r.2)
        | none => .throw) = _
      rw [this]; simp only [Res.bind, hb]

theorem escape_some {s v rest : Bytes} (h : escape s = .ok (v, rest)) : ∃ src, s = src ++ rest ∧ Escape src v := by
  cases s with
  | nil => cases h
  | cons c s =>
    simp only [escape] at h
    rcases ite_or h with ⟨hc, h⟩ | ⟨_, h⟩
    · cases h
      exact ⟨[c], rfl, .simple (by rcases hc with rfl | rfl | rfl | rfl | rfl <;> decide)⟩
    iterate 10
      rcases ite_or h with ⟨hc, h⟩ | ⟨_, h⟩
      · cases h; subst hc; exact ⟨_, rfl, .simple (by decide)⟩
    rcases ite_or h with ⟨hc, h⟩ | ⟨_, h⟩
    · subst hc
      cases hx : hexDigits 2 0 s with
      | ok x =>
        rw [hx] at h; cases h
        obtain ⟨d, e1, e2, e3⟩ := hexDigits_some _ _ _ _ _ hx
        exact ⟨_ :: d, by rw [e1]; rfl, .byte e2 e3⟩
      | throw => rw [hx] at h; cases h
      | ub => rw [hx] at h; cases h
    rcases ite_or h with ⟨hc, h⟩ | ⟨_, h⟩
    · cases hx : hexDigits (if c = 117 then 4 else 6) 0 s with
      | ok x =>
        rw [hx] at h
        simp only [Res.bind] at h
        obtain ⟨d, e1, e2, e3⟩ := hexDigits_some _ _ _ _ _ hx
        split at h
        · rename_i bs hb
          cases h
          refine ⟨c :: d, by rw [e1]; rfl, .unicode ?_ e3 hb⟩
          rcases hc with rfl | rfl
          · exact .inl ⟨rfl, e2⟩
          · exact .inr ⟨rfl, e2⟩
        · cases h
      | throw => rw [hx] at h; cases h
      | ub => rw [hx] at h; cases h
    · cases h

theorem Quoted.escape {src v s w : Bytes} (h : Escape src v) (h' : Spec.Quoted s w) :
    Spec.Quoted (0x5C :: (src ++ s)) (v ++ w) := by
  cases h with
  | simple h => exact .simple h h'
  | byte h1 h2 => exact .byte h1 h2 h'
  | unicode h1 h2 h3 => exact .unicode h1 h2 h3 h'

/-- Induction over escape sequences as a whole. -/
theorem Quoted.split {s w : Bytes} (h : Spec.Quoted s w) : (s = [] ∧ w = []) ∨
    (∃ c s' w', s = c :: s' ∧ w = c :: w' ∧ c ≠ 0 ∧ c ≠ 0x22 ∧ c ≠ 0x5C ∧ Spec.Quoted s' w') ∨
    (∃ src v s' w', s = 0x5C :: (src ++ s') ∧ w = v ++ w' ∧ Escape src v ∧ Spec.Quoted s' w') := by
  cases h with
  | nil => exact .inl ⟨rfl, rfl⟩
  | plain h1 h2 h3 h => exact .inr (.inl ⟨_, _, _, rfl, rfl, h1, h2, h3, h⟩)
  | simple h1 h => exact .inr (.inr ⟨_, _, _, _, rfl, rfl, .simple h1, h⟩)
  | byte h1 h2 h => exact .inr (.inr ⟨_, _, _, _, rfl, rfl, .byte h1 h2, h⟩)
  | unicode h1 h2 h3 h => exact .inr (.inr ⟨_, _, _, _, rfl, rfl, .unicode h1 h2 h3, h⟩)

theorem strLoop_quoted : ∀ (n : Nat) (s : Bytes) (w val rest : Bytes), Spec.Quoted s w → s.length < n →
    strLoop 34 n val (s ++ 34 :: rest) = .ok (val ++ w, rest) := by
  intro n
  induction n with
  | zero => intro s w val rest _ h; omega
  | succ n ih =>
    intro s w val rest h hn
    rcases Quoted.split h with ⟨rfl, rfl⟩ | ⟨c, s', w', rfl, rfl, h0, h1, h2, h'⟩ | ⟨src, v, s', w', rfl, rfl, he, h'⟩
    · simp only [List.nil_append, strLoop]
      rw [if_neg (by decide)]; simp
    · simp only [List.cons_append, strLoop]
      rw [if_neg h0, if_neg h1, if_pos (.inr h2), ih s' w' _ rest h' (by simpa using hn)]
      simp
    · simp only [List.cons_append, strLoop]
      rw [if_neg (by decide), if_neg (by decide), if_neg (by decide), List.append_assoc, escape_eq he]
      simp only [Res.bind]
      rw [ih s' w' _ rest h' (by simp at hn; omega)]
      simp

theorem strLoop_quoted_some : ∀ (n : Nat) (s val v rest : Bytes), strLoop 34 n val s = .ok (v, rest) →
    ∃ src w, s = src ++ 34 :: rest ∧ v = val ++ w ∧ Spec.Quoted src w := by
  intro n
  induction n with
  | zero => intro s val v rest h; cases h
  | succ n ih =>
    intro s val v rest h
    cases s with
    | nil => cases h
    | cons c s =>
      simp only [strLoop] at h
      rcases ite_or h with ⟨_, h⟩ | ⟨h0, h⟩
      · cases h
      rcases ite_or h with ⟨hc, h⟩ | ⟨h1, h⟩
      · cases h; subst hc; exact ⟨[], [], rfl, by simp, .nil⟩
      rcases ite_or h with ⟨hc, h⟩ | ⟨h2, h⟩
      · obtain ⟨src, w, e1, e2, e3⟩ := ih _ _ _ _ h
        refine ⟨c :: src, c :: w, by rw [e1]; rfl, by rw [e2]; simp, .plain h0 h1 (hc.resolve_left (by decide)) e3⟩
      · have hc : c = 92 := by
          rw [not_or, not_not, not_not] at h2; exact h2.2
        subst hc
        cases hx : escape s with
        | throw => rw [hx] at h; cases h
        | ub => rw [hx] at h; cases h
        | ok x =>
          rw [hx] at h
          obtain ⟨e, he1, he2⟩ := escape_some (v := x.1) (rest := x.2) hx
          obtain ⟨src, w, e1, e2, e3⟩ := ih _ _ _ _ h
          refine ⟨92 :: (e ++ src), x.1 ++ w, ?_, ?_, Quoted.escape he2 e3⟩
          · rw [he1, e1]; simp
          · rw [e2]; simp

theorem strLoop_raw : ∀ (n : Nat) (s val rest : Bytes), (∀ c ∈ s, c ≠ 0 ∧ c ≠ 39) → s.length < n →
    strLoop 39 n val (s ++ 39 :: rest) = .ok (val ++ s, rest) := by
  intro n
  induction n with
  | zero => intro s val rest _ h; omega
  | succ n ih =>
    intro s val rest h hn
    cases s with
    | nil =>
      simp only [List.nil_append, strLoop]
      rw [if_neg (by decide)]; simp
    | cons c s =>
      obtain ⟨h0, h1⟩ := h c (List.mem_cons_self ..)
      simp only [List.cons_append, strLoop]
      rw [if_neg h0, if_neg h1, if_pos (.inl (by decide)),
        ih s _ rest (fun x hx => h x (List.mem_cons_of_mem _ hx)) (by simpa using hn)]
      simp

theorem strLoop_raw_some : ∀ (n : Nat) (s val v rest : Bytes), strLoop 39 n val s = .ok (v, rest) →
    ∃ src, s = src ++ 39 :: rest ∧ v = val ++ src ∧ ∀ c ∈ src, c ≠ 0 ∧ c ≠ 39 := by
  intro n
  induction n with
  | zero => intro s val v rest h; cases h
  | succ n ih =>
    intro s val v rest h
    cases s with
    | nil => cases h
    | cons c s =>
      simp only [strLoop] at h
      rcases ite_or h with ⟨_, h⟩ | ⟨h0, h⟩
      · cases h
      rcases ite_or h with ⟨hc, h⟩ | ⟨h1, h⟩
      · cases h; subst hc; exact ⟨[], rfl, by simp, by simp⟩
      rcases ite_or h with ⟨hc, h⟩ | ⟨h2, h⟩
      · obtain ⟨src, e1, e2, e3⟩ := ih _ _ _ _ h
        refine ⟨c :: src, by rw [e1]; rfl, by rw [e2]; simp, ?_⟩
        intro x hx
        rcases List.mem_cons.1 hx with rfl | hx
        · exact ⟨h0, h1⟩
        · exact e3 x hx
      · exact absurd (.inl (by decide)) h2

theorem not_sign_quote (c : UInt8) (s : Bytes) (h : c = 34 ∨ c = 39) (prev : Option (Tok R)) :
    acceptNumeric castD prev (c :: s) = .ok none ∧ acceptPunct (c :: s) = none := by
  have hs : sign (c :: s) = ([], c :: s) := sign_none (by rcases h with rfl | rfl <;> simp) (by rcases h with rfl | rfl <;> simp)
  have hl : Spec.letter c = false ∧ Spec.digit c = false := by rcases h with rfl | rfl <;> decide
  constructor
  · apply acceptNumeric_none
    right
    rw [hs]
    rintro (⟨d, t, e, hd⟩ | hw)
    · cases e; rw [hl.2] at hd; cases hd
    · have : Spec.word (c :: s) = [] := by unfold Spec.word; rw [List.takeWhile_cons_of_neg (by simp [hl.1, hl.2])]
      rw [this] at hw
      revert hw
      decide +kernel
  · apply punct_head
    have : ∀ e ∈ puncts, e.1.headD 0 ≠ 34 ∧ e.1.headD 0 ≠ 39 := by decide +kernel
    intro e he
    rcases h with rfl | rfl
    · exact (this e he).1
    · exact (this e he).2

theorem token_dquote {prev : Option (Tok R)} {s rest v : Bytes} (h : strLoop 34 (s.length + 1) [] s = .ok (v, rest)) :
    token castD prev (34 :: s) = .ok (some (.str v, rest)) := by
  obtain ⟨h1, h2⟩ := not_sign_quote (castD := castD) 34 s (.inl rfl) prev
  unfold token
  rw [h1]
  simp only [Res.bind, h2, acceptString]
  rw [if_neg (by decide), h]
  rfl

theorem token_squote {prev : Option (Tok R)} {s rest v : Bytes} (h : strLoop 39 (s.length + 1) [] s = .ok (v, rest)) :
    token castD prev (39 :: s) = .ok (some (.str v, rest)) := by
  obtain ⟨h1, h2⟩ := not_sign_quote (castD := castD) 39 s (.inr rfl) prev
  unfold token
  rw [h1]
  simp only [Res.bind, h2, acceptString]
  rw [if_pos (by decide), if_neg (by decide), h]
  rfl

end Asteria.Lexer
