import Verif.Proof.Lexer
import Verif.Proof.NumText
import Mathlib.Data.List.TakeWhile

/-!
# Lemmas about the main loop of the lexer
-/

namespace Asteria.Lexer

open Utf (WellFormed)
open NumText (NumGet castI)

variable {R : Type} {castD : NumGet → Option R}

/-- The rest of a line, as `reload` processes it. -/
def lexFrom (castD : NumGet → Option R) (bcomm : Bool) (toks : List (Tok R)) (s : Bytes) : Res (Bool × List (Tok R)) :=
  loop castD s.length bcomm toks s

theorem closeAt_some {s : Bytes} {k : Nat} (h : closeAt s = some k) :
    ∃ pre t, s = pre ++ 42 :: 47 :: t ∧ k = pre.length + 2 ∧ ∀ c ∈ pre, c ≠ 42 := by
  unfold closeAt at h
  split at h
  · rename_i t e
    refine ⟨s.takeWhile (· ≠ 42), t, ?_, (Option.some.inj h).symm, ?_⟩
    · rw [← e, List.takeWhile_append_dropWhile]
    · intro c hc
      simpa using List.all_eq_true.1 (List.all_takeWhile (l := s) (p := (· ≠ 42))) c hc
  · cases h

theorem bind_congr {α β : Type} {x : Res α} {f g : α → Res β} (h : ∀ a, x = .ok a → f a = g a) :
    x.bind f = x.bind g := by
  cases x with
  | ok a => exact h a rfl
  | throw => rfl
  | ub => rfl

theorem loop_nil (n : Nat) (b : Bool) (toks : List (Tok R)) : loop castD n b toks [] = .ok (b, toks) := by
  cases n <;> simp [loop]

theorem loop_fuel : ∀ n m b toks s, s.length ≤ n → s.length ≤ m → loop castD n b toks s = loop castD m b toks s := by
  intro n
  induction n with
  | zero =>
    intro m b toks s h _
    cases List.eq_nil_of_length_eq_zero (Nat.le_zero.1 h)
    rw [loop_nil, loop_nil]
  | succ n ih =>
    intro m b toks s hn hm
    by_cases h0 : s = []
    · subst h0; rw [loop_nil, loop_nil]
    have hpos : 0 < s.length := List.length_pos_iff.2 h0
    obtain ⟨m, rfl⟩ : ∃ m', m = m' + 1 := ⟨m - 1, by omega⟩
    have key : ∀ k b toks s', 0 < k → consume k s = .ok s' → loop castD n b toks s' = loop castD m b toks s' := by
      intro k b toks s' hk hc
      obtain ⟨e, hl⟩ := consume_ok hc
      have : s'.length = s.length - k := by rw [e, List.length_drop]
      exact ih m b toks s' (by omega) (by omega)
    simp only [loop]
    rw [if_neg h0, if_neg h0]
    cases b with
    | true =>
      simp only [if_true]
      cases hc : closeAt s with
      | none => rfl
      | some k =>
        obtain ⟨pre, t, _, hk, _⟩ := closeAt_some hc
        exact bind_congr fun s' hs' => key k _ _ s' (by omega) hs'
    | false =>
      simp only [Bool.false_eq_true, if_false]
      by_cases h1 : isCmask 0x01 (s.headD 0) = true
      · rw [if_pos h1, if_pos h1]
        exact bind_congr fun s' hs' => key 1 _ _ s' (by omega) hs'
      · rw [if_neg h1, if_neg h1]
        by_cases h2 : [47, 47].isPrefixOf s = true
        · rw [if_pos h2, if_pos h2]
        · rw [if_neg h2, if_neg h2]
          by_cases h3 : [47, 42].isPrefixOf s = true
          · rw [if_pos h3, if_pos h3]
            exact bind_congr fun s' hs' => key 2 _ _ s' (by omega) hs'
          · rw [if_neg h3, if_neg h3]
            refine bind_congr fun o ho => ?_
            cases o with
            | none => rfl
            | some r =>
              have := (token_ends ho).length
              exact bind_congr fun s' hs' => key _ _ _ s' (by omega) hs'

theorem loop_lex (n : Nat) (b : Bool) (toks : List (Tok R)) (s : Bytes) (h : s.length ≤ n) :
    loop castD n b toks s = lexFrom castD b toks s := loop_fuel n _ b toks s h (le_refl _)

theorem lexFrom_nil (b : Bool) (toks : List (Tok R)) : lexFrom castD b toks [] = .ok (b, toks) := loop_nil _ _ _

theorem lexFrom_succ (b : Bool) (toks : List (Tok R)) (s : Bytes) :
    lexFrom castD b toks s = loop castD (s.length + 1) b toks s := (loop_lex _ _ _ _ (by omega)).symm

theorem lexFrom_space (toks : List (Tok R)) (c : UInt8) (s : Bytes) (h : isCmask 0x01 c = true) :
    lexFrom castD false toks (c :: s) = lexFrom castD false toks s := by
  rw [lexFrom_succ]
  simp only [loop]
  rw [if_neg (by simp), if_neg (by simp), if_pos (by simpa using h)]
  have : consume 1 (c :: s) = .ok s := consume_wf (pre := [c]) (wf_ascii (by simpa using cmask_ascii _ _ h)) s
  rw [this]
  exact loop_lex _ _ _ _ (by simp)

theorem lexFrom_token {toks : List (Tok R)} {t : Tok R} {pre rest : Bytes} (hp : WellFormed pre)
    (hs : isCmask 0x01 ((pre ++ rest).headD 0) = false) (h1 : ¬ [47, 47] <+: pre ++ rest) (h2 : ¬ [47, 42] <+: pre ++ rest)
    (ht : token castD toks.head? (pre ++ rest) = .ok (some (t, rest))) :
    lexFrom castD false toks (pre ++ rest) = lexFrom castD false (t :: toks) rest := by
  have hl := (token_ends ht).length
  rw [lexFrom_succ]
  simp only [loop]
  rw [if_neg (by rintro e; rw [e] at hl; simp at hl), if_neg (by simp), if_neg (by rw [hs]; simp),
    if_neg (by rwa [List.isPrefixOf_iff_prefix]), if_neg (by rwa [List.isPrefixOf_iff_prefix]), ht]
  simp only [Res.bind]
  have e : (pre ++ rest).length - rest.length = pre.length := by rw [List.length_append]; omega
  rw [e, consume_wf hp]
  exact loop_lex _ _ _ _ (by rw [List.length_append]; omega)

theorem cmask_47 : isCmask 0x01 47 = false := by decide +kernel

theorem lexFrom_open (toks : List (Tok R)) (s : Bytes) :
    lexFrom castD false toks (47 :: 42 :: s) = lexFrom castD true toks s := by
  rw [lexFrom_succ]
  simp only [loop]
  rw [if_neg (by simp), if_neg (by simp), if_neg (by simp [cmask_47]), if_neg (by simp [List.isPrefixOf]), if_pos (by simp [List.isPrefixOf])]
  have : consume 2 (47 :: 42 :: s) = .ok s := consume_wf (pre := [47, 42]) (wf_ascii (by intro c hc; simp only [List.mem_cons, List.not_mem_nil, or_false] at hc; rcases hc with rfl | rfl <;> decide)) s
  rw [this]
  exact loop_lex _ _ _ _ (by simp; omega)

theorem lexFrom_lineComment (toks : List (Tok R)) (s : Bytes) :
    lexFrom castD false toks (47 :: 47 :: s) = .ok (false, toks) := by
  rw [lexFrom_succ]
  simp only [loop]
  rw [if_neg (by simp), if_neg (by simp), if_neg (by simp [cmask_47]), if_pos (by simp [List.isPrefixOf])]

theorem closeAt_eq (pre s : Bytes) (h : ∀ c ∈ pre, c ≠ 42) : closeAt (pre ++ 42 :: 47 :: s) = some (pre.length + 2) := by
  have h1 : (pre ++ 42 :: 47 :: s).dropWhile (· ≠ 42) = 42 :: 47 :: s := by
    rw [List.dropWhile_append_of_pos (by simpa using h)]; simp
  have h2 : (pre ++ 42 :: 47 :: s).takeWhile (· ≠ 42) = pre := by
    rw [List.takeWhile_append_of_pos (by simpa using h)]; simp
  unfold closeAt
  rw [h1, h2]
  rfl

theorem closeAt_none (s : Bytes) (h : ∀ c ∈ s, c ≠ 42) : closeAt s = none := by
  have h1 : s.dropWhile (· ≠ 42) = [] := by
    rw [List.dropWhile_eq_nil_iff]; simpa using h
  unfold closeAt
  rw [h1]

theorem lexFrom_close (toks : List (Tok R)) (pre s : Bytes) (h : ∀ c ∈ pre, c ≠ 42) (hw : WellFormed pre) :
    lexFrom castD true toks (pre ++ 42 :: 47 :: s) = lexFrom castD false toks s := by
  rw [lexFrom_succ]
  simp only [loop]
  rw [if_neg (by simp), if_pos trivial, closeAt_eq pre s h]
  simp only
  have : consume (pre.length + 2) (pre ++ 42 :: 47 :: s) = .ok s := by
    have := consume_wf (wf_append hw (wf_ascii (s := [42, 47]) (by intro c hc; simp only [List.mem_cons, List.not_mem_nil, or_false] at hc; rcases hc with rfl | rfl <;> decide))) s
    simpa using this
  rw [this]
  exact loop_lex _ _ _ _ (by simp; omega)

theorem lexFrom_inside (toks : List (Tok R)) (s : Bytes) (h : ∀ c ∈ s, c ≠ 42) :
    lexFrom castD true toks s = .ok (true, toks) := by
  rw [lexFrom_succ]
  simp only [loop]
  by_cases h0 : s = []
  · rw [if_pos h0]
  · rw [if_neg h0, if_pos trivial, closeAt_none s h]

/-! ### No undefined behaviour -/

theorem raise_pos (base : Nat) (hb : 1 ≤ base) : ∀ e bits, 0 < bits → (NumText.raise base e bits).2 = false →
    0 < (NumText.raise base e bits).1 ∧ ((NumText.raise base e bits).1 = bits ∨ (NumText.raise base e bits).1 < 2 ^ 64) := by
  intro e
  induction e with
  | zero => intro bits h _; exact ⟨h, .inl rfl⟩
  | succ e ih =>
    intro bits h h2
    unfold NumText.raise at h2 ⊢
    by_cases h1 : bits * base ≥ 2 ^ 64
    · rw [if_pos h1] at h2; cases h2
    · rw [if_neg h1] at h2 ⊢
      by_cases h3 : e = 0
      · rw [if_pos h3] at h2 ⊢
        exact ⟨Nat.mul_pos h (by omega), .inr (by omega)⟩
      · rw [if_neg h3] at h2 ⊢
        obtain ⟨p, q⟩ := ih _ (Nat.mul_pos h (by omega)) h2
        exact ⟨p, .inr (by rcases q with q | q <;> omega)⟩

theorem castI_no_ub (g : NumGet) (hb : g.special = true ∨ 1 ≤ g.base) : castI g ≠ .ub := by
  unfold castI
  by_cases h1 : g.special = true
  · rw [if_pos h1]; simp
  rw [if_neg h1]
  have hb : 1 ≤ g.base := hb.resolve_left h1
  by_cases h2 : g.mant = 0
  · rw [if_pos h2]; simp
  rw [if_neg h2]
  by_cases h3 : g.exp < -10000
  · rw [if_pos h3]; simp
  rw [if_neg h3]
  by_cases h4 : g.exp > 10000
  · rw [if_pos h4]; simp
  rw [if_neg h4]
  simp only
  generalize hr : (if g.exp > 0 then NumText.raise g.base g.exp.toNat g.mant else (g.mant, false)) = r
  by_cases h5 : r.2 = true
  · rw [if_pos h5]; simp
  rw [if_neg h5]
  generalize hl : (if g.exp < 0 then NumText.lower g.base (-g.exp).toNat g.mant g.more else (r.1, g.more)) = l
  by_cases h6 : g.exp < 0 ∧ l.1 = 0
  · rw [if_pos h6]; simp
  rw [if_neg h6]
  have hpos : 0 < l.1 := by
    by_cases h7 : g.exp < 0
    · have : l.1 ≠ 0 := fun h => h6 ⟨h7, h⟩
      omega
    · rw [if_neg h7] at hl
      rw [← hl]
      simp only
      by_cases h8 : g.exp > 0
      · rw [if_pos h8] at hr
        rw [← hr] at h5 ⊢
        exact (raise_pos g.base hb _ _ (by omega) (by simpa using h5)).1
      · rw [if_neg h8] at hr
        rw [← hr]; simp only; omega
  generalize l.1 = n at *
  cases hs : g.sign with
  | true =>
    simp only [if_true]
    by_cases h9 : n > (0x8000000000000000#64).toNat
    · rw [if_pos h9]; simp
    · rw [if_neg h9, NumText.toInt_neg n (by simpa using h9), if_neg (by omega)]; simp
  | false =>
    simp only [Bool.false_eq_true, if_false]
    by_cases h9 : n > (0x7FFFFFFFFFFFFFFF#64).toNat
    · rw [if_pos h9]; simp
    · rw [if_neg h9, NumText.toInt_pos n (by simp at h9; omega), if_neg (by omega)]; simp

theorem parseBase_base {b : Nat} {s : Bytes} {r} (h : NumText.parseBase b s = some r) :
    r.1.special = true ∨ 1 ≤ r.1.base := by
  unfold NumText.parseBase at h
  simp only at h
  split at h
  · cases h; exact .inl rfl
  · rcases ite_or h with ⟨_, h⟩ | ⟨_, h⟩
    · cases h; right; simp only; split <;> omega
    · cases h

theorem parseD_base {s : Bytes} {r} (h : NumText.parseD s = some r) : r.1.special = true ∨ 1 ≤ r.1.base := by
  unfold NumText.parseD at h
  split at h
  · exact parseBase_base h
  · split at h
    · split at h
      · split at h <;> exact parseBase_base h
      · exact parseBase_base h
    · exact parseBase_base h

theorem convert_no_ub (p : Bool) (t : Bytes) : convert castD p t ≠ .ub := by
  unfold convert
  split
  · rename_i g h
    have hb := parseD_base h
    split
    · split <;> simp
    · have := castI_no_ub g hb
      cases hc : castI g with
      | ub => exact absurd hc this
      | throw => simp
      | ok r => simp only [Res.bind]; split <;> simp
  · simp

theorem hexDigits_no_ub : ∀ n cp s, hexDigits n cp s ≠ .ub := by
  intro n
  induction n with
  | zero => intro cp s; simp [hexDigits]
  | succ n ih =>
    intro cp s
    cases s with
    | nil => simp [hexDigits]
    | cons c s =>
      simp only [hexDigits]
      split
      · exact ih _ _
      · simp

theorem escape_no_ub (s : Bytes) : escape s ≠ .ub := by
  intro h
  cases s with
  | nil => cases h
  | cons c s =>
    simp only [escape] at h
    iterate 11
      rcases ite_or h with ⟨_, h⟩ | ⟨_, h⟩
      · cases h
    rcases ite_or h with ⟨_, h⟩ | ⟨_, h⟩
    · cases hx : hexDigits 2 0 s with
      | ok x => rw [hx] at h; cases h
      | throw => rw [hx] at h; cases h
      | ub => exact hexDigits_no_ub _ _ _ hx
    rcases ite_or h with ⟨_, h⟩ | ⟨_, h⟩
    · cases hx : hexDigits (if c = 117 then 4 else 6) 0 s with
      | ok x =>
        rw [hx] at h
        simp only [Res.bind] at h
        split at h <;> cases h
      | throw => rw [hx] at h; cases h
      | ub => exact hexDigits_no_ub _ _ _ hx
    · cases h

theorem strLoop_no_ub (head : UInt8) : ∀ n val s, strLoop head n val s ≠ .ub := by
  intro n
  induction n with
  | zero => intro val s; simp [strLoop]
  | succ n ih =>
    intro val s
    cases s with
    | nil => simp [strLoop]
    | cons c s =>
      simp only [strLoop]
      split
      · simp
      · split
        · simp
        · split
          · exact ih _ _
          · have := escape_no_ub s
            cases hx : escape s with
            | ok x => exact ih _ _
            | throw => simp
            | ub => exact absurd hx this

theorem acceptString_no_ub (head : UInt8) (s : Bytes) : (acceptString head s : Res (Option (Tok R × Bytes))) ≠ .ub := by
  cases s with
  | nil => simp [acceptString]
  | cons c s =>
    simp only [acceptString]
    split
    · simp
    · have := strLoop_no_ub head (s.length + 1) [] s
      cases hx : strLoop head (s.length + 1) [] s with
      | ok x => simp
      | throw => simp
      | ub => exact absurd hx this

theorem acceptNumeric_no_ub (prev : Option (Tok R)) (s : Bytes) : acceptNumeric castD prev s ≠ .ub := by
  unfold acceptNumeric
  simp only
  split
  · simp
  · split
    · simp
    · split
      · simp
      · split
        · simp
        · split
          · have := convert_no_ub (castD := castD) (numericText (sign s).2).2.1 ((sign s).1 ++ (numericText (sign s).2).1)
            cases hx : convert castD (numericText (sign s).2).2.1 ((sign s).1 ++ (numericText (sign s).2).1) with
            | ok x => simp
            | throw => simp
            | ub => exact absurd hx this
          · simp

theorem token_no_ub (prev : Option (Tok R)) (s : Bytes) : token castD prev s ≠ .ub := by
  unfold token
  have h1 := acceptNumeric_no_ub (castD := castD) prev s
  cases e1 : acceptNumeric castD prev s with
  | ub => exact absurd e1 h1
  | throw => simp
  | ok o =>
    cases o with
    | some x => simp
    | none =>
      simp only [Res.bind]
      split
      · simp
      · have h2 := acceptString_no_ub (R := R) 34 s
        cases e2 : (acceptString 34 s : Res (Option (Tok R × Bytes))) with
        | ub => exact absurd e2 h2
        | throw => simp
        | ok o =>
          cases o with
          | some x => simp
          | none =>
            simp only
            have h3 := acceptString_no_ub (R := R) 39 s
            cases e3 : (acceptString 39 s : Res (Option (Tok R × Bytes))) with
            | ub => exact absurd e3 h3
            | throw => simp
            | ok o => cases o <;> simp

theorem consume_ends {s rest : Bytes} (h : Ends s rest) (hw : WellFormed s) :
    consume (s.length - rest.length) s = .ok rest ∧ WellFormed rest := by
  obtain ⟨pre, a, rfl, ha⟩ := h
  obtain ⟨h1, h2⟩ := wf_split hw pre a rest rfl ha
  have := consume_wf h1 rest
  refine ⟨?_, h2⟩
  have e : (pre ++ a :: rest).length - rest.length = (pre ++ [a]).length := by simp; omega
  rw [e]
  simpa using this

theorem bind_no_ub {α β : Type} {x : Res α} {f : α → Res β} (h1 : x ≠ .ub) (h2 : ∀ a, x = .ok a → f a ≠ .ub) :
    x.bind f ≠ .ub := by
  cases x with
  | ok a => exact h2 a rfl
  | throw => simp
  | ub => exact absurd rfl h1

theorem loop_no_ub : ∀ n b (toks : List (Tok R)) s, s.length ≤ n → WellFormed s → loop castD n b toks s ≠ .ub := by
  intro n
  induction n with
  | zero =>
    intro b toks s h _
    cases List.eq_nil_of_length_eq_zero (Nat.le_zero.1 h)
    rw [loop_nil]; simp
  | succ n ih =>
    intro b toks s hn hw
    by_cases h0 : s = []
    · subst h0; rw [loop_nil]; simp
    have key : ∀ rest b toks, Ends s rest →
        (consume (s.length - rest.length) s).bind (fun s' => loop castD n b toks s') ≠ .ub := by
      intro rest b toks he
      obtain ⟨e1, e2⟩ := consume_ends he hw
      rw [e1]
      have := he.length
      exact ih b toks rest (by omega) e2
    obtain ⟨c, s', rfl⟩ := List.exists_cons_of_ne_nil h0
    simp only [loop]
    rw [if_neg h0]
    cases b with
    | true =>
      simp only [if_true]
      cases hc : closeAt (c :: s') with
      | none => simp
      | some k =>
        obtain ⟨pre, t, e, hk, _⟩ := closeAt_some hc
        have := key t false toks ⟨pre ++ [42], 47, by rw [e]; simp, by decide⟩
        have e2 : (c :: s').length - t.length = k := by rw [e, hk]; simp; omega
        rw [e2] at this
        exact this
    | false =>
      simp only [Bool.false_eq_true, if_false]
      by_cases h1 : isCmask 0x01 ((c :: s').headD 0) = true
      · rw [if_pos h1]
        have := key s' false toks ⟨[], c, rfl, cmask_ascii _ _ h1⟩
        have e2 : (c :: s').length - s'.length = 1 := by simp
        rw [e2] at this
        exact this
      · rw [if_neg h1]
        by_cases h2 : [47, 47].isPrefixOf (c :: s') = true
        · rw [if_pos h2]; simp
        · rw [if_neg h2]
          by_cases h3 : [47, 42].isPrefixOf (c :: s') = true
          · rw [if_pos h3]
            obtain ⟨t, ht⟩ := List.isPrefixOf_iff_prefix.1 h3
            have := key t true toks ⟨[47], 42, by rw [← ht]; rfl, by decide⟩
            have e2 : (c :: s').length - t.length = 2 := by rw [← ht]; simp; omega
            rw [e2] at this
            exact this
          · rw [if_neg h3]
            refine bind_no_ub (token_no_ub _ _) fun o ho => ?_
            cases o with
            | none => simp
            | some r => exact key r.2 false (r.1 :: toks) (token_ends ho)

end Asteria.Lexer
