import Verif.Proof.ParserComplete
/-
C64: expressions are parsed as the documented grammar says.
-/
namespace Asteria.Parser
open Asteria.Grammar

/-- **C64 (nothing else is accepted).** Whatever the parser accepts as an expression is an expression of the documented
grammar, the units produced are the ones the grammar assigns to it, and the parser stops only where nothing more can
be taken. -/
theorem C64_sound (n : Nat) (ts : List Tok) (us : List EUnit) (rest : List Tok) (h : expr n ts = .yes us rest) :
    ∃ a, ts = a ++ rest ∧ Phrase (.level 11) a us ∧ Stops rest :=
  (sound n).expr ts us rest h

/-- **C64 (everything is accepted).** Every expression of the documented grammar, followed by tokens which do not continue
it, is accepted in full and gives the units the grammar assigns to it. -/
theorem C64_complete (a : List Tok) (us : List EUnit) (rest : List Tok) (h : Phrase (.level 11) a us) (hr : Stops rest) :
    ∃ N, ∀ n, N ≤ n → expr n (a ++ rest) = .yes us rest :=
  good_expr (good h) rest ((stops_iff rest).mp hr).1 ((stops_iff rest).mp hr).2

/-- **C64.** The parser decides exactly the documented grammar. -/
theorem C64_parser (ts : List Tok) (us : List EUnit) (rest : List Tok) :
    (∃ n, expr n ts = .yes us rest) ↔ ∃ a, ts = a ++ rest ∧ Phrase (.level 11) a us ∧ Stops rest := by
  constructor
  · rintro ⟨n, h⟩; exact C64_sound n ts us rest h
  · rintro ⟨a, rfl, h, hr⟩
    obtain ⟨N, hN⟩ := C64_complete a us rest h hr
    exact ⟨N, hN N (Nat.le_refl N)⟩

/-- **C64 (one reading).** The grammar gives an expression one reading only. -/
theorem C64_unambiguous (a : List Tok) (us vs : List EUnit) (h : Phrase (.level 11) a us) (h' : Phrase (.level 11) a vs) :
    us = vs := by
  have hr : Stops [] := fun t ts e => by cases e
  obtain ⟨N, hN⟩ := C64_complete a us [] h hr
  obtain ⟨M, hM⟩ := C64_complete a vs [] h' hr
  have h1 := hN (max N M) (Nat.le_max_left _ _)
  rw [hM (max N M) (Nat.le_max_right _ _)] at h1
  cases h1
  rfl

/-- **C64 (left-to-right).** `a op b op' c` with operators of one level groups as `(a op b) op' c`. -/
theorem C64_left (p : Nat) (t t' : Tok) (f f' : List EUnit → List EUnit → List EUnit) (x y z : List Tok)
    (a b c : List EUnit) (h : Binary p t f) (h' : Binary p t' f') (hx : Phrase .unary x a) (hy : Phrase .unary y b)
    (hz : Phrase .unary z c) : ∃ N, ∀ n, N ≤ n → expr n (x ++ t :: (y ++ t' :: z)) = .yes (f' (f a b) c) [] := by
  obtain ⟨e, _, _, _, _, h10, h1, _⟩ := binary_infixOne h
  obtain ⟨q, rfl⟩ : ∃ q, p = q + 1 := ⟨p - 1, by omega⟩
  have lv : ∀ {u us r}, Phrase .unary u us → r ≤ 11 → Phrase (.level r) u us := fun hu hr =>
    level_le (.operand hu) (Nat.zero_le _) hr
  have := Phrase.binary h' (.binary h (lv hx (by omega)) (lv hy (by omega))) (lv hz (by omega))
  have e1 : x ++ t :: (y ++ t' :: z) = (x ++ t :: y ++ t' :: z) ++ [] := by simp
  rw [e1]
  exact C64_complete _ _ [] (level_le this (by omega) (Nat.le_refl _)) (fun t ts e => by cases e)

/-- **C64 (tighter first).** `a op b op' c` groups as `a op (b op' c)` when `op'` is tighter. -/
theorem C64_tighter (p q : Nat) (t t' : Tok) (f f' : List EUnit → List EUnit → List EUnit) (x y z : List Tok)
    (a b c : List EUnit) (h : Binary p t f) (h' : Binary q t' f') (hpq : q < p) (hx : Phrase .unary x a)
    (hy : Phrase .unary y b) (hz : Phrase .unary z c) :
    ∃ N, ∀ n, N ≤ n → expr n (x ++ t :: (y ++ t' :: z)) = .yes (f a (f' b c)) [] := by
  obtain ⟨e, _, _, _, _, h10, h1, _⟩ := binary_infixOne h
  obtain ⟨e', _, _, _, _, h10', h1', _⟩ := binary_infixOne h'
  obtain ⟨p, rfl⟩ : ∃ r, p = r + 1 := ⟨p - 1, by omega⟩
  obtain ⟨q, rfl⟩ : ∃ r, q = r + 1 := ⟨q - 1, by omega⟩
  have lv : ∀ {u us r}, Phrase .unary u us → r ≤ 11 → Phrase (.level r) u us := fun hu hr =>
    level_le (.operand hu) (Nat.zero_le _) hr
  have h2 := Phrase.binary h' (lv hy (by omega)) (lv hz (by omega))
  have := Phrase.binary h (lv hx (by omega)) (level_le h2 (by omega) (by omega))
  have := C64_complete _ _ [] (level_le this (by omega) (Nat.le_refl _)) (fun t ts e => by cases e)
  simpa using this

/-- **C64 (right-to-left).** `a = b += c` groups as `a = (b += c)`, whatever the assignment operators. -/
theorem C64_right (t t' : Tok) (f f' : List EUnit → List EUnit → List EUnit) (x y z : List Tok) (a b c : List EUnit)
    (h : Assign t f) (h' : Assign t' f') (hx : Phrase .unary x a) (hy : Phrase .unary y b) (hz : Phrase .unary z c) :
    ∃ N, ∀ n, N ≤ n → expr n (x ++ t :: (y ++ t' :: z)) = .yes (f a (f' b c)) [] := by
  have lv : ∀ {u us r}, Phrase .unary u us → r ≤ 11 → Phrase (.level r) u us := fun hu hr =>
    level_le (.operand hu) (Nat.zero_le _) hr
  have := Phrase.assign h (lv hx (by omega)) (.assign h' (lv hy (by omega)) (lv hz (by omega)))
  have := C64_complete _ _ [] this (fun t ts e => by cases e)
  simpa using this

/-- `a = b ? -c : d[1] ?? 2 * f(x, ->y) + 3 ;` is accepted up to the semicolon: the hypothesis of `C64_sound` is met. -/
example : expr 40 [.ident 1, .p .assign, .ident 2, .p .quest, .p .sub, .ident 3, .p .colon, .ident 4, .p .brackOp, .lit 1,
    .p .brackCl, .p .coales, .lit 2, .p .mul, .ident 5, .p .parOp, .ident 6, .p .comma, .p .arrow, .ident 7, .p .parCl,
    .p .add, .lit 3, .p .semicol] =
  .yes [.localRef 1, .localRef 2, .branch2 [.localRef 3, .op .neg false]
    [.localRef 4, .literal 1, .op .index false, .branch1 .null [.literal 2] false, .localRef 5,
      .call [[.localRef 6, .check false], [.localRef 7, .check true]], .op .mul false, .literal 3, .op .add false] false,
    .op .assign true] [.p .semicol] := rfl

/-- The hypotheses of `C64_complete` are met by `x - 1 - y ;`. -/
example : Phrase (.level 11) [.ident 1, .p .sub, .lit 1, .p .sub, .ident 2]
      [.localRef 1, .literal 1, .op .sub false, .localRef 2, .op .sub false] ∧ Stops [.p .semicol] := by
  have lv : ∀ {u us}, Phrase .primary u us → ∀ r, r ≤ 11 → Phrase (.level r) u us := fun hu r hr =>
    level_le (.operand (.noPrefix (.bare hu))) (Nat.zero_le _) hr
  refine ⟨level_le (p := 3) (.binary .sub (.binary .sub (lv (.ident 1) 3 (by omega)) (lv (.lit 1) 2 (by omega)))
    (lv (.ident 2) 2 (by omega))) (by omega) (by omega), ?_⟩
  rw [stops_iff]
  exact ⟨stopsPost_of rfl, stopsInfix_of rfl rfl⟩

/-- The hypotheses of `C64_tighter` are met by `a || b ?? c`. -/
example : Binary 10 (.p .orl) (short .false false) ∧ Binary 1 (.p .coales) (short .null false) ∧
    Phrase .unary [.ident 1] [.localRef 1] := ⟨.orl, .coales, .noPrefix (.bare (.ident 1))⟩

end Asteria.Parser
