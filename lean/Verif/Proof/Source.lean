import Verif.Proof.LexExact
import Verif.Model.Source

/-!
# The number of tokens of a text
-/

namespace Asteria.Lexer

open Spec (Token Saturates Splits SplitsAll Lines Head Source)
open NumText (NumGet)

variable {R : Type} {castD : NumGet → Option R}

theorem splits_length (hsat : Saturates castD) {c : Bool} {toks : List (Tok R)} {s : Bytes} {c' : Bool} {toks' : List (Tok R)}
    (h : Splits castD c toks s c' toks') : s.length ≤ 2 ^ 57 → toks'.length ≤ toks.length + s.length := by
  induction h with
  | nil => intro _; omega
  | blank _ _ ih => intro hl; rw [List.length_cons] at hl ⊢; have := ih (by omega); omega
  | token ht _ ih =>
    intro hl
    rw [List.length_append] at hl ⊢
    have h1 := ih (by omega)
    obtain ⟨x, a, rfl, _⟩ := (token_complete hsat ht (by omega)).2.last
    simp only [List.length_append, List.length_cons, List.length_nil] at h1 ⊢
    omega
  | lineComment => intro _; omega
  | openComment _ ih => intro hl; rw [List.length_append] at hl ⊢; have := ih (by omega); omega
  | inside _ => intro _; omega
  | close _ _ ih => intro hl; simp only [List.length_append] at hl ⊢; have := ih (by omega); omega

theorem splitsAll_length (hsat : Saturates castD) {c : Bool} {toks : List (Tok R)} {ls : List Bytes} {c' : Bool} {toks' : List (Tok R)}
    (h : SplitsAll castD c toks ls c' toks') : ls.flatten.length ≤ 2 ^ 57 → toks'.length ≤ toks.length + ls.flatten.length := by
  induction h with
  | nil => intro _; omega
  | cons _ h1 _ ih =>
    intro hl
    rw [List.flatten_cons, List.length_append] at hl ⊢
    have := splits_length hsat h1 (by omega)
    have := ih (by omega)
    omega

theorem flatMap_length (ls : List Bytes) : ls.flatten.length ≤ (ls.flatMap (· ++ [10])).length := by
  induction ls with
  | nil => simp
  | cons l ls ih =>
    rw [List.flatten_cons, List.flatMap_cons]
    simp only [List.length_append]
    omega

theorem lines_length {src : Bytes} {ls : List Bytes} (h : Lines src ls) : ls.flatten.length ≤ src.length := by
  rcases h.eq with rfl | ⟨ini, last, rfl, _, rfl⟩
  · exact flatMap_length ls
  · have := flatMap_length ini
    simp only [List.flatten_append, List.flatten_cons, List.flatten_nil, List.length_append, List.append_nil]
    exact Nat.add_le_add_right this _

theorem head_length {l b : Bytes} (h : Head l b) : b.length ≤ l.length := by
  obtain ⟨x, rfl⟩ := head_suffix h
  rw [List.length_append]
  omega

/-- There are not more tokens than bytes. -/
theorem source_length (hsat : Saturates castD) {src : Bytes} (hl : src.length ≤ 2 ^ 57) {toks : List (Tok R)} (h : Source castD src toks) :
    toks.length ≤ src.length := by
  cases h with
  | empty _ => simp
  | shebang h1 h2 _ h4 =>
    have a := lines_length h1
    rw [List.flatten_cons, List.length_append] at a
    have := splitsAll_length hsat h4 (by omega)
    simp only [List.length_nil, List.length_reverse] at this ⊢
    omega
  | plain h1 h2 _ h4 =>
    have a := lines_length h1
    have b := head_length h2
    rw [List.flatten_cons, List.length_append] at a
    have := splitsAll_length hsat h4 (by rw [List.flatten_cons, List.length_append]; omega)
    rw [List.flatten_cons, List.length_append] at this
    simp only [List.length_nil, List.length_reverse] at this ⊢
    omega

/-- Keywords are keywords. -/
theorem splits_keywords {c : Bool} {toks : List (Tok R)} {s : Bytes} {c' : Bool} {toks' : List (Tok R)}
    (h : Splits castD c toks s c' toks') : ∀ w, .kw w ∈ toks' → .kw w ∈ toks ∨ w ∈ Spec.keywords.map Spec.bytes := by
  induction h with
  | nil => exact fun _ h => .inl h
  | blank _ _ ih => exact ih
  | token ht _ ih =>
    intro w hw
    rcases ih w hw with h1 | h1
    · rcases List.mem_cons.1 h1 with h2 | h2
      · subst h2
        cases ht with
        | kw h3 _ => exact .inr h3
      · exact .inl h2
    · exact .inr h1
  | lineComment => exact fun _ h => .inl h
  | openComment _ ih => exact ih
  | inside _ => exact fun _ h => .inl h
  | close _ _ ih => exact ih

theorem splitsAll_keywords {c : Bool} {toks : List (Tok R)} {ls : List Bytes} {c' : Bool} {toks' : List (Tok R)}
    (h : SplitsAll castD c toks ls c' toks') : ∀ w, .kw w ∈ toks' → .kw w ∈ toks ∨ w ∈ Spec.keywords.map Spec.bytes := by
  induction h with
  | nil => exact fun _ h => .inl h
  | cons _ h1 _ ih =>
    intro w hw
    rcases ih w hw with h2 | h2
    · exact splits_keywords h1 w h2
    · exact .inr h2

theorem source_keywords {src : Bytes} {toks : List (Tok R)} (h : Source castD src toks) :
    ∀ w, .kw w ∈ toks → w ∈ Spec.keywords.map Spec.bytes := by
  intro w hw
  cases h with
  | empty _ => simp at hw
  | shebang _ _ _ h4 => exact (splitsAll_keywords h4 w (by simpa using hw)).resolve_left (by simp)
  | plain _ _ _ h4 => exact (splitsAll_keywords h4 w (by simpa using hw)).resolve_left (by simp)

end Asteria.Lexer
