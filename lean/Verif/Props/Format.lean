import Verif.Proof.Format

/-!
# Properties of `std.string.format`
-/

namespace Asteria.Format

open FormatSpec

/-- **C68**: a template without null characters is formatted exactly if it is a sequence of characters, `$$`, `$N` and `${…}`;
what is returned is what these are replaced with, in order.  There may be at most 2^32 − 2 arguments. -/
theorem C68_format (env : Env) (templ : Bytes) (args : List Bytes) (h0 : 0 ∉ templ) (ha : args.length < 2 ^ 32 - 1) (out : Bytes) :
    format env templ args = .ok out ↔ ∃ ps : List Piece, (∀ p ∈ ps, p.Ok) ∧ text ps = templ ∧
      Outs env.errno env.strerror env.localTime env.utcTime templ args ps out := by
  have ha' : args.length < 0xFFFFFFFF := by omega
  unfold format formatv
  rw [if_neg h0]
  constructor
  · intro h
    rcases loop_sound env templ args ha' _ templ rfl _ (Nat.lt_succ_self _) [] with h' | ⟨ps, o, h1, h2, h3, h4⟩
    · rw [h'] at h; cases h
    · rw [h4] at h
      cases h
      exact ⟨ps, h1, h2, h3⟩
  · rintro ⟨ps, h1, h2, h3⟩
    have := loop_complete env templ args ha' h3 h1 (templ.length + 1) (by rw [h2]; exact Nat.lt_succ_self _) []
    rw [h2] at this
    exact this

/-- **C68**: any other template is an error; nothing is undefined. -/
theorem C68_error (env : Env) (templ : Bytes) (args : List Bytes) (ha : args.length < 2 ^ 32 - 1) :
    format env templ args = .throw ↔ 0 ∈ templ ∨ ¬ ∃ ps : List Piece, (∀ p ∈ ps, p.Ok) ∧ text ps = templ := by
  have ha' : args.length < 0xFFFFFFFF := by omega
  by_cases h0 : 0 ∈ templ
  · simp [format, h0]
  constructor
  · intro h
    refine .inr ?_
    rintro ⟨ps, h1, h2⟩
    -- there is an output for every piece
    have : ∀ ps : List Piece, ∃ o, Outs env.errno env.strerror env.localTime env.utcTime templ args ps o := by
      intro ps
      induction ps with
      | nil => exact ⟨[], .nil⟩
      | cons p ps ih =>
        obtain ⟨o, ho⟩ := ih
        cases p with
        | char c => exact ⟨_, .cons .char ho⟩
        | dollar => exact ⟨_, .cons .dollar ho⟩
        | digit n => exact ⟨_, .cons (.digit ((insert_iff _ _ _ _).2 rfl)) ho⟩
        | braced b => exact ⟨_, .cons (.braced ((composite_iff _ _ _ ha' _ _).2 rfl)) ho⟩
    obtain ⟨o, ho⟩ := this ps
    rw [(C68_format env templ args h0 ha o).2 ⟨ps, h1, h2, ho⟩] at h
    cases h
  · rintro (h | h)
    · exact absurd h h0
    · rcases loop_sound env templ args ha' _ templ rfl _ (Nat.lt_succ_self _) [] with h' | ⟨ps, o, h1, h2, h3, h4⟩
      · unfold format formatv
        rw [if_neg h0, h']
      · exact absurd ⟨ps, h1, h2⟩ h

/-- **C68**: text without `$` is unchanged. -/
theorem C68_plain (env : Env) (s : Bytes) (args : List Bytes) (h0 : 0 ∉ s) (ha : args.length < 2 ^ 32 - 1) (h : 0x24 ∉ s) :
    format env s args = .ok s := by
  rw [C68_format env s args h0 ha]
  refine ⟨s.map .char, ?_, ?_, ?_⟩
  · intro p hp
    obtain ⟨c, hc, rfl⟩ := List.mem_map.1 hp
    exact fun e => h (e ▸ hc)
  · clear h0 h
    induction s with
    | nil => rfl
    | cons c s ih => rw [List.map_cons, text, List.flatMap_cons]; rw [text] at ih; rw [ih]; rfl
  · clear h0 h
    generalize s = t at ⊢
    suffices h : ∀ s : Bytes, Outs env.errno env.strerror env.localTime env.utcTime t args (s.map .char) s from h t
    intro s
    induction s with
    | nil => exact .nil
    | cons c s ih => exact .cons .char ih

/-- Every `$` doubled. -/
def doubled (s : Bytes) : Bytes := s.flatMap fun c => if c = 0x24 then [0x24, 0x24] else [c]

/-- **C68**: if every `$` is doubled, then any text is printed as itself. -/
theorem C68_doubled (env : Env) (s : Bytes) (args : List Bytes) (h0 : 0 ∉ s) (ha : args.length < 2 ^ 32 - 1) :
    format env (doubled s) args = .ok s := by
  have h0' : 0 ∉ doubled s := by
    intro h
    obtain ⟨c, hc, hm⟩ := List.mem_flatMap.1 h
    by_cases e : c = 0x24
    · rw [if_pos e] at hm
      revert hm; decide
    · rw [if_neg e] at hm
      rcases List.mem_cons.1 hm with e' | e'
      · exact h0 (e' ▸ hc)
      · cases e'
  rw [C68_format env _ args h0' ha]
  refine ⟨s.map fun c => if c = 0x24 then .dollar else .char c, ?_, ?_, ?_⟩
  · intro p hp
    obtain ⟨c, hc, rfl⟩ := List.mem_map.1 hp
    by_cases e : c = 0x24
    · simp only [if_pos e]; trivial
    · simp only [if_neg e]; exact e
  · clear h0 h0'
    induction s with
    | nil => rfl
    | cons c s ih =>
      rw [List.map_cons, text, List.flatMap_cons, doubled, List.flatMap_cons]
      rw [text, doubled] at ih
      rw [ih]
      by_cases e : c = 0x24
      · simp only [if_pos e]; rfl
      · simp only [if_neg e]; rfl
  · clear h0 h0'
    generalize doubled s = t
    induction s with
    | nil => exact .nil
    | cons c s ih =>
      rw [List.map_cons]
      by_cases e : c = 0x24
      · simp only [e]; exact .cons .dollar ih
      · simp only [if_neg e]; exact .cons .char ih

/-- An environment. -/
def env0 : Env := ⟨"2".toUTF8.toList, "No such file or directory".toUTF8.toList, [], []⟩

example : format env0 "$$ $2, ${1}, $3; ${errno:full} ${}${0x}".toUTF8.toList ["abc".toUTF8.toList, "42".toUTF8.toList] =
    .ok "$ 42, abc, (no arg); No such file or directory (errno 2) (no arg)".toUTF8.toList := by decide +kernel
example : format env0 "a $".toUTF8.toList [] = .throw ∧ format env0 "a $x".toUTF8.toList [] = .throw ∧
    format env0 "a ${1".toUTF8.toList [] = .throw := by decide +kernel
example : 0 ∉ "a$b$$".toUTF8.toList ∧ doubled "a$b$$".toUTF8.toList = "a$$b$$$$".toUTF8.toList := by decide +kernel

end Asteria.Format
