import Verif.Proof.IniText
import Mathlib.Data.List.Forall2

/-!
# C105: the INI reader returns exactly what the text says
-/

namespace Asteria.Ini

open Lexer (getlines)

/-- The byte order mark. -/
def Marked (text : Bytes) : Prop := ∃ t, text = 0xEF :: 0xBB :: 0xBF :: t

theorem unmarked_lines {text : Bytes} (h : ¬ Marked text) : Csv.dropBom (getlines [] text) = getlines [] text := by
  have key : ∀ l ls, getlines [] text = l :: ls → Csv.bom.isPrefixOf l = true → Marked text := by
    intro l ls hg hp
    rw [List.isPrefixOf_iff_prefix] at hp
    obtain ⟨q, hq⟩ := hp
    have : ∃ t, text = l ++ t := by
      rcases break_split text with h' | ⟨l', t, rfl, hl⟩
      · have := getlines_cur_append text [] [] h'
        rw [List.append_nil, hg, List.nil_append, getlines] at this
        split at this
        · cases this
        · cases this; exact ⟨[], by simp⟩
      · rw [getlines_cur_append l' [] _ hl, List.nil_append, getlines, if_pos rfl] at hg
        cases hg
        exact ⟨_, rfl⟩
    obtain ⟨t, ht⟩ := this
    exact ⟨q ++ t, by rw [ht, ← hq]; rfl⟩
  cases hg : getlines [] text with
  | nil => rfl
  | cons l ls =>
    rw [Csv.dropBom, if_neg]
    exact fun hp => h (key l ls hg hp)

/-- Every text has lines, and only one list of them. -/
theorem C105_lines (text : Bytes) : ∃! ls, Lines text ls := by
  obtain ⟨ls, h⟩ := lines_total _ text (Nat.lt_succ_self _)
  exact ⟨ls, h, fun ms hm => by rw [← lines_getlines h, ← lines_getlines hm]⟩

/-- There is one way to read a line. -/
theorem C105_unambiguous {l : Bytes} {i j : Item} (hi : Reads l i) (hj : Reads l j) : i = j := by
  have hc : Csv.chop (l ++ [0x0D]) = l := (unended_iff.mp (Unended.cr l)).symm
  have h1 := doLine_reads ⟨[], none⟩ (l := l ++ [0x0D]) (hc.symm ▸ hi)
  have h2 := doLine_reads ⟨[], none⟩ (l := l ++ [0x0D]) (hc.symm ▸ hj)
  rw [h1] at h2
  cases i <;> cases j <;>
    simp [apply, St.enter, St.put, assign] at h2 <;> simp_all

/-- Two results with the same meaning have the same elements. -/
theorem C105_determined {is : List Item} {r r' : List (Bytes × Entry)} (h : Means is r) (h' : Means is r') :
    (∀ k v, (k, .text v) ∈ r ↔ (k, .text v) ∈ r') ∧
    (∀ n, (∃ l, (n, .sect l) ∈ r) ↔ ∃ l, (n, .sect l) ∈ r') ∧
    ∀ n l l', (n, .sect l) ∈ r → (n, .sect l') ∈ r' → ∀ k v, (k, v) ∈ l ↔ (k, v) ∈ l' :=
  ⟨fun k v => (h.texts k v).trans (h'.texts k v).symm, fun n => (h.sects n).trans (h'.sects n).symm,
    fun n l l' hl hl' k v => ((h.inner n l hl).2 k v).trans ((h'.inner n l' hl').2 k v).symm⟩

theorem forall_chop {text : Bytes} {ls : List Bytes} (hl : Lines text ls) {pre rest : List Bytes} (e : ls = pre ++ rest)
    {is : List Item} (h : List.Forall₂ Reads pre is) :
    ∃ p r, getlines [] text = p ++ r ∧ r.map Csv.chop = rest ∧ List.Forall₂ (fun l i => Reads (Csv.chop l) i) p is := by
  have := lines_getlines hl
  rw [e] at this
  obtain ⟨p, r, h1, h2, h3⟩ := List.map_eq_append_iff.mp this
  exact ⟨p, r, h1, h3, by rw [← h2, List.forall₂_map_left_iff] at h; exact h⟩

/-- If every line can be read and no section has the name of a property outside sections, then `std.ini.parse` returns what
the text means. -/
theorem C105_reads {text : Bytes} (hm : ¬ Marked text) {ls : List Bytes} (hl : Lines text ls) {is : List Item}
    (h : List.Forall₂ Reads ls is) (hc : ¬ Collision is) : ∃ root, parse text = .ok root ∧ Means is root := by
  obtain ⟨p, r, h1, h2, h3⟩ := forall_chop hl (List.append_nil ls).symm h
  obtain rfl := List.map_eq_nil_iff.mp h2
  rcases lines_items h3 inv_nil (by rintro ⟨_, _, h, _⟩; cases h) [] with ⟨_, h5⟩ | ⟨⟨st, h4, h5⟩, _⟩
  · exact absurd h5 hc
  · refine ⟨st.root, ?_, h5.means⟩
    rw [parse, unmarked_lines hm, h1, h4]
    rfl

/-- If a line cannot be read, and those before it can, then there is an exception, whatever comes after it. -/
theorem C105_throws {text : Bytes} (hm : ¬ Marked text) {pre post : List Bytes} {l : Bytes} (hl : Lines text (pre ++ l :: post))
    {is : List Item} (h : List.Forall₂ Reads pre is) (hc : ¬ Collision is) (hbad : ∀ i, ¬ Reads l i) : parse text = .throw := by
  obtain ⟨p, r, h1, h2, h3⟩ := forall_chop hl rfl h
  obtain ⟨l', r', rfl, rfl, _⟩ := List.map_eq_cons_iff.mp h2
  rcases lines_items h3 inv_nil (by rintro ⟨_, _, h, _⟩; cases h) (l' :: r') with ⟨_, h5⟩ | ⟨⟨st, h4, h5⟩, _⟩
  · exact absurd h5 hc
  · rw [parse, unmarked_lines hm, h1, h4, lines, doLine_not st hbad]
    rfl

/-- If a section has the name of a property outside sections, and the lines up to it can be read, then the assertion fails,
whatever comes after it. -/
theorem C105_asserts {text : Bytes} (hm : ¬ Marked text) {pre post : List Bytes} (hl : Lines text (pre ++ post))
    {is : List Item} (h : List.Forall₂ Reads pre is) (hc : Collision is) : parse text = .ub := by
  obtain ⟨p, r, h1, h2, h3⟩ := forall_chop hl rfl h
  rcases lines_items h3 inv_nil (by rintro ⟨_, _, h, _⟩; cases h) r with ⟨h4, _⟩ | ⟨_, h6⟩
  · rw [parse, unmarked_lines hm, h1]
    rw [h4]
    rfl
  · exact absurd hc h6

/-- One byte order mark at the beginning changes nothing. -/
theorem C105_mark {text : Bytes} (hm : ¬ Marked text) : parse (0xEF :: 0xBB :: 0xBF :: text) = parse text := by
  unfold parse
  rw [unmarked_lines hm]
  have hg := getlines_cur_append [0xEF, 0xBB, 0xBF] [] text (by decide)
  simp only [List.cons_append, List.nil_append] at hg
  rw [hg]
  rcases break_split text with h' | ⟨l', t, rfl, hl⟩
  · have h1 := getlines_cur_append text [0xEF, 0xBB, 0xBF] [] h'
    have h2 := getlines_cur_append text [] [] h'
    rw [List.append_nil] at h1 h2
    rw [h1, h2, List.nil_append, getlines, getlines, if_neg (by simp)]
    have h3 : Csv.dropBom [[0xEF, 0xBB, 0xBF] ++ text] = [text] := rfl
    rw [h3]
    split
    · rename_i e; subst e; rfl
    · rfl
  · rw [getlines_cur_append l' _ _ hl, getlines_cur_append l' _ _ hl, List.nil_append, getlines, getlines, if_pos rfl, if_pos rfl]
    rfl

/-! ### Concrete cases -/

/-- Spaces and a comment in a line with a property: `␣k␣=␣v␣;c`. -/
example : Reads " k = v ;c".toUTF8.toList (.prop [0x6B] [0x76]) := by
  have h : " k = v ;c".toUTF8.toList = [0x20] ++ ([0x6B] ++ ([0x20] ++ (0x3D :: ([0x20] ++ ([0x76] ++ ([0x20] ++ [0x3B, 0x63])))))) := by
    decide +kernel
  rw [h]
  refine .pair (by simp [Spaces]) ⟨by simp, ?_, ?_⟩ (by simp [NoRemark]) (by simp) (by simp) (by simp [Spaces]) (by simp [Spaces])
    (.inr ⟨by simp, ?_, ?_⟩) (by simp [NoRemark]) (by simp [Spaces]) (.inr ⟨_, .inl rfl⟩)
  · intro x t e; cases e; decide
  · intro t x e
    rcases t with _ | ⟨y, t⟩
    · cases e; decide
    · simp at e
  · intro x t e; cases e; decide
  · intro t x e
    rcases t with _ | ⟨y, t⟩
    · cases e; decide
    · simp at e

/-- The last value is kept; sections may be opened again. -/
example : parse "a=1\r\n[s]\nx = 1\n[t]\n[s] # again\nx=2\nword".toUTF8.toList =
    .ok [([0x61], .text [0x31]), ([0x73], .sect [([0x78], [0x32]), ("word".toUTF8.toList, [])]), ([0x74], .sect [])] := by
  decide +kernel

/-- A line with no key cannot be read. -/
example (i : Item) : ¬ Reads [0x3D, 0x31] i := by
  intro h
  have := doLine_reads ⟨[], none⟩ (l := [0x3D, 0x31]) h
  have h2 : doLine ⟨[], none⟩ [0x3D, 0x31] = .throw := by decide +kernel
  rw [h2] at this
  cases i <;> simp [apply, St.enter] at this

/-- The name of a section keeps the spaces that are written around it. -/
example : parse "[ s ]\nx=1".toUTF8.toList = .ok [([0x20, 0x73, 0x20], .sect [([0x78], [0x31])])] := by decide +kernel

end Asteria.Ini
