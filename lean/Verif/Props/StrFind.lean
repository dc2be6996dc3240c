import Verif.Proof.StrFind

/-!
# C116: searching in `cow_string`

`find` with a pattern and a position to start from gives a wrong position: see `C116_false`.
-/

namespace Asteria.StrFind

open Spec.StrFind

/-- **C116 (`find`; partial).** `find(from, pattern)` returns the least position from `from` on at which the pattern occurs, minus
`from` unless the pattern is empty; or `npos` if there is none.  The table of shifts, which confuses characters and has
offsets of eight bits for patterns of up to 256 characters, never makes it miss an occurrence, and nothing outside of the text
or the pattern is read.  What is missing: the position should be returned as it is; for `from` = 0 it is
(`C116_find_zero`). -/
theorem C116_find_partial (t p : Bytes) (start : Nat) (ht : t.length < 2 ^ 64) (hp : p.length < 2 ^ 64) :
    ∃ r, find t start p = .ok r ∧
    ((p = [] ∧ First (Occurs t p) start r) ∨ (r ≠ 2 ^ 64 - 1 ∧ First (Occurs t p) start (start + r)) ∨
      (r = 2 ^ 64 - 1 ∧ ∀ j, start ≤ j → ¬ Occurs t p j)) := by
  unfold find
  by_cases h1 : start > t.length
  · rw [if_pos h1]
    refine ⟨_, rfl, .inr (.inr ⟨rfl, fun j hj ho => ?_⟩)⟩
    have := (occurs_iff.1 ho).1
    omega
  rw [if_neg h1]
  by_cases h2 : p.length = 0
  · rw [if_pos h2]
    have : p = [] := List.length_eq_zero_iff.1 h2
    subst this
    exact ⟨_, rfl, .inl ⟨rfl, .inl ⟨Nat.le_refl _, occurs_iff.2 ⟨by simp; omega, nofun⟩, fun j hj _ => hj⟩⟩⟩
  rw [if_neg h2]
  by_cases h3 : t.length - start < p.length
  · rw [if_pos h3]
    refine ⟨_, rfl, .inr (.inr ⟨rfl, fun j hj ho => ?_⟩)⟩
    have := (occurs_iff.1 ho).1
    omega
  rw [if_neg h3]
  obtain ⟨r, e, hr⟩ := bmh_spec (t := t.drop start) hp (by omega) (by simp; omega)
  rw [e]
  refine ⟨_, rfl, .inr ?_⟩
  have hdrop : ∀ i, Occurs (t.drop start) p i ↔ Occurs t p (start + i) := fun i => occurs_drop (by omega)
  cases r with
  | none =>
    refine .inr ⟨rfl, fun j hj ho => hr (j - start) ?_⟩
    rw [hdrop, show start + (j - start) = j by omega]
    exact ho
  | some i =>
    have hlt := (occurs_iff.1 ((hdrop i).1 hr.1)).1
    refine .inl ⟨by dsimp only; omega, .inl ⟨by omega, (hdrop i).1 hr.1, fun j hj ho => ?_⟩⟩
    have := hr.2 (j - start) (by rw [hdrop, show start + (j - start) = j by omega]; exact ho)
    dsimp only
    omega

/-- **C116 (`find` from the beginning).** `find(pattern)` returns the least position at which the pattern occurs, or `npos`. -/
theorem C116_find_zero (t p : Bytes) (ht : t.length < 2 ^ 64) (hp : p.length < 2 ^ 64) :
    ∃ r, find t 0 p = .ok r ∧ First (Occurs t p) 0 r := by
  obtain ⟨r, e, h⟩ := C116_find_partial t p 0 ht hp
  refine ⟨r, e, ?_⟩
  rcases h with ⟨_, h⟩ | ⟨_, h⟩ | h
  · exact h
  · rwa [Nat.zero_add] at h
  · exact .inr h

/-- **C116 (`find` is false).** `find(from, pattern)` does not return the least position from `from` on at which the pattern occurs:
in `hello`, `find(1, "lo")` gives 2, and it is at 3. -/
theorem C116_false : ¬ ∀ (t p : Bytes) (start : Nat), t.length < 2 ^ 64 → p.length < 2 ^ 64 →
    ∃ r, find t start p = .ok r ∧ First (Occurs t p) start r := by
  intro h
  obtain ⟨r, e, hr⟩ := h [104, 101, 108, 108, 111] [108, 111] 1 (by decide) (by decide)
  have e2 : find [104, 101, 108, 108, 111] 1 [108, 111] = .ok 2 := by decide +kernel
  have : r = 2 := by
    have e3 := e.symm.trans e2
    cases e3; rfl
  subst this
  rcases hr with ⟨_, ho, _⟩ | ⟨h, _⟩
  · have := (occurs_iff.1 ho).2 1 (by decide)
    revert this
    decide
  · revert h
    decide

/-- **C116 (`rfind`).** `rfind(to, pattern)` returns the greatest position up to `to` at which the pattern occurs, or `npos`. -/
theorem C116_rfind (t p : Bytes) (stop : Nat) (ht : t.length < 2 ^ 64) :
    ∃ r, rfind t stop p = .ok r ∧ Last (Occurs t p) stop r := by
  unfold rfind
  by_cases h1 : t.length < p.length
  · rw [if_pos h1]
    refine ⟨_, rfl, .inr ⟨rfl, fun j hj ho => ?_⟩⟩
    have := (occurs_iff.1 ho).1
    omega
  rw [if_neg h1]
  by_cases h2 : p.length = 0
  · rw [if_pos h2]
    refine ⟨_, rfl, .inl ⟨by omega, occurs_iff.2 ⟨by omega, fun j hj => by omega⟩, fun j hj ho => ?_⟩⟩
    have := (occurs_iff.1 ho).1
    omega
  rw [if_neg h2]
  dsimp only
  generalize hd : min stop (t.length - p.length) = d
  have hlen : (t.take (d + p.length)).length = d + p.length := by rw [List.length_take]; omega
  have hocc : ∀ i j, i + j = d → (Occurs (t.take (d + p.length)).reverse p.reverse j ↔ Occurs t p i) := by
    intro i j hij
    rw [occurs_reverse (i := i) (by omega), occurs_take (by omega)]
    exact ⟨fun h => h.1, fun h => ⟨h, by omega⟩⟩
  have hle : ∀ j, Occurs (t.take (d + p.length)).reverse p.reverse j → j ≤ d := by
    intro j ho
    have := (occurs_iff.1 ho).1
    rw [List.length_reverse, List.length_reverse, hlen] at this
    omega
  have hjd : ∀ j, j ≤ stop → Occurs t p j → j ≤ d := by
    intro j hj ho
    have := (occurs_iff.1 ho).1
    omega
  obtain ⟨r, e, hr⟩ := bmh_spec (t := (t.take (d + p.length)).reverse) (p := p.reverse) (by simp; omega) (by simp; omega)
    (by rw [List.length_reverse, List.length_reverse, hlen]; omega)
  rw [List.length_reverse] at e
  rw [e]
  refine ⟨_, rfl, ?_⟩
  cases r with
  | none =>
    dsimp only
    refine .inr ⟨by unfold npos; omega, fun j hj ho => ?_⟩
    have := hjd j hj ho
    exact hr (d - j) ((hocc j (d - j) (by omega)).2 ho)
  | some i =>
    have hi := hle i hr.1
    dsimp only
    rw [show (d + 2 ^ 64 - i) % 2 ^ 64 = d - i by omega]
    refine .inl ⟨by omega, (hocc (d - i) i (by omega)).1 hr.1, fun j hj ho => ?_⟩
    have h3 := hjd j hj ho
    have := hr.2 (d - j) ((hocc j (d - j) (by omega)).2 ho)
    omega

/-- **C116 (`find_of`).** `find_of(from, set)` returns the least position from `from` on of a character in the set, or `npos`. -/
theorem C116_find_of (t s : Bytes) (start : Nat) : ∃ r, findOf t start s = .ok r ∧ First (CharAt t (· ∈ s)) start r := by
  unfold findOf
  by_cases h : start ≥ t.length
  · rw [if_pos h]
    exact ⟨_, rfl, first_none h⟩
  · rw [if_neg h]
    exact upFrom_spec _ _ (bitmap_spec s) t _ start rfl (by omega)

/-- **C116 (`find_not_of`).** `find_not_of(from, set)` returns the least position from `from` on of a character not in the set. -/
theorem C116_find_not_of (t s : Bytes) (start : Nat) : ∃ r, findNotOf t start s = .ok r ∧ First (CharAt t (· ∉ s)) start r := by
  unfold findNotOf
  by_cases h : start ≥ t.length
  · rw [if_pos h]
    exact ⟨_, rfl, first_none h⟩
  · rw [if_neg h]
    exact upFrom_spec _ _ (not_bitmap_spec s) t _ start rfl (by omega)

/-- **C116 (`rfind_of`).** `rfind_of(to, set)` returns the greatest position up to `to` of a character in the set, or `npos`. -/
theorem C116_rfind_of (t s : Bytes) (stop : Nat) : ∃ r, rfindOf t stop s = .ok r ∧ Last (CharAt t (· ∈ s)) stop r := by
  unfold rfindOf
  by_cases h : t.length = 0
  · rw [if_pos h]
    exact ⟨_, rfl, last_none h⟩
  · rw [if_neg h]
    obtain ⟨r, e, hr⟩ := downFrom_spec _ _ (bitmap_spec s) t (min stop (t.length - 1)) (by omega)
    exact ⟨r, e, last_of_min hr⟩

/-- **C116 (`rfind_not_of`).** `rfind_not_of(to, set)` returns the greatest position up to `to` of a character not in the set. -/
theorem C116_rfind_not_of (t s : Bytes) (stop : Nat) : ∃ r, rfindNotOf t stop s = .ok r ∧ Last (CharAt t (· ∉ s)) stop r := by
  unfold rfindNotOf
  by_cases h : t.length = 0
  · rw [if_pos h]
    exact ⟨_, rfl, last_none h⟩
  · rw [if_neg h]
    obtain ⟨r, e, hr⟩ := downFrom_spec _ _ (not_bitmap_spec s) t (min stop (t.length - 1)) (by omega)
    exact ⟨r, e, last_of_min hr⟩

/-- **C116 (a character).** The functions which look for one character, or for another character than it, return the first or the
last position of one, on the side of the position given, or `npos`. -/
theorem C116_char (t : Bytes) (c : UInt8) (k : Nat) :
    (∃ r, findChar t k c = .ok r ∧ First (CharAt t (· = c)) k r) ∧
    (∃ r, rfindChar t k c = .ok r ∧ Last (CharAt t (· = c)) k r) ∧
    (∃ r, findNotChar t k c = .ok r ∧ First (CharAt t (· ≠ c)) k r) ∧
    (∃ r, rfindNotChar t k c = .ok r ∧ Last (CharAt t (· ≠ c)) k r) := by
  refine ⟨?_, ?_, ?_, ?_⟩
  · unfold findChar
    by_cases h : k ≥ t.length
    · rw [if_pos h]
      exact ⟨_, rfl, first_none h⟩
    rw [if_neg h]
    cases hf : (t.drop k).findIdx? (· = c) with
    | none =>
      refine ⟨_, rfl, .inr ⟨rfl, fun j hj ho => ?_⟩⟩
      obtain ⟨h1, h2⟩ := charAt_iff.1 ho
      rw [List.findIdx?_eq_none_iff] at hf
      have := hf t[j] (List.mem_drop_iff_getElem.2 ⟨j - k, by omega, by congr 1; omega⟩)
      simp [h2] at this
    | some i =>
      rw [List.findIdx?_eq_some_iff_getElem] at hf
      obtain ⟨h1, h2, h3⟩ := hf
      rw [List.length_drop] at h1
      rw [List.getElem_drop] at h2
      refine ⟨_, rfl, .inl ⟨by omega, charAt_iff.2 ⟨by omega, by simpa using h2⟩, fun j hj ho => ?_⟩⟩
      obtain ⟨h4, h5⟩ := charAt_iff.1 ho
      by_cases hlt : j < k + i
      · have := h3 (j - k) (by omega)
        rw [List.getElem_drop] at this
        have e : k + (j - k) = j := by omega
        simp [e, h5] at this
      · omega
  · unfold rfindChar
    by_cases h : t.length = 0
    · rw [if_pos h]
      exact ⟨_, rfl, last_none h⟩
    · rw [if_neg h]
      obtain ⟨r, e, hr⟩ := downFrom_spec (fun x => decide (x = c)) (· = c) (by simp) t (min k (t.length - 1)) (by omega)
      exact ⟨r, e, last_of_min hr⟩
  · unfold findNotChar
    by_cases h : t.length = 0
    · rw [if_pos h]
      exact ⟨_, rfl, first_none (by omega)⟩
    rw [if_neg h]
    by_cases h2 : k < t.length
    · rw [if_pos h2]
      exact upFrom_spec (fun x => decide (x ≠ c)) (· ≠ c) (by simp) t _ k rfl h2
    · rw [if_neg h2]
      exact ⟨_, rfl, first_none (by omega)⟩
  · unfold rfindNotChar
    by_cases h : t.length = 0
    · rw [if_pos h]
      exact ⟨_, rfl, last_none h⟩
    · rw [if_neg h]
      obtain ⟨r, e, hr⟩ := downFrom_spec (fun x => decide (x ≠ c)) (· ≠ c) (by simp) t (min k (t.length - 1)) (by omega)
      exact ⟨r, e, last_of_min hr⟩

/-! Cases: in `abacab!`, the pattern `ab`, the characters `a` and `b` together, and the character `a`. -/

def sample : Bytes := [97, 98, 97, 99, 97, 98, 33]

/-- `!` is hashed like `a`, so that the table is of no help for it. -/
example : hash 33 = hash 97 := by decide

example : find sample 0 [97, 98] = .ok 0 ∧ find sample 1 [97, 98] = .ok 3 ∧ find sample 0 [98, 97, 98] = .ok npos ∧
    find sample 7 [] = .ok 7 ∧ find sample 8 [] = .ok npos := by decide +kernel

example : rfind sample npos [97, 98] = .ok 4 ∧ rfind sample 3 [97, 98] = .ok 0 ∧ rfind sample npos [98, 98] = .ok npos ∧
    rfind sample npos [] = .ok 7 := by decide +kernel

example : findOf sample 2 [97, 98] = .ok 2 ∧ findNotOf sample 0 [97, 98] = .ok 3 ∧ rfindOf sample npos [97, 98] = .ok 5 ∧
    rfindNotOf sample 5 [97, 98] = .ok 3 ∧ rfindNotOf sample 2 [97, 98] = .ok npos := by decide +kernel

example : findChar sample 3 97 = .ok 4 ∧ rfindChar sample 3 97 = .ok 2 ∧ findNotChar sample 0 97 = .ok 1 ∧
    rfindNotChar sample 0 97 = .ok npos := by decide +kernel

/-- Three hundred characters are searched for with offsets of 64 bits, and 256 ones with offsets of eight. -/
example : width 256 = 2 ^ 8 ∧ width 257 = 2 ^ 64 ∧
    ∃ r, find (List.replicate 1000 0 ++ List.replicate 300 1) 0 (0 :: List.replicate 300 1) = .ok r ∧
      First (Occurs (List.replicate 1000 0 ++ List.replicate 300 1) (0 :: List.replicate 300 1)) 0 r :=
  ⟨rfl, rfl, C116_find_zero _ _ (by rw [List.length_append, List.length_replicate, List.length_replicate]; omega)
    (by rw [List.length_cons, List.length_replicate]; omega)⟩

end Asteria.StrFind
