import Verif.Proof.Teardown

/-!
# C152: what the destruction of a value destroys
-/

namespace Asteria.Teardown

open Spec

/-- C152: destroying a value is defined, ends, and never gets into another destructor of a value: whatever
`nested` is, it is not called.  So arrays and objects that are nested in each other to any depth need no more
of the stack than one array.  This is so whether or not memory for the explicit stack can be allocated. -/
theorem C152_no_recursion (st : State) (v : Val) (R : List Val) (h : Counted st (v :: R)) (room fuel : Nat)
    (hf : size st < fuel) :
    ∃ st' leaked, ∀ nested, loop nested fuel room st v [] = .ok (st', leaked) := by
  obtain ⟨st', leaked, h1, _⟩ := loop_ok R fuel room st v [] h (by simpa [size] using hf)
  exact ⟨st', leaked, h1⟩

theorem final (st : State) (v : Val) (R : List Val) (h : Counted st (v :: R)) (room fuel : Nat)
    (hf : size st < fuel) (nested : State → Val → Res State) (st' : State) (leaked : List Val)
    (he : loop nested fuel room st v [] = .ok (st', leaked)) : Final room st [v] R st' leaked := by
  obtain ⟨st'', leaked', h1, h2⟩ := loop_ok R fuel room st v [] h (by simpa [size] using hf)
  rw [h1] at he
  cases he
  exact h2

/-- C152: what can be got at from other values stays as it was, even if memory cannot be allocated; and the
counters are right. -/
theorem C152_others (st : State) (v : Val) (R : List Val) (h : Counted st (v :: R)) (room fuel : Nat)
    (hf : size st < fuel) (nested : State → Val → Res State) (st' : State) (leaked : List Val)
    (he : loop nested fuel room st v [] = .ok (st', leaked)) :
    Counted st' (leaked ++ R) ∧
      ∀ i, Reach st R i → ∃ c c', st.cell i = some c ∧ st'.cell i = some c' ∧ c'.kids = c.kids := by
  have hF := final st v R h room fuel hf nested st' leaked he
  refine ⟨hF.counted, fun i hr => ?_⟩
  have key : ∀ i, 0 < held (refers i) R + inside (refers i) st' → ∃ c c', st.cell i = some c ∧ st'.cell i = some c' ∧
      c'.kids = c.kids := by
    intro i hi
    have hc := hF.counted i
    rw [held_append] at hc
    cases hc' : st'.cell i with
    | none => rw [hc'] at hc; dsimp only at hc; omega
    | some c' =>
      rw [hc'] at hc
      dsimp only at hc
      obtain ⟨c, k1, k2⟩ := hF.keep i c' hc'
      refine ⟨c, c', k1, rfl, ?_⟩
      rcases k2 with k2 | k2
      · exact k2
      · omega
  induction hr with
  | @root i w hv hr =>
    apply key
    have := held_mem (f := refers i) hv
    omega
  | @kid a b _ hc ih =>
    obtain ⟨c, c', e1, e2, e3⟩ := ih
    obtain ⟨d, e4, w, e5, e6⟩ := hc
    rw [e1] at e4
    cases e4
    apply key
    have k1 := inside_mem e2 (refers b)
    have k2 := held_mem (f := refers b) (e3.symm ▸ e5)
    omega

/-- C152: if memory can be allocated for as many values as there are in arrays and objects, then after a value
has been destroyed exactly those storages exist that can be got at from other values; each of the others has been deallocated
once; and each string, opaque object and function that was in them has been destroyed once. -/
theorem C152_exact (st : State) (v : Val) (R : List Val) (h : Counted st (v :: R)) (ht : Tree st) (room fuel : Nat)
    (hf : size st < fuel) (hm : size st ≤ room) (nested : State → Val → Res State) (st' : State) (leaked : List Val)
    (he : loop nested fuel room st v [] = .ok (st', leaked)) :
    leaked = [] ∧ (∀ i, st'.cell i ≠ none ↔ Reach st R i) ∧
      (∀ i, ¬ Reach st R i → st'.freed.count i = st.freed.count i + exist st i) ∧
      (∀ i, Reach st R i → st'.freed.count i = st.freed.count i) ∧
      ∀ k, st'.drops.count k + inside (isExt k) st' = st.drops.count k + inside (isExt k) st + isExt k v := by
  have hF := final st v R h room fuel hf nested st' leaked he
  have hl := hF.enough hm
  subst hl
  have hO := (C152_others st v R h room fuel hf nested st' [] he).2
  obtain ⟨rank, hrank⟩ := ht
  have keep : ∀ i c', st'.cell i = some c' → ∃ c, st.cell i = some c ∧ c'.kids = c.kids := by
    intro i c' e
    obtain ⟨c, e1, e2⟩ := hF.keep i c' e
    refine ⟨c, e1, ?_⟩
    rcases e2 with e2 | e2
    · exact e2
    · exact absurd e2.2 (by simp [held])
  have down : ∀ n i, rank i = n → st'.cell i ≠ none → Reach st R i := by
    intro n
    induction n using Nat.strongRecOn with
    | ind n ih =>
      intro i hn hi
      cases hc : st'.cell i with
      | none => exact absurd hc hi
      | some c' =>
        have hk := hF.counted i
        rw [hc, List.nil_append] at hk
        dsimp only at hk
        by_cases hR : 0 < held (refers i) R
        · obtain ⟨w, w1, w2⟩ := held_pos hR
          exact .root w1 w2
        · obtain ⟨a, d', ha, w, w1, w2⟩ := inside_pos (st := st') (i := i) (by omega)
          obtain ⟨d, hd, hkids⟩ := keep a d' ha
          have hcon : Contains st a i := ⟨d, hd, w, hkids ▸ w1, w2⟩
          have := hrank a i hcon
          refine .kid (ih (rank a) (by omega) a rfl ?_) hcon
          rw [ha]; simp
  have live : ∀ i, st'.cell i ≠ none ↔ Reach st R i := by
    intro i
    refine ⟨down _ i rfl, fun hr => ?_⟩
    obtain ⟨_, c', _, e, _⟩ := hO i hr
    rw [e]; simp
  refine ⟨rfl, live, ?_, ?_, ?_⟩
  · intro i hr
    have hn : st'.cell i = none := by
      apply Classical.byContradiction
      intro e
      exact hr ((live i).1 e)
    have := hF.freed i
    rw [show exist st' i = 0 from if_pos hn] at this
    exact this
  · intro i hr
    obtain ⟨c, c', e1, e2, _⟩ := hO i hr
    have := hF.freed i
    rw [show exist st' i = 1 from if_neg (by rw [e2]; simp), show exist st i = 1 from if_neg (by rw [e1]; simp)] at this
    omega
  · intro k
    have := hF.drops k
    rw [held_nil, held_cons, held_nil] at this
    omega

/-- C152: even if memory cannot be allocated, nothing is deallocated twice and nothing that did not exist is,
and no string, opaque object or function is destroyed more often than it was there. -/
theorem C152_once (st : State) (v : Val) (R : List Val) (h : Counted st (v :: R)) (room fuel : Nat)
    (hf : size st < fuel) (nested : State → Val → Res State) (st' : State) (leaked : List Val)
    (he : loop nested fuel room st v [] = .ok (st', leaked)) :
    (∀ i, st'.freed.count i ≤ st.freed.count i + exist st i) ∧
      ∀ k, st'.drops.count k + inside (isExt k) st' + held (isExt k) leaked
        = st.drops.count k + inside (isExt k) st + isExt k v := by
  have hF := final st v R h room fuel hf nested st' leaked he
  refine ⟨fun i => ?_, fun k => ?_⟩
  · have := hF.freed i; omega
  · have := hF.drops k
    rw [held_cons, held_nil] at this
    omega

/-! ## A case -/

/-- `[ [ "8", o ], "7", o ]` where `o` is `{ k: "9" }`. -/
def sample : State :=
  ⟨[some ⟨1, [.box false (some 1), .ext 7, .box true (some 2)]⟩, some ⟨1, [.ext 8, .box true (some 2)]⟩,
    some ⟨3, [.ext 9]⟩], [], []⟩

/-- `o` is also outside. -/
theorem sample_counted : Counted sample [.box false (some 0), .box true (some 2)] := by
  intro i
  match i with
  | 0 => exact ⟨by decide, by decide⟩
  | 1 => exact ⟨by decide, by decide⟩
  | 2 => exact ⟨by decide, by decide⟩
  | n + 3 => simp [State.cell, sample, held, inside, inCell, refers]

theorem sample_tree : Tree sample := by
  refine ⟨id, ?_⟩
  rintro a b ⟨c, hc, v, hv, hr⟩
  match a, hc with
  | 0, hc =>
    cases hc
    simp only [List.mem_cons, List.not_mem_nil, or_false] at hv
    rcases hv with rfl | rfl | rfl <;> simp [refers] at hr <;> simp <;> omega
  | 1, hc =>
    cases hc
    simp only [List.mem_cons, List.not_mem_nil, or_false] at hv
    rcases hv with rfl | rfl <;> simp [refers] at hr <;> simp <;> omega
  | 2, hc =>
    cases hc
    simp only [List.mem_cons, List.not_mem_nil, or_false] at hv
    subst hv
    simp [refers] at hr
  | n + 3, hc => simp [State.cell, sample] at hc

/-- The hypotheses are met: the two arrays are deallocated, `"7"` and `"8"` are destroyed and `o` stays. -/
example : loop (fun _ _ => .ub) 7 6 sample (.box false (some 0)) []
    = .ok (⟨[none, none, some ⟨1, [.ext 9]⟩], [8, 7], [1, 0]⟩, []) ∧ size sample < 7 ∧ size sample ≤ 6 := by
  decide

/-- C152: when memory cannot be allocated, the rest of the value is never destroyed: with room for one element,
everything stays. -/
theorem C152_leaks : ∃ st' leaked, loop (fun _ _ => .ub) 7 1 sample (.box false (some 0)) [] = .ok (st', leaked) ∧
    leaked ≠ [] ∧ (∀ i, st'.cell i = none ↔ sample.cell i = none) ∧ ¬ Reach sample [.box true (some 2)] 0 := by
  refine ⟨_, _, rfl, by decide, ?_, ?_⟩
  · intro i
    match i with
    | 0 => decide
    | 1 => decide
    | 2 => decide
    | n + 3 => exact Iff.rfl
  · intro hr
    have := (C152_exact sample _ _ sample_counted sample_tree 6 7 (by decide) (by decide) (fun _ _ => .ub)
      _ _ rfl).2.1 0
    exact this.2 hr rfl

end Asteria.Teardown
