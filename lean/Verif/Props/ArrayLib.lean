import Verif.Proof.ArraySort
import Verif.Proof.ArrayRotate
import Verif.Props.Slice

/-!
# Properties of the array library (C18 - C23, C73 - C75)
-/

namespace Asteria.ArrayLib
open Asteria.Slice

/-- The usual comparison of integers, for the examples. -/
def cmpInt (a b : Int) : Cmp := if a < b then .less else if a = b then .equal else .greater

theorem cmpInt_preorder : TotalPreorder cmpInt := by
  constructor
  · intro a b; unfold cmpInt; split <;> [simp; (split <;> simp)]
  · intro a b; unfold cmpInt; split <;> split <;> (try split) <;> (try split) <;> simp <;> omega
  · intro a b c; unfold cmpInt; (repeat' split) <;> simp <;> omega

/-- A comparison that is not injective: pairs by their first component. -/
def cmpFst (a b : Int × Int) : Cmp := cmpInt a.1 b.1

theorem cmpFst_preorder : TotalPreorder cmpFst :=
  ⟨fun _ _ => cmpInt_preorder.ordered _ _, fun _ _ => cmpInt_preorder.flip _ _,
    fun _ _ _ => cmpInt_preorder.trans _ _ _⟩

/-! ## C18 -/

/-- C18: with a total preorder, `sort` returns a permutation which is non-descending, and in which the
elements of every equivalence class keep their order. -/
theorem C18_sort {cmp : α → α → Cmp} (h : TotalPreorder cmp) (data : List α) :
    ∃ r, sort cmp data = .ok r ∧ r.Perm data ∧ r.Pairwise (fun a b => cmp a b ≠ .greater) ∧
      ∀ e, r.filter (fun x => cmp e x = .equal) = data.filter (fun x => cmp e x = .equal) := by
  unfold sort
  split
  · next hle =>
    refine ⟨data, rfl, List.Perm.refl _, ?_, fun _ => rfl⟩
    match data, hle with
    | [], _ => exact List.Pairwise.nil
    | [x], _ => exact List.pairwise_singleton _ _
  · exact sortLoop_spec h 1 (by omega) data (blocks_one cmp data)

/-- C18: with any comparator whatsoever, `sort` throws or returns a permutation; it never reads or
writes out of bounds. -/
theorem C18_permutation (cmp : α → α → Cmp) (data : List α) :
    sort cmp data = .throw ∨ ∃ r, sort cmp data = .ok r ∧ r.Perm data := by
  unfold sort
  split
  · exact Or.inr ⟨data, rfl, List.Perm.refl _⟩
  · rcases sortLoop_any cmp 1 data with h | ⟨r, h1, -, h3⟩
    · exact Or.inl h
    · exact Or.inr ⟨r, h1, h3 rfl⟩

/-- C18: `ksort` orders the pairs of an object by key. -/
theorem C18_ksort {κ β : Type} {cmp : κ → κ → Cmp} (h : TotalPreorder cmp) (object : List (κ × β)) :
    ∃ r, ksort cmp object = .ok r ∧ r.Perm object ∧ r.Pairwise (fun a b => cmp a.1 b.1 ≠ .greater) := by
  obtain ⟨r, h1, h2, h3, -⟩ := C18_sort (cmp := fun (x y : κ × β) => cmp x.1 y.1)
    ⟨fun _ _ => h.ordered _ _, fun _ _ => h.flip _ _, fun _ _ _ => h.trans _ _ _⟩ object
  exact ⟨r, h1, h2, h3⟩

example : sort cmpFst [(3, 0), (1, 1), (3, 2), (2, 3), (1, 4)] =
    .ok [(1, 1), (1, 4), (2, 3), (3, 0), (3, 2)] := by decide +kernel
example : TotalPreorder cmpFst ∧ cmpFst (1, 1) (1, 4) = .equal := ⟨cmpFst_preorder, by decide⟩

/-! ## C19 -/

/-- C19: with a total preorder, `usort` returns a strictly ascending array, with exactly one element of
each equivalence class that occurs in the input: the first one. -/
theorem C19_usort {cmp : α → α → Cmp} (h : TotalPreorder cmp) (data : List α) :
    ∃ r, usort cmp data = .ok r ∧ r.Pairwise (fun a b => cmp a b = .less) ∧
      ∀ e, r.filter (fun x => cmp e x = .equal) =
        (data.find? (fun x => cmp e x = .equal)).toList := by
  have hfind : ∀ e, (data.find? (fun x => decide (cmp e x = .equal))).toList =
      (data.filter (equiv cmp e)).head?.toList := by
    intro e; rw [List.head?_filter]; rfl
  simp only [hfind]
  unfold usort
  split
  · next hle =>
    match data, hle with
    | [], _ => exact ⟨[], rfl, List.Pairwise.nil, fun _ => rfl⟩
    | [x], _ =>
      refine ⟨[x], rfl, List.pairwise_singleton _ _, fun e => ?_⟩
      show List.filter (equiv cmp e) [x] = _
      by_cases he : equiv cmp e x = true <;> simp [List.filter_cons, he]
  · next hle =>
    obtain ⟨r, c, h1, h2, h3, h4, h5, h6⟩ := usortLoop_spec h 1 (by omega) data (blocks_one cmp data)
      (by omega)
    rw [h1]
    simp only [Res.bind]
    -- exactly two blocks remain
    have htwo : ∃ a b, r = a ++ b ∧ a.length = c ∧ b.length ≤ c ∧ b ≠ [] ∧ Ascending cmp a ∧
        Ascending cmp b := by
      cases h5 with
      | last _ hlen _ => omega
      | cons a l hlen ha hl =>
        simp only [List.length_append] at h3 h4
        exact ⟨a, l, rfl, hlen, by omega, by intro h0; subst h0; simp at h3; omega, ha,
          blocks_whole hl (by omega)⟩
    obtain ⟨a, b, rfl, ha, hb, hb0, hasca, hascb⟩ := htwo
    unfold mergeBlocks
    rw [if_pos ⟨h2, by omega⟩]
    unfold mergeLoop
    rw [if_pos ⟨h2, h3⟩, List.take_left' ha, List.drop_left' ha, List.take_of_length_le hb,
      List.drop_of_length_le hb,
      mergeTwo_eq h _ _ _ _ (by intro h0; subst h0; simp at ha; omega) hb0]
    obtain ⟨o, g1, g2, g3⟩ := outputAll_unique h [] (List.merge a b (leB cmp))
      (by simpa using ascending_merge h _ _ hasca hascb) List.Pairwise.nil
    rw [g1]
    simp only [Res.bind]
    unfold mergeLoop
    rw [if_neg (by simp)]
    refine ⟨o.reverse, rfl, g2, fun e => ?_⟩
    have := g3 e
    simp only [List.reverse_nil, List.nil_append] at this
    rw [filter_merge h e _ _ hasca hascb, ← List.filter_append, h6] at this
    exact this

/-- C19: the elements of the result occur in the input, and every element of the input is equivalent to
one of the result. -/
theorem C19_members {cmp : α → α → Cmp} (h : TotalPreorder cmp) (data : List α) :
    ∃ r, usort cmp data = .ok r ∧ (∀ x ∈ r, x ∈ data) ∧ ∀ x ∈ data, ∃ y ∈ r, cmp x y = .equal := by
  obtain ⟨r, h1, -, h3⟩ := C19_usort h data
  refine ⟨r, h1, fun x hx => ?_, fun x hx => ?_⟩
  · have : x ∈ r.filter (fun y => cmp x y = .equal) :=
      List.mem_filter.2 ⟨hx, by simp [h.refl]⟩
    rw [h3, Option.mem_toList] at this
    exact List.mem_of_find?_eq_some this
  · have hsome : (data.find? (fun y => decide (cmp x y = .equal))).isSome := by
      rw [List.find?_isSome]; exact ⟨x, hx, by simp [h.refl]⟩
    obtain ⟨y, hy⟩ := Option.isSome_iff_exists.1 hsome
    have : y ∈ r.filter (fun y => cmp x y = .equal) := by rw [h3, hy]; simp
    have := List.mem_filter.1 this
    exact ⟨y, this.1, by simpa using this.2⟩

/-- C19: with any comparator, `usort` throws or returns some of the elements; never out of bounds. -/
theorem C19_any (cmp : α → α → Cmp) (data : List α) :
    usort cmp data = .throw ∨ ∃ r, usort cmp data = .ok r ∧ r.Subperm data := by
  unfold usort
  split
  · exact Or.inr ⟨data, rfl, List.Subperm.refl _⟩
  · rcases usortLoop_any cmp 1 (by omega) data (by omega) with h | ⟨r, c, h1, h2, h3, h4⟩
    · rw [h]; exact Or.inl rfl
    · rw [h1]
      rcases mergeBlocks_any cmp true r c h3 (by omega) with h | ⟨r', g1, g2, -⟩
      · exact Or.inl h
      · exact Or.inr ⟨r', g1, g2.trans h2.subperm⟩

example : usort cmpFst [(3, 0), (1, 1), (3, 2), (2, 3), (1, 4)] =
    .ok [(1, 1), (2, 3), (3, 0)] := by decide +kernel

/-! ## C20 -/

/-- `data` is partitioned with respect to `target`: first the elements less than it, then the
equivalent ones, then the greater ones (`l` and `u` are the boundaries). -/
def Partitioned (cmp : α → α → Cmp) (data : List α) (target : α) (l u : Nat) : Prop :=
  l ≤ u ∧ u ≤ data.length ∧ ∀ (i : Nat) (x : α), data[i]? = some x →
    cmp target x = if i < l then .greater else if i < u then .equal else .less

theorem bound_spec (cmp : α → α → Cmp) (data : List α) (target : α) (pred : Cmp → Bool) (q : Nat)
    (hq : ∀ (i : Nat) (x : α), data[i]? = some x → cmp target x ≠ .unordered ∧
      (pred (cmp target x) = true ↔ q ≤ i))
    (b e : Nat) (hb : b ≤ q) (he : q ≤ e) (hel : e ≤ data.length) :
    bound cmp data target pred b e = .ok q := by
  induction hn : e - b using Nat.strongRecOn generalizing b e with
  | _ n ih =>
    unfold bound
    split
    · next hlt =>
      simp only
      have hm : b + (e - b) / 2 < data.length := by omega
      rw [List.getElem?_eq_getElem hm]
      obtain ⟨h1, h2⟩ := hq _ _ (List.getElem?_eq_getElem hm)
      have hc : compareTotal cmp target data[b + (e - b) / 2] = .ok (cmp target data[b + (e - b) / 2]) := by
        unfold compareTotal; split
        · contradiction
        · rfl
      simp only [hc, Res.bind]
      split
      · next hp => exact ih _ (by omega) b _ hb (h2.1 hp) (by omega) rfl
      · next hp =>
        have : ¬ q ≤ b + (e - b) / 2 := fun hh => hp (h2.2 hh)
        exact ih _ (by omega) _ e (by omega) he hel rfl
    · congr 1; omega

theorem bsearch_spec (cmp : α → α → Cmp) (data : List α) (target : α) (l u : Nat)
    (hp : Partitioned cmp data target l u) (b e : Nat) (hb : b ≤ l) (he : u ≤ e) (hel : e ≤ data.length) :
    ∃ i f, bsearch cmp data target b e = .ok (i, f) ∧ l ≤ i ∧ i ≤ u ∧ (f = true ↔ l < u) ∧
      (f = true → i < u) := by
  obtain ⟨hlu, hul, hpp⟩ := hp
  induction hn : e - b using Nat.strongRecOn generalizing b e with
  | _ n ih =>
    unfold bsearch
    split
    · next hlt =>
      simp only
      have hm : b + (e - b) / 2 < data.length := by omega
      rw [List.getElem?_eq_getElem hm]
      have h1 := hpp _ _ (List.getElem?_eq_getElem hm)
      have hc : compareTotal cmp target data[b + (e - b) / 2] = .ok (cmp target data[b + (e - b) / 2]) := by
        unfold compareTotal
        split
        · next hu => rw [h1] at hu; split at hu <;> [cases hu; (split at hu <;> cases hu)]
        · rfl
      simp only [hc, Res.bind]
      split at h1
      · next hl =>
        simp only [h1, if_neg, reduceCtorEq]
        exact ih _ (by omega) _ e (by omega) he hel rfl
      · split at h1
        · simp only [h1, if_true]
          exact ⟨_, _, rfl, by omega, by omega, by simp; omega, by intro; omega⟩
        · simp only [h1, if_neg, if_true, reduceCtorEq]
          exact ih _ (by omega) b _ hb (by omega) (by omega) rfl
    · exact ⟨b, false, rfl, by omega, by omega, by simp; omega, by simp⟩

/-- An ascending array is partitioned with respect to every target; the boundaries are the numbers of
smaller elements and of elements that are not greater. -/
theorem partitioned_of_ascending {cmp : α → α → Cmp} (h : TotalPreorder cmp) (data : List α)
    (hs : data.Pairwise fun a b => cmp a b ≠ .greater) (target : α) :
    Partitioned cmp data target (data.countP fun x => cmp x target = .less)
      (data.countP fun x => cmp x target ≠ .greater) := by
  induction data with
  | nil => exact ⟨Nat.le_refl _, Nat.le_refl _, by simp⟩
  | cons x xs ih =>
    obtain ⟨h1, h2⟩ := List.pairwise_cons.1 hs
    obtain ⟨g1, g2, g3⟩ := ih h2
    -- all elements after one that is not less are not less, etc.
    have hzero : cmp x target ≠ .less → xs.countP (fun x => decide (cmp x target = .less)) = 0 := by
      intro hx
      rw [List.countP_eq_zero]
      intro y hy hc
      have hc : cmp y target = .less := by simpa using hc
      exact hx (h.less_of_le_less (h1 y hy) hc)
    have hzero2 : cmp x target = .greater → xs.countP (fun x => decide (cmp x target ≠ .greater)) = 0 := by
      intro hx
      rw [List.countP_eq_zero]
      intro y hy hc
      have hc : cmp y target ≠ .greater := by simpa using hc
      exact h.trans _ _ _ (h1 y hy) hc hx
    have ho := h.ordered x target
    rw [List.countP_cons, List.countP_cons]
    cases hc : cmp x target with
    | unordered => exact absurd hc ho
    | less =>
      simp only [decide_true, if_true, ne_eq, reduceCtorEq, not_false_eq_true]
      refine ⟨by simpa using g1, by simpa using g2, ?_⟩
      intro i y hy
      cases i with
      | zero =>
        simp at hy; subst hy
        rw [if_pos (by omega)]
        exact (h.flip _ _).1 hc
      | succ i =>
        have := g3 i y (by simpa using hy)
        rw [this]
        simp only [ne_eq, Nat.add_lt_add_iff_right]
    | equal =>
      have hz := hzero (by rw [hc]; simp)
      rw [hz] at g3 ⊢
      simp only [ne_eq, reduceCtorEq, not_false_eq_true, decide_true, if_true, decide_false,
        Bool.false_eq_true, if_false]
      refine ⟨by omega, by simpa using g2, ?_⟩
      intro i y hy
      cases i with
      | zero =>
        simp at hy; subst hy
        rw [if_neg (by omega), if_pos (by omega)]
        exact h.equal_symm hc
      | succ i =>
        have := g3 i y (by simpa using hy)
        rw [this, if_neg (show ¬ i < 0 by omega), if_neg (show ¬ i + 1 < 0 + 0 by omega)]
        simp only [ne_eq, Nat.add_lt_add_iff_right]
    | greater =>
      have hz := hzero (by rw [hc]; simp)
      have hz2 := hzero2 hc
      rw [hz, hz2] at g3
      rw [hz, hz2]
      simp only [ne_eq, reduceCtorEq, not_true_eq_false, decide_false, Bool.false_eq_true, if_false]
      refine ⟨by omega, by simp, ?_⟩
      intro i y hy
      rw [if_neg (by omega), if_neg (by omega)]
      cases i with
      | zero =>
        simp at hy; subst hy
        exact (h.flip _ _).2 hc
      | succ i =>
        have := g3 i y (by simpa using hy)
        rw [this, if_neg (by omega), if_neg (by omega)]

/-- C20: on an ascending array `lower_bound` returns the number of elements less than the target. -/
theorem C20_lower_bound {cmp : α → α → Cmp} (h : TotalPreorder cmp) (data : List α)
    (hs : data.Pairwise fun a b => cmp a b ≠ .greater) (target : α) :
    lowerBound cmp data target = .ok (data.countP fun x => cmp x target = .less) := by
  obtain ⟨h1, h2, h3⟩ := partitioned_of_ascending h data hs target
  refine bound_spec cmp data target _ _ (fun i x hx => ⟨h.ordered _ _, ?_⟩) 0 _ (Nat.zero_le _)
    (List.countP_le_length) (Nat.le_refl _)
  rw [h3 i x hx]
  split
  · simp; omega
  · split <;> simp <;> omega

/-- C20: on an ascending array `upper_bound` returns the number of elements that are not greater than
the target. -/
theorem C20_upper_bound {cmp : α → α → Cmp} (h : TotalPreorder cmp) (data : List α)
    (hs : data.Pairwise fun a b => cmp a b ≠ .greater) (target : α) :
    upperBound cmp data target = .ok (data.countP fun x => cmp x target ≠ .greater) := by
  obtain ⟨h1, h2, h3⟩ := partitioned_of_ascending h data hs target
  refine bound_spec cmp data target _ _ (fun i x hx => ⟨h.ordered _ _, ?_⟩) 0 _ (Nat.zero_le _)
    (List.countP_le_length) (Nat.le_refl _)
  rw [h3 i x hx]
  split
  · simp only [decide_eq_true_eq, reduceCtorEq, false_iff]; omega
  · split <;> simp only [decide_eq_true_eq, reduceCtorEq, false_iff, true_iff] <;> omega

theorem countP_split {cmp : α → α → Cmp} (h : TotalPreorder cmp) (data : List α) (target : α) :
    data.countP (fun x => decide (cmp x target ≠ .greater)) =
      data.countP (fun x => decide (cmp x target = .less)) +
        data.countP (fun x => decide (cmp x target = .equal)) := by
  induction data with
  | nil => rfl
  | cons x xs ih =>
    simp only [List.countP_cons, ih]
    have := h.ordered x target
    cases hc : cmp x target <;> simp_all <;> omega

/-- C20: on an ascending array `equal_range` returns the lower bound and the number of elements
equivalent to the target. -/
theorem C20_equal_range {cmp : α → α → Cmp} (h : TotalPreorder cmp) (data : List α)
    (hs : data.Pairwise fun a b => cmp a b ≠ .greater) (target : α) :
    equalRange cmp data target = .ok (data.countP fun x => cmp x target = .less,
      ((data.countP fun x => cmp x target = .equal : Nat) : Int)) := by
  have hp := partitioned_of_ascending h data hs target
  obtain ⟨h1, h2, h3⟩ := id hp
  obtain ⟨p, f, hb, g1, g2, -, -⟩ := bsearch_spec cmp data target _ _ hp 0 data.length (Nat.zero_le _) h2
    (Nat.le_refl _)
  unfold equalRange
  rw [hb]
  simp only [Res.bind]
  have e1 := bound_spec cmp data target (fun c => decide (c ≠ .greater))
    (data.countP fun x => cmp x target = .less) (fun i x hx => ⟨h.ordered _ _, by
      rw [h3 i x hx]
      split
      · simp; omega
      · split <;> simp <;> omega⟩) 0 p (Nat.zero_le _) g1 (by omega)
  have e2 := bound_spec cmp data target (fun c => decide (c = .less))
    (data.countP fun x => cmp x target ≠ .greater) (fun i x hx => ⟨h.ordered _ _, by
      rw [h3 i x hx]
      split
      · simp only [decide_eq_true_eq, reduceCtorEq, false_iff]; omega
      · split <;> simp only [decide_eq_true_eq, reduceCtorEq, false_iff, true_iff] <;> omega⟩) p data.length g2 h2 (Nat.le_refl _)
  rw [e1, e2, countP_split h]
  simp

/-- C20: on an ascending array `binary_search` returns the index of an equivalent element iff there is
one, and null otherwise. -/
theorem C20_binary_search {cmp : α → α → Cmp} (h : TotalPreorder cmp) (data : List α)
    (hs : data.Pairwise fun a b => cmp a b ≠ .greater) (target : α) :
    (∃ (i : Nat) (x : α), binarySearch cmp data target = .ok (some i) ∧ data[i]? = some x ∧
        cmp target x = .equal) ∨
      (binarySearch cmp data target = .ok none ∧ ∀ x ∈ data, cmp target x ≠ .equal) := by
  have hp := partitioned_of_ascending h data hs target
  obtain ⟨h1, h2, h3⟩ := id hp
  obtain ⟨p, f, hb, g1, g2, g3, g4⟩ := bsearch_spec cmp data target _ _ hp 0 data.length (Nat.zero_le _) h2
    (Nat.le_refl _)
  unfold binarySearch
  rw [hb]
  cases f with
  | true =>
    have hpu := g4 rfl
    have hlt : p < data.length := by omega
    refine Or.inl ⟨p, data[p], rfl, List.getElem?_eq_getElem hlt, ?_⟩
    rw [h3 p _ (List.getElem?_eq_getElem hlt), if_neg (by omega), if_pos hpu]
  | false =>
    refine Or.inr ⟨rfl, fun x hx hc => ?_⟩
    obtain ⟨i, hi, rfl⟩ := List.getElem_of_mem hx
    rw [h3 i _ (List.getElem?_eq_getElem hi)] at hc
    have : ¬ _ < _ := fun hh => Bool.false_ne_true (g3.2 hh)
    split at hc
    · cases hc
    · rw [if_neg (by omega)] at hc; cases hc

/-- C20: `binary_search` and the bounds never read out of bounds, whatever the array and comparator. -/
theorem C20_no_ub (cmp : α → α → Cmp) (data : List α) (target : α) :
    binarySearch cmp data target ≠ .ub ∧ lowerBound cmp data target ≠ .ub ∧
      upperBound cmp data target ≠ .ub := by
  have hb : ∀ pred b e, e ≤ data.length → bound cmp data target pred b e ≠ .ub := by
    intro pred b e
    induction hn : e - b using Nat.strongRecOn generalizing b e with
    | _ n ih =>
      intro he
      unfold bound
      split
      · next hlt =>
        simp only
        rw [List.getElem?_eq_getElem (by omega)]
        simp only [compareTotal]
        split
        · simp
        · simp only [Res.bind]
          split
          · exact ih _ (by omega) _ _ rfl (by omega)
          · exact ih _ (by omega) _ _ rfl he
      · simp
  have hs : ∀ b e, e ≤ data.length → bsearch cmp data target b e ≠ .ub := by
    intro b e
    induction hn : e - b using Nat.strongRecOn generalizing b e with
    | _ n ih =>
      intro he
      unfold bsearch
      split
      · next hlt =>
        simp only
        rw [List.getElem?_eq_getElem (by omega)]
        simp only [compareTotal]
        split
        · simp
        · simp only [Res.bind]
          split
          · simp
          · split
            · exact ih _ (by omega) _ _ rfl (by omega)
            · exact ih _ (by omega) _ _ rfl he
      · simp
  refine ⟨?_, hb _ _ _ (Nat.le_refl _), hb _ _ _ (Nat.le_refl _)⟩
  unfold binarySearch
  have := hs 0 data.length (Nat.le_refl _)
  cases hh : bsearch cmp data target 0 data.length <;> simp_all

example : binarySearch cmpInt [1, 3, 3, 5] 5 = .ok (some 3) ∧ lowerBound cmpInt [1, 3, 3, 5] 3 = .ok 1 ∧
    upperBound cmpInt [1, 3, 3, 5] 3 = .ok 3 ∧ equalRange cmpInt [1, 3, 3, 5] 3 = .ok (1, 2) ∧
    binarySearch cmpInt [1, 3, 3, 5] 4 = .ok none := by decide +kernel
example : [1, 3, 3, 5].Pairwise fun a b => cmpInt a b ≠ .greater := by decide

/-! ## C75: the documentation says that `binary_search` finds the *first* equal element -/

/-- C75 is false: on `[1, 1, 1]` the result for 1 is 1. -/
theorem C75_counterexample : ¬ ∀ (data : List Int) (target : Int),
    (data.Pairwise fun a b => cmpInt a b ≠ .greater) → ∀ i, binarySearch cmpInt data target = .ok (some i) →
      ∀ (j : Nat) (x : Int), data[j]? = some x → cmpInt target x = .equal → i ≤ j := by
  intro h
  have h1 := h [1, 1, 1] 1 (by decide) 1 (by decide +kernel) 0 1 rfl (by decide)
  omega

/-- C75 holds when no two elements are equivalent.  Missing: arrays with equivalent elements, where the
claim is false. -/
theorem C75_first_partial {cmp : α → α → Cmp} (h : TotalPreorder cmp) (data : List α)
    (hs : data.Pairwise fun a b => cmp a b = .less) (target : α) (i : Nat)
    (hi : binarySearch cmp data target = .ok (some i)) (j : Nat) (x : α) (hj : data[j]? = some x)
    (hx : cmp target x = .equal) : i ≤ j := by
  rcases C20_binary_search h data (hs.imp (by intro a b hab; rw [hab]; simp)) target with
    ⟨k, y, h1, h2, h3⟩ | ⟨h1, h2⟩
  · rw [hi] at h1
    cases h1
    by_contra hlt
    have hjl := (List.getElem?_eq_some_iff.1 hj)
    have hil := (List.getElem?_eq_some_iff.1 h2)
    have := List.pairwise_iff_getElem.1 hs j i hjl.1 hil.1 (by omega)
    rw [hjl.2, hil.2, h.equal_trans (h.equal_symm hx) h3] at this
    cases this
  · rw [hi] at h1; cases h1

example : [1, 3, 5].Pairwise fun a b => cmpInt a b = .less := by decide

/-! ## C21 -/

/-- C21: `shuffle` returns a permutation; no index is out of bounds. -/
theorem C21_shuffle (data : List α) (seed : Nat) : ∃ r, shuffle data seed = .ok r ∧ r.Perm data := by
  unfold shuffle
  split
  · exact ⟨data, rfl, List.Perm.refl _⟩
  · exact shuffleLoop_spec seed 0 data data.length (by omega)

/-- C21: which permutation it is depends on the length and the seed only: there is an arrangement `σ` of
the indices such that shuffling any array of this length rearranges it by `σ`. -/
theorem C21_determined (n seed : Nat) : ∃ σ : List Nat, σ.Perm (List.range n) ∧
    ∀ (α : Type) (data : List α), data.length = n →
      shuffle data seed = .ok (σ.filterMap fun i => data[i]?) := by
  obtain ⟨σ, h1, h2⟩ := C21_shuffle (List.range n) seed
  refine ⟨σ, h2, fun α data hd => ?_⟩
  cases data with
  | nil =>
    simp at hd; subst hd
    simp at h2
    subst h2
    rfl
  | cons d ds =>
    let f : Nat → α := fun i => (d :: ds)[i]?.getD d
    have hmap : (List.range n).map f = d :: ds := by
      rw [← hd]
      apply List.ext_getElem?
      intro i
      simp only [List.getElem?_map, f]
      by_cases hi : i < (d :: ds).length
      · rw [List.getElem?_range hi, Option.map_some, List.getElem?_eq_getElem hi]
        rfl
      · rw [List.getElem?_eq_none (by simp; simp at hi; omega),
          List.getElem?_eq_none (by omega)]
        rfl
    have hsh : shuffle ((List.range n).map f) seed = (shuffle (List.range n) seed).map (List.map f) := by
      unfold shuffle
      simp only [List.length_map]
      split
      · rfl
      · exact shuffleLoop_map f _ _ _ _
    rw [hmap, h1] at hsh
    rw [hsh]
    simp only [Res.map]
    congr 1
    have hmem : ∀ i ∈ σ, i < n := fun i hi => List.mem_range.1 (h2.mem_iff.1 hi)
    clear h1 h2 hsh
    induction σ with
    | nil => rfl
    | cons i σ ih =>
      have hi := hmem i (by simp)
      rw [← hd] at hi
      have hs : (d :: ds)[i]? = some (d :: ds)[i] := List.getElem?_eq_getElem hi
      have hf : f i = (d :: ds)[i] := by simp only [f]; rw [hs]; rfl
      rw [List.map_cons, List.filterMap_cons, ih (fun j hj => hmem j (by simp [hj])), hs, hf]

example : shuffle [10, 20, 30, 40] 42 = .ok [20, 30, 10, 40] := by decide +kernel

/-! ## C22 -/

/-- C22: `rotate` returns an array of the same size whose element at index `(i + shift) mod n` is the
element at index `i` of the input. -/
theorem C22_rotate (data : List α) (shift : Int) :
    ∃ r, rotate data shift = .ok r ∧ r.length = data.length ∧
      ∀ i : Nat, i < data.length → r[((i + shift) % data.length).toNat]? = data[i]? := by
  unfold rotate
  split
  · next h =>
    refine ⟨data, rfl, rfl, fun i hi => ?_⟩
    have h1 : data.length = 1 := by omega
    have : i = 0 := by omega
    rw [h1, this]; simp [Int.emod_one]
  · next h =>
    generalize hn : (data.length : Int) = n
    have hn0 : 2 ≤ n := by omega
    simp only
    have hmod : ∀ i : Int, (i + shift) % n = (i + shift.tmod n) % n := by
      intro i
      conv => lhs; rw [← Int.mul_tdiv_add_tmod shift n]
      rw [show i + (n * shift.tdiv n + shift.tmod n) = i + shift.tmod n + n * shift.tdiv n by omega,
        Int.add_mul_emod_self_left]
    have hub : shift.tmod n < n := Int.tmod_lt_of_pos _ (by omega)
    have hlb : -n < shift.tmod n := by
      have := Int.lt_tmod_of_pos shift (show 0 < n by omega); omega
    simp only [hmod]
    generalize shift.tmod n = s at *
    split
    · next h0 =>
      refine ⟨data, rfl, rfl, fun i hi => ?_⟩
      rw [h0, Int.add_zero, Int.emod_eq_of_lt (by omega) (by omega)]; simp
    · next h0 =>
      rw [rotateRange_spec data _ (by split <;> omega)]
      refine ⟨_, rfl, by simp; split <;> omega, fun i hi => ?_⟩
      generalize hk : ((if 0 ≤ s then n else 0) - s).toNat = k
      have hkn : k ≤ data.length := by split at hk <;> omega
      by_cases hik : i < k
      · have e : ((i : Int) + s) % n = (data.length - k + i : Nat) := by
          split at hk
          · rw [Int.emod_eq_of_lt (by omega) (by omega)]; omega
          · rw [show (i : Int) + s = ((i : Int) + s + n) - n by omega, Int.sub_emod_right,
              Int.emod_eq_of_lt (by omega) (by omega)]; omega
        rw [e]
        simp only [Int.toNat_natCast]
        rw [List.getElem?_append_right (by simp), List.length_drop,
          show data.length - k + i - (data.length - k) = i by omega, List.getElem?_take_of_lt hik]
      · have e : ((i : Int) + s) % n = (i - k : Nat) := by
          split at hk
          · rw [show (i : Int) + s = ((i : Int) + s - n) + n by omega, Int.add_emod_right,
              Int.emod_eq_of_lt (by omega) (by omega)]; omega
          · rw [Int.emod_eq_of_lt (by omega) (by omega)]; omega
        rw [e]
        simp only [Int.toNat_natCast]
        rw [List.getElem?_append_left (by simp; omega), List.getElem?_drop,
          show k + (i - k) = i by omega]

/-- C22: rotating back restores the array. -/
theorem C22_inverse (data : List α) (shift : Int) :
    ((rotate data shift).bind fun r => rotate r (-shift)) = .ok data := by
  obtain ⟨r, h1, h2, h3⟩ := C22_rotate data shift
  obtain ⟨q, g1, g2, g3⟩ := C22_rotate r (-shift)
  rw [h1]
  simp only [Res.bind]
  rw [g1]
  congr 1
  apply List.ext_getElem?
  intro i
  by_cases hi : i < data.length
  · have hn : (0 : Int) < data.length := by omega
    have hj := h3 i hi
    have hlt : ((i : Int) + shift) % data.length < data.length := Int.emod_lt_of_pos _ hn
    have hge : 0 ≤ ((i : Int) + shift) % data.length := Int.emod_nonneg _ (by omega)
    have hg := g3 (((i : Int) + shift) % data.length).toNat (by omega)
    rw [hj] at hg
    rw [← hg]
    congr 1
    rw [h2, Int.toNat_of_nonneg hge]
    have : (((i : Int) + shift) % data.length + -shift) % data.length = (i : Int) % data.length := by
      rw [Int.add_emod, Int.emod_emod, ← Int.add_emod]; congr 1; omega
    rw [this, Int.emod_eq_of_lt (by omega) (by omega)]; simp
  · rw [List.getElem?_eq_none (by omega), List.getElem?_eq_none (by omega)]

example : rotate [1, 2, 3, 4, 5] 2 = .ok [4, 5, 1, 2, 3] ∧
    rotate [1, 2, 3, 4, 5] (-9223372036854775808) = .ok [4, 5, 1, 2, 3] := by decide +kernel

/-! ## C23 -/

/-- Position `i` lies in `[b, e)` and its element passes (`m = true`) or fails (`m = false`) the test. -/
def Match (data : List α) (test : α → Bool) (m : Bool) (b e i : Nat) : Prop :=
  b ≤ i ∧ i < e ∧ ∃ x, data[i]? = some x ∧ test x = m

theorem findIn_spec (data : List α) (test : α → Bool) (m : Bool) (b e : Nat) (he : e ≤ data.length) :
    (∃ i, findIn data test m b e = .ok (some i) ∧ Match data test m b e i ∧
      ∀ j, Match data test m b e j → i ≤ j) ∨
    (findIn data test m b e = .ok none ∧ ∀ j, ¬ Match data test m b e j) := by
  induction hn : e - b using Nat.strongRecOn generalizing b with
  | _ n ih =>
    unfold findIn
    split
    · next hlt =>
      rw [List.getElem?_eq_getElem (by omega)]
      simp only
      split
      · next ht =>
        exact Or.inl ⟨b, rfl, ⟨Nat.le_refl _, hlt, _, List.getElem?_eq_getElem (by omega), ht⟩,
          fun j hj => hj.1⟩
      · next ht =>
        have hne : ∀ j, Match data test m b e j → Match data test m (b + 1) e j := by
          intro j ⟨h1, h2, x, h3, h4⟩
          refine ⟨?_, h2, x, h3, h4⟩
          rcases Nat.eq_or_lt_of_le h1 with rfl | h
          · rw [List.getElem?_eq_getElem (by omega)] at h3
            cases h3
            exact absurd h4 ht
          · exact h
        rcases ih _ (by omega) (b + 1) rfl with ⟨i, h1, h2, h3⟩ | ⟨h1, h2⟩
        · refine Or.inl ⟨i, h1, ⟨by have := h2.1; omega, h2.2⟩, fun j hj => h3 j (hne j hj)⟩
        · exact Or.inr ⟨h1, fun j hj => h2 j (hne j hj)⟩
    · exact Or.inr ⟨rfl, fun j hj => by have := hj.1; have := hj.2.1; omega⟩

/-- C23: `find` / `find_not` return the least matching index in the range. -/
theorem C23_find (m : Bool) (data : List α) (from? length : Option Int) (test : α → Bool)
    (hs : (data.length : Int) ≤ 2 ^ 63 - 1) (hf : OptI64 from?) (hl : OptI64 length) :
    let b := sliceBegin data.length from?
    let e := sliceEnd data.length from? length
    (∃ i : Nat, find m data from? length test = .ok (some i) ∧ Match data test m b e i ∧
        ∀ j, Match data test m b e j → i ≤ j) ∨
      (find m data from? length test = .ok none ∧ ∀ j, ¬ Match data test m b e j) := by
  unfold find
  rw [C10_slice_bounds _ hs _ _ hf hl]
  simp only [Res.bind]
  rcases findIn_spec data test m (sliceBegin data.length from?) _
    (sliceEnd_le data.length from? length) with ⟨i, h1, h2⟩ | ⟨h1, h2⟩
  · exact Or.inl ⟨i, by rw [h1]; rfl, h2⟩
  · exact Or.inr ⟨by rw [h1]; rfl, h2⟩

/-- C23: `rfind` / `rfind_not` return the greatest matching index in the range. -/
theorem C23_rfind (m : Bool) (data : List α) (from? length : Option Int) (test : α → Bool)
    (hs : (data.length : Int) ≤ 2 ^ 63 - 1) (hf : OptI64 from?) (hl : OptI64 length) :
    let b := sliceBegin data.length from?
    let e := sliceEnd data.length from? length
    (∃ i : Nat, rfind m data from? length test = .ok (some i) ∧ Match data test m b e i ∧
        ∀ j, Match data test m b e j → j ≤ i) ∨
      (rfind m data from? length test = .ok none ∧ ∀ j, ¬ Match data test m b e j) := by
  have key : ∀ b e, e ≤ data.length →
      (∃ i, rfindIn data test m b e = .ok (some i) ∧ Match data test m b e i ∧
        ∀ j, Match data test m b e j → j ≤ i) ∨
      (rfindIn data test m b e = .ok none ∧ ∀ j, ¬ Match data test m b e j) := by
    intro b e
    induction hn : e - b using Nat.strongRecOn generalizing e with
    | _ n ih =>
      intro he
      unfold rfindIn
      split
      · next hlt =>
        rw [List.getElem?_eq_getElem (by omega)]
        simp only
        split
        · next ht =>
          exact Or.inl ⟨e - 1, rfl, ⟨by omega, by omega, _, List.getElem?_eq_getElem (by omega), ht⟩,
            fun j hj => by have := hj.2.1; omega⟩
        · next ht =>
          have hne : ∀ j, Match data test m b e j → Match data test m b (e - 1) j := by
            intro j ⟨h1, h2, x, h3, h4⟩
            refine ⟨h1, ?_, x, h3, h4⟩
            by_contra hge
            have : j = e - 1 := by omega
            subst this
            rw [List.getElem?_eq_getElem (by omega)] at h3
            cases h3
            exact ht h4
          rcases ih _ (by omega) (e - 1) rfl (by omega) with ⟨i, h1, h2, h3⟩ | ⟨h1, h2⟩
          · refine Or.inl ⟨i, h1, ⟨h2.1, by have := h2.2.1; omega, h2.2.2⟩, fun j hj => h3 j (hne j hj)⟩
          · exact Or.inr ⟨h1, fun j hj => h2 j (hne j hj)⟩
      · exact Or.inr ⟨rfl, fun j hj => by have := hj.1; have := hj.2.1; omega⟩
  unfold rfind
  rw [C10_slice_bounds _ hs _ _ hf hl]
  simp only [Res.bind]
  rcases key (sliceBegin data.length from?) _ (sliceEnd_le data.length from? length) with
    ⟨i, h1, h2⟩ | ⟨h1, h2⟩
  · exact Or.inl ⟨i, by rw [h1]; rfl, h2⟩
  · exact Or.inr ⟨by rw [h1]; rfl, h2⟩

theorem findIn_some_split (data : List α) (test : α → Bool) (m : Bool) (b e i : Nat) (he : e ≤ data.length)
    (h : findIn data test m b e = .ok (some i)) :
    b ≤ i ∧ i < e ∧ ∃ x, data[i]? = some x ∧ test x = m ∧
      (sub data b e).filter (fun x => test x = m) =
        x :: (sub data (i + 1) e).filter (fun x => test x = m) ∧
      (sub data b e).filter (fun x => test x ≠ m) =
        sub data b i ++ (sub data (i + 1) e).filter (fun x => test x ≠ m) := by
  rcases findIn_spec data test m b e he with ⟨k, h1, ⟨h2, h3, x, h4, h5⟩, h6⟩ | ⟨h1, -⟩
  · rw [h] at h1
    cases h1
    refine ⟨h2, h3, x, h4, h5, ?_⟩
    have hsplit : sub data b e = sub data b i ++ x :: sub data (i + 1) e := by
      have hx := (List.getElem?_eq_some_iff.1 h4)
      unfold sub
      conv => lhs; rw [← List.take_append_drop i (data.take e), List.take_take,
        Nat.min_eq_left (by omega)]
      rw [List.drop_append_of_le_length (by simp; omega)]
      congr 1
      rw [List.drop_eq_getElem_cons (by simp; omega), List.getElem_take, hx.2]
    have hpre : ∀ y ∈ sub data b i, test y ≠ m := by
      intro y hy ht
      obtain ⟨k, hk, rfl⟩ := List.getElem_of_mem hy
      have hk' : k < i - b := by simp [sub] at hk; omega
      have hidx : (sub data b i)[k] = data[b + k]'(by omega) := by
        simp [sub]
      have := h6 (b + k) ⟨by omega, by omega, _, List.getElem?_eq_getElem (by omega), by
        rw [← hidx]; exact ht⟩
      omega
    rw [hsplit, List.filter_append, List.filter_append, List.filter_cons, List.filter_cons]
    constructor
    · rw [List.filter_eq_nil_iff.2 (by intro a ha; simpa using hpre a ha)]
      simp [h5]
    · rw [List.filter_eq_self.2 (by intro a ha; simpa using hpre a ha)]
      simp [h5]
  · rw [h] at h1; cases h1

theorem findIn_none_filter (data : List α) (test : α → Bool) (m : Bool) (b e : Nat) (he : e ≤ data.length)
    (h : findIn data test m b e = .ok none) :
    (sub data b e).filter (fun x => test x = m) = [] ∧
      (sub data b e).filter (fun x => test x ≠ m) = sub data b e := by
  rcases findIn_spec data test m b e he with ⟨k, h1, -⟩ | ⟨-, h2⟩
  · rw [h] at h1; cases h1
  · have hpre : ∀ y ∈ sub data b e, test y ≠ m := by
      intro y hy ht
      obtain ⟨k, hk, rfl⟩ := List.getElem_of_mem hy
      have hk' : k < e - b := by simp [sub] at hk; omega
      have hidx : (sub data b e)[k] = data[b + k]'(by omega) := by
        simp [sub]
      exact h2 (b + k) ⟨by omega, by omega, _, List.getElem?_eq_getElem (by omega), by
        rw [← hidx]; exact ht⟩
    exact ⟨List.filter_eq_nil_iff.2 (by intro a ha; simpa using hpre a ha),
      List.filter_eq_self.2 (by intro a ha; simpa using hpre a ha)⟩

theorem sub_len (data : List α) (b e : Nat) (he : e ≤ data.length) : (sub data b e).length = e - b := by
  simp [sub]; omega

theorem countLoop_spec (m : Bool) (data : List α) (test : α → Bool) (e b n : Nat) (he : e ≤ data.length) :
    countLoop m data test e b n = .ok (n + (sub data b e).countP fun x => test x = m) := by
  induction hk : e - b using Nat.strongRecOn generalizing b n with
  | _ k ih =>
    unfold countLoop
    rcases findIn_spec data test m b e he with ⟨i, h1, -⟩ | ⟨h1, -⟩
    · obtain ⟨h2, h3, x, h4, h5, h6, -⟩ := findIn_some_split data test m b e i he h1
      rw [h1]
      simp only
      rw [if_pos ⟨h2, h3⟩, ih _ (by omega) (i + 1) (n + 1) rfl, List.countP_eq_length_filter,
        List.countP_eq_length_filter, h6]
      simp; omega
    · rw [h1, List.countP_eq_length_filter, (findIn_none_filter data test m b e he h1).1]
      rfl

/-- C23: `count` / `count_not` count the matching elements of the slice. -/
theorem C23_count (m : Bool) (data : List α) (from? length : Option Int) (test : α → Bool)
    (hs : (data.length : Int) ≤ 2 ^ 63 - 1) (hf : OptI64 from?) (hl : OptI64 length) :
    ∃ s, slice data from? length = .ok s ∧
      count m data from? length test = .ok (s.countP fun x => test x = m) := by
  refine ⟨sub data (sliceBegin data.length from?) (sliceEnd data.length from? length), ?_, ?_⟩
  · unfold slice
    rw [C10_slice_bounds _ hs _ _ hf hl]
    simp only [Res.map]
    congr 1
    split
    · rfl
    · next hne =>
      have hle := sliceEnd_le data.length from? length
      simp only [ne_eq, Classical.not_not] at hne
      by_cases h0 : data.length = 0
      · rw [List.length_eq_zero_iff.1 h0]; simp [sub]
      have h1 : sliceBegin data.length from? = 0 := by omega
      have h2 : sliceEnd data.length from? length = data.length := by omega
      rw [h1, h2]; simp [sub]
  · unfold count
    rw [C10_slice_bounds _ hs _ _ hf hl]
    simp only [Res.bind]
    rw [countLoop_spec _ _ _ _ _ _ (sliceEnd_le _ _ _)]
    simp

theorem excludeLoop_spec (m : Bool) (test : α → Bool) (pre mid post : List α) :
    excludeLoop m test post.length (pre ++ mid ++ post) pre.length =
      .ok (pre ++ mid.filter (fun x => test x ≠ m) ++ post) := by
  induction hk : mid.length using Nat.strongRecOn generalizing pre mid with
  | _ k ih =>
    have hlen : (pre ++ mid ++ post).length - post.length = pre.length + mid.length := by simp; omega
    have hsub : sub (pre ++ mid ++ post) pre.length (pre.length + mid.length) = mid := by
      unfold sub
      rw [List.take_left' (by simp)]; simp
    have he : pre.length + mid.length ≤ (pre ++ mid ++ post).length := by simp
    unfold excludeLoop
    rw [hlen]
    rcases findIn_spec (pre ++ mid ++ post) test m pre.length _ he with ⟨i, h1, -⟩ | ⟨h1, -⟩
    · obtain ⟨h2, h3, x, h4, h5, -, h6⟩ := findIn_some_split _ test m _ _ i he h1
      rw [h1]
      simp only
      rw [if_pos (by omega)]
      have hmid : mid = mid.take (i - pre.length) ++ x :: mid.drop (i - pre.length + 1) := by
        have hx : mid[i - pre.length]? = some x := by
          rw [← h4, List.append_assoc, List.getElem?_append_right h2, List.getElem?_append_left (by omega)]
        have hx' := List.getElem?_eq_some_iff.1 hx
        conv => lhs; rw [← List.take_append_drop (i - pre.length) mid, List.drop_eq_getElem_cons hx'.1]
        rw [hx'.2]
      have hsub1 : sub (pre ++ mid ++ post) pre.length i = mid.take (i - pre.length) := by
        unfold sub
        rw [List.append_assoc, List.take_append, List.take_of_length_le h2,
          List.take_append_of_le_length (by omega)]; simp
      have hsub2 : sub (pre ++ mid ++ post) (i + 1) (pre.length + mid.length) = mid.drop (i - pre.length + 1) := by
        unfold sub
        rw [List.take_left' (by simp), List.drop_append]
        rw [List.drop_of_length_le (by omega), show i + 1 - pre.length = i - pre.length + 1 by omega]
        simp
      rw [hsub1, hsub2, hsub] at h6
      have herase : (pre ++ mid ++ post).eraseIdx i =
          (pre ++ mid.take (i - pre.length)) ++ mid.drop (i - pre.length + 1) ++ post := by
        rw [List.eraseIdx_eq_take_drop_succ]
        have t1 : (pre ++ mid ++ post).take i = pre ++ mid.take (i - pre.length) := by
          rw [List.append_assoc, List.take_append, List.take_of_length_le h2,
            List.take_append_of_le_length (by omega)]
        have t2 : (pre ++ mid ++ post).drop (i + 1) = mid.drop (i - pre.length + 1) ++ post := by
          rw [List.append_assoc, List.drop_append, List.drop_of_length_le (by omega),
            show i + 1 - pre.length = i - pre.length + 1 by omega,
            List.drop_append_of_le_length (by omega)]
          simp
        rw [t1, t2]
        simp
      rw [herase]
      have hl2 : (pre ++ mid.take (i - pre.length)).length = i := by simp; omega
      have := ih _ (by simp; omega) (pre ++ mid.take (i - pre.length)) (mid.drop (i - pre.length + 1)) rfl
      rw [hl2] at this
      rw [this, h6]
      simp
    · have := (findIn_none_filter _ test m _ _ he h1).2
      rw [hsub] at this
      rw [h1, this]

/-- C23: `exclude` / `exclude_not` remove exactly the matching elements of the range, preserving the
order of the others and everything outside of the range. -/
theorem C23_exclude (m : Bool) (data : List α) (from? length : Option Int) (test : α → Bool)
    (hs : (data.length : Int) ≤ 2 ^ 63 - 1) (hf : OptI64 from?) (hl : OptI64 length) :
    ∃ pre mid post, data = pre ++ mid ++ post ∧ pre.length = sliceBegin data.length from? ∧
      pre.length + mid.length = sliceEnd data.length from? length ∧
      exclude m data from? length test = .ok (pre ++ mid.filter (fun x => test x ≠ m) ++ post) := by
  have hbe := sliceBegin_le_end data.length from? length
  have hel := sliceEnd_le data.length from? length
  unfold exclude
  rw [C10_slice_bounds _ hs _ _ hf hl]
  generalize sliceBegin data.length from? = b at *
  generalize sliceEnd data.length from? length = e at *
  simp only [Res.bind]
  have hsplit : data = data.take b ++ (data.take e).drop b ++ data.drop e := by
    have : (data.take e).drop b ++ data.drop e = data.drop b := by
      conv => rhs; rw [← List.take_append_drop e data]
      rw [List.drop_append_of_le_length (by simp; omega)]
    rw [List.append_assoc, this, List.take_append_drop]
  have l1 : (data.take b).length = b := by simp; omega
  have l2 : ((data.take e).drop b).length = e - b := by simp; omega
  have l3 : (data.drop e).length = data.length - e := by simp
  refine ⟨_, _, _, hsplit, l1, by omega, ?_⟩
  have := excludeLoop_spec m test (data.take b) ((data.take e).drop b) (data.drop e)
  rw [← hsplit, l1, l3] at this
  exact this

example : find true [1, 2, 3, 2] none none (· == 2) = .ok (some 1) ∧
    rfind true [1, 2, 3, 2] none none (· == 2) = .ok (some 3) ∧
    count true [1, 2, 3, 2] (some 1) none (· == 2) = .ok 2 ∧
    exclude true [2, 1, 2, 3, 2] (some 1) none (· == 2) = .ok [2, 1, 3] ∧
    exclude false [2, 1, 2, 3, 2] (some 1) none (· == 2) = .ok [2, 2, 2] := by decide +kernel

theorem extremeLoop_spec {cmp : α → α → Cmp} (isNull : α → Bool) (worse : Cmp)
    (R : α → α → Prop) (hR : ∀ a, R a a) (hT : ∀ a b c, R a b → R b c → R a c)
    (hw : ∀ a b, isNull a = false → isNull b = false → cmp a b ≠ .unordered ∧
      (cmp a b = worse → R b a) ∧ (cmp a b ≠ worse → R a b))
    (result : α) (data : List α) :
    ∃ r, extremeLoop cmp isNull worse result data = .ok r ∧ (r = result ∨ r ∈ data) ∧
      (isNull r = true → isNull result = true ∧ ∀ x ∈ data, isNull x = true) ∧
      (isNull r = false → (isNull result = false → R r result) ∧ ∀ x ∈ data, isNull x = false → R r x) := by
  induction data generalizing result with
  | nil => exact ⟨result, rfl, Or.inl rfl, fun h => ⟨h, by simp⟩, fun h => ⟨fun _ => hR _, by simp⟩⟩
  | cons x xs ih =>
    unfold extremeLoop
    split
    · next hn =>
      obtain ⟨r, h1, h2, h3, h4⟩ := ih x
      refine ⟨r, h1, ?_, fun hr => ⟨hn, ?_⟩,
        fun hr => ⟨fun hc => Bool.noConfusion (hn.symm.trans hc), ?_⟩⟩
      · rcases h2 with rfl | h2
        · right; simp
        · right; simp [h2]
      · intro y hy
        rcases List.mem_cons.1 hy with rfl | hy
        · exact (h3 hr).1
        · exact (h3 hr).2 y hy
      · intro y hy hyn
        rcases List.mem_cons.1 hy with rfl | hy
        · exact (h4 hr).1 hyn
        · exact (h4 hr).2 y hy hyn
    · next hn =>
      have hn : isNull result = false := by simpa using hn
      split
      · next hx =>
        obtain ⟨r, h1, h2, h3, h4⟩ := ih result
        refine ⟨r, h1, h2.imp id (fun hh => List.mem_cons_of_mem _ hh), fun hr => ?_, fun hr => ⟨(h4 hr).1, ?_⟩⟩
        · have := (h3 hr).1; rw [hn] at this; cases this
        · intro y hy hyn
          rcases List.mem_cons.1 hy with rfl | hy
          · rw [hx] at hyn; cases hyn
          · exact (h4 hr).2 y hy hyn
      · next hx =>
        have hx : isNull x = false := by simpa using hx
        obtain ⟨w1, w2, w3⟩ := hw result x hn hx
        have hct : compareTotal cmp result x = .ok (cmp result x) := by
          unfold compareTotal; split
          · contradiction
          · rfl
        rw [hct]
        simp only [Res.bind]
        split
        · next hc =>
          obtain ⟨r, h1, h2, h3, h4⟩ := ih x
          refine ⟨r, h1, ?_, fun hr => ?_, fun hr => ⟨fun _ => ?_, ?_⟩⟩
          · rcases h2 with rfl | h2
            · right; simp
            · right; simp [h2]
          · have := (h3 hr).1; rw [hx] at this; cases this
          · exact hT _ _ _ ((h4 hr).1 hx) (w2 hc)
          · intro y hy hyn
            rcases List.mem_cons.1 hy with rfl | hy
            · exact (h4 hr).1 hyn
            · exact (h4 hr).2 y hy hyn
        · next hc =>
          obtain ⟨r, h1, h2, h3, h4⟩ := ih result
          refine ⟨r, h1, h2.imp id (fun hh => List.mem_cons_of_mem _ hh), fun hr => ?_, fun hr => ⟨(h4 hr).1, ?_⟩⟩
          · have := (h3 hr).1; rw [hn] at this; cases this
          · intro y hy hyn
            rcases List.mem_cons.1 hy with rfl | hy
            · exact hT _ _ _ ((h4 hr).1 hn) (w3 hc)
            · exact (h4 hr).2 y hy hyn

/-- C23: `max_of` ignores nulls; among the other elements it returns one that is not less than any of
them; null if there is no other. -/
theorem C23_max_of {cmp : α → α → Cmp} (h : TotalPreorder cmp) (isNull : α → Bool) (null : α)
    (hnull : isNull null = true) (data : List α) :
    ∃ r, maxOf cmp isNull null data = .ok r ∧
      (isNull r = true ↔ ∀ x ∈ data, isNull x = true) ∧
      (isNull r = false → r ∈ data ∧ ∀ x ∈ data, isNull x = false → cmp x r ≠ .greater) := by
  obtain ⟨r, h1, h2, h3, h4⟩ := extremeLoop_spec (cmp := cmp) isNull .less (fun a b => cmp b a ≠ .greater)
    (fun a => by rw [h.refl]; simp) (fun a b c hab hbc => h.trans _ _ _ hbc hab)
    (fun a b _ _ => ⟨h.ordered _ _, fun hc => by rw [hc]; simp,
      fun hc hg => hc ((h.flip _ _).2 hg)⟩) null data
  refine ⟨r, h1, ⟨fun hr => (h3 hr).2, fun hall => ?_⟩, fun hr => ⟨?_, (h4 hr).2⟩⟩
  · rcases h2 with rfl | h2
    · exact hnull
    · exact hall r h2
  · rcases h2 with rfl | h2
    · rw [hnull] at hr; cases hr
    · exact h2

/-- C23: likewise for `min_of`. -/
theorem C23_min_of {cmp : α → α → Cmp} (h : TotalPreorder cmp) (isNull : α → Bool) (null : α)
    (hnull : isNull null = true) (data : List α) :
    ∃ r, minOf cmp isNull null data = .ok r ∧
      (isNull r = true ↔ ∀ x ∈ data, isNull x = true) ∧
      (isNull r = false → r ∈ data ∧ ∀ x ∈ data, isNull x = false → cmp r x ≠ .greater) := by
  obtain ⟨r, h1, h2, h3, h4⟩ := extremeLoop_spec (cmp := cmp) isNull .greater (fun a b => cmp a b ≠ .greater)
    (fun a => by rw [h.refl]; simp) (fun a b c hab hbc => h.trans _ _ _ hab hbc)
    (fun a b _ _ => ⟨h.ordered _ _, fun hc => by rw [(h.flip _ _).2 hc]; simp,
      fun hc => hc⟩) null data
  refine ⟨r, h1, ⟨fun hr => (h3 hr).2, fun hall => ?_⟩, fun hr => ⟨?_, (h4 hr).2⟩⟩
  · rcases h2 with rfl | h2
    · exact hnull
    · exact hall r h2
  · rcases h2 with rfl | h2
    · rw [hnull] at hr; cases hr
    · exact h2

example : maxOf (fun a b : Option Int => cmpInt (a.getD 0) (b.getD 0)) Option.isNone none
    [none, some 3, none, some 7, some 5] = .ok (some 7) := by decide +kernel

/-! ## C73: the documentation says that elements unordered with the first one are ignored -/

/-- A comparison under which even and odd integers are unordered. -/
def cmpParity (a b : Int) : Cmp := if a % 2 = b % 2 then cmpInt a b else .unordered

/-- C73 is false: an element that is unordered with the first one makes `max_of` throw. -/
theorem C73_counterexample : ¬ ∀ (cmp : Int → Int → Cmp) (x : Int) (xs : List Int),
    (∀ a, cmp a a = .equal) →
    maxOf cmp (fun _ => false) x (x :: xs) =
      maxOf cmp (fun _ => false) x (x :: xs.filter fun y => cmp x y ≠ .unordered) := by
  intro h
  have := h cmpParity 1 [2, 3] (by intro a; simp [cmpParity, cmpInt])
  revert this
  decide +kernel

/-- C73 holds when all elements are ordered (then nothing is to be ignored).  Missing: unordered
elements, where the claim is false. -/
theorem C73_ignore_unordered_partial {cmp : α → α → Cmp} (h : TotalPreorder cmp) (isNull : α → Bool)
    (null x : α) (xs : List α) :
    maxOf cmp isNull null (x :: xs) =
      maxOf cmp isNull null (x :: xs.filter fun y => cmp x y ≠ .unordered) := by
  rw [List.filter_eq_self.2 (by intro a _; simpa using h.ordered x a)]

example : TotalPreorder cmpInt := cmpInt_preorder

/-! ## C74: `is_sorted` -/

/-- C74: `is_sorted` is true iff no adjacent pair is descending, with a comparator under which all
elements are ordered. -/
theorem C74_is_sorted {cmp : α → α → Cmp} (h : TotalPreorder cmp) (data : List α) :
    ∃ r, isSorted cmp data = .ok r ∧ (r = true ↔ data.Pairwise fun a b => cmp a b ≠ .greater) := by
  have key : ∀ (l : List α) (p : α), ∃ r, isSortedLoop cmp p l = .ok r ∧
      (r = true ↔ (p :: l).Pairwise fun a b => cmp a b ≠ .greater) := by
    intro l
    induction l with
    | nil => intro p; exact ⟨true, rfl, by simp⟩
    | cons x xs ih =>
      intro p
      unfold isSortedLoop
      rw [compareTotal_ok h]
      simp only [Res.bind]
      split
      · next hg =>
        refine ⟨false, rfl, by simp; intro hh; exact absurd hg hh⟩
      · next hg =>
        obtain ⟨r, h1, h2⟩ := ih x
        refine ⟨r, h1, ?_⟩
        rw [h2]
        constructor
        · intro hp
          refine List.pairwise_cons.2 ⟨fun y hy => ?_, hp⟩
          rcases List.mem_cons.1 hy with rfl | hy
          · exact hg
          · exact h.trans _ _ _ hg ((List.pairwise_cons.1 hp).1 y hy)
        · intro hp; exact (List.pairwise_cons.1 hp).2
  cases data with
  | nil => exact ⟨true, rfl, by simp⟩
  | cons x xs =>
    unfold isSorted
    simp only [compareTotal_ok h, h.refl, Res.bind]
    simpa using key xs x

/-- C74: the documented result for unordered elements, `false`, is never returned: the function
throws. -/
theorem C74_counterexample : ¬ ∀ (cmp : Int → Int → Cmp) (x y : Int), (∀ a, cmp a a = .equal) →
    cmp x y = .unordered → isSorted cmp [x, y] = .ok false := by
  intro h
  have := h cmpParity 1 2 (by intro a; simp [cmpParity, cmpInt]) (by decide)
  revert this
  decide +kernel

example : isSorted cmpInt [1, 2, 2, 5] = .ok true ∧ isSorted cmpInt [1, 3, 2] = .ok false := by
  decide +kernel

end Asteria.ArrayLib
