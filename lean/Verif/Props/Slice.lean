import Verif.Model.Slice
import Mathlib.Tactic.NormNum

/-!
# Properties of slicing (C10, C17)

The specification: `f` is `from`, or `from + size` if `from` is negative; the slice consists of the
elements whose index lies in `[f, f + length)`, or in `[f, ∞)` without a length.
-/

namespace Asteria.Slice

/-- A value of type `optV_integer`: any 64-bit integer, or absent. -/
def OptI64 (o : Option Int) : Prop := ∀ v, o = some v → -2 ^ 63 ≤ v ∧ v ≤ 2 ^ 63 - 1

/-- Does index `i` belong to the slice of a text of `size` elements? -/
def inSlice (size : Nat) (from? length : Option Int) (i : Nat) : Bool :=
  let f := from?.getD 0
  let f := if f < 0 then f + size else f
  decide (f ≤ i) && length.all (fun l => decide ((i : Int) < f + l))

theorem sliceFrom_spec (slen tb : Nat) (h : tb ≤ slen) (length : Option Int) :
    ∃ e, doSliceFrom slen tb length = .ok (tb, e) ∧ tb ≤ e ∧ e ≤ slen ∧
      ∀ i, i < slen → (i < e ↔ length.all (fun l => decide ((i : Int) < tb + l)) = true ∨ i < tb) := by
  unfold doSliceFrom
  cases length with
  | none => exact ⟨slen, rfl, h, Nat.le_refl _, fun i hi => by simp [hi]⟩
  | some l =>
    simp only [Option.all_some]
    split
    · exact ⟨slen, rfl, h, Nat.le_refl _, fun i hi => by simp; omega⟩
    · split
      · exact ⟨tb, rfl, Nat.le_refl _, h, fun i hi => by simp; omega⟩
      · unfold iter
        rw [if_pos (by omega)]
        exact ⟨_, rfl, by omega, by omega, fun i hi => by simp; omega⟩

/-- C10: for every 64-bit `from` and `length`, `do_slice` returns iterators into the text (no overflow,
nothing out of bounds), and they enclose exactly the indices of the slice. -/
theorem C10_slice_range (slen : Nat) (hs : (slen : Int) ≤ 2 ^ 63 - 1) (from? length : Option Int)
    (hf : OptI64 from?) (hl : OptI64 length) :
    ∃ b e, doSlice slen from? length = .ok (b, e) ∧ b ≤ e ∧ e ≤ slen ∧
      ∀ i, i < slen → ((b ≤ i ∧ i < e) ↔ inSlice slen from? length i = true) := by
  have hf' : -2 ^ 63 ≤ from?.getD 0 ∧ from?.getD 0 ≤ 2 ^ 63 - 1 := by
    cases from? with
    | none => simp
    | some v => exact hf v rfl
  unfold doSlice inSlice
  generalize from?.getD 0 = f at *
  simp only
  norm_num at hf' hs
  split
  · next h => exact ⟨slen, slen, rfl, Nat.le_refl _, Nat.le_refl _, fun i hi => by
      rw [if_neg (by omega)]; simp; omega⟩
  next h1 =>
  split
  · next h2 =>
    unfold iter
    rw [if_pos (by omega)]
    obtain ⟨e, he, h3, h4, h5⟩ := sliceFrom_spec slen f.toNat (by omega) length
    refine ⟨f.toNat, e, he, h3, h4, fun i hi => ?_⟩
    rw [h5 i hi, if_neg (by omega), show ((f.toNat : Nat) : Int) = f by omega]
    simp only [Bool.and_eq_true, decide_eq_true_eq]
    constructor
    · rintro ⟨h, h' | h'⟩
      · exact ⟨by omega, h'⟩
      · omega
    · rintro ⟨h, h'⟩; exact ⟨by omega, Or.inl h'⟩
  next h2 =>
  unfold addI64
  rw [if_pos (by norm_num; omega)]
  simp only [Res.bind]
  rw [if_pos (show f < 0 by omega)]
  split
  · next h3 =>
    unfold iter
    rw [if_pos (by omega)]
    obtain ⟨e, he, h3, h4, h5⟩ := sliceFrom_spec slen (f + slen).toNat (by omega) length
    refine ⟨(f + slen).toNat, e, he, h3, h4, fun i hi => ?_⟩
    rw [h5 i hi, show (((f + slen).toNat : Nat) : Int) = f + slen by omega]
    simp only [Bool.and_eq_true, decide_eq_true_eq]
    constructor
    · rintro ⟨h, h' | h'⟩
      · exact ⟨by omega, h'⟩
      · omega
    · rintro ⟨h, h'⟩; exact ⟨by omega, Or.inl h'⟩
  next h3 =>
  cases length with
  | none => exact ⟨0, slen, rfl, by omega, Nat.le_refl _, fun i hi => by simp; omega⟩
  | some l =>
    have := hl l rfl
    norm_num at this
    simp only
    split
    · exact ⟨0, 0, rfl, by omega, by omega, fun i hi => by simp; omega⟩
    · rw [if_pos (by norm_num; omega)]
      obtain ⟨e, he, h3, h4, h5⟩ := sliceFrom_spec slen 0 (by omega) (some (f + slen + l))
      refine ⟨0, e, he, h3, h4, fun i hi => ?_⟩
      rw [h5 i hi]
      simp; omega

/-- The position `v` clamped to `[0, size]`. -/
def clampPos (size : Nat) (v : Int) : Nat := (max 0 (min v size)).toNat

/-- `from`, counted from the end if negative. -/
def fromPos (size : Nat) (from? : Option Int) : Int :=
  let f := from?.getD 0
  if f < 0 then f + size else f

/-- Where the slice begins. -/
def sliceBegin (size : Nat) (from? : Option Int) : Nat := clampPos size (fromPos size from?)

/-- Where the slice ends. -/
def sliceEnd (size : Nat) (from? length : Option Int) : Nat :=
  match length with
  | none => size
  | some l => max (sliceBegin size from?) (clampPos size (fromPos size from? + l))

theorem sliceBegin_le (size : Nat) (from? : Option Int) : sliceBegin size from? ≤ size := by
  unfold sliceBegin clampPos; omega
theorem sliceBegin_le_end (size : Nat) (from? length : Option Int) :
    sliceBegin size from? ≤ sliceEnd size from? length := by
  unfold sliceEnd; split
  · exact sliceBegin_le _ _
  · omega
theorem sliceEnd_le (size : Nat) (from? length : Option Int) :
    sliceEnd size from? length ≤ size := by
  unfold sliceEnd; split
  · omega
  · have := sliceBegin_le size from?
    have : ∀ v, clampPos size v ≤ size := by intro v; unfold clampPos; omega
    have := this (fromPos size from? + ‹Int›)
    omega

theorem sliceFrom_bounds (slen tb : Nat) (h : tb ≤ slen) (length : Option Int) :
    doSliceFrom slen tb length = .ok (tb, match length with
      | none => slen | some l => max tb (clampPos slen (tb + l))) := by
  unfold doSliceFrom clampPos
  cases length with
  | none => rfl
  | some l =>
    simp only
    split
    · congr 2; omega
    · split
      · congr 2; omega
      · unfold iter
        rw [if_pos (by omega)]
        show Res.ok _ = _
        congr 2; omega

/-- C10: the iterators `do_slice` returns, also for an empty slice. -/
theorem C10_slice_bounds (slen : Nat) (hs : (slen : Int) ≤ 2 ^ 63 - 1) (from? length : Option Int)
    (hf : OptI64 from?) (hl : OptI64 length) :
    doSlice slen from? length = .ok (sliceBegin slen from?, sliceEnd slen from? length) := by
  have hf' : -2 ^ 63 ≤ from?.getD 0 ∧ from?.getD 0 ≤ 2 ^ 63 - 1 := by
    cases from? with
    | none => simp
    | some v => exact hf v rfl
  unfold doSlice sliceEnd sliceBegin fromPos
  generalize from?.getD 0 = f at *
  simp only
  norm_num at hf' hs
  split
  · next h =>
    have e : clampPos slen f = slen := by unfold clampPos; omega
    rw [if_neg (by omega), e]
    cases length with
    | none => rfl
    | some l => simp only; congr 2; unfold clampPos; omega
  next h1 =>
  split
  · next h2 =>
    unfold iter
    rw [if_pos (by omega), if_neg (by omega)]
    have e : clampPos slen f = f.toNat := by unfold clampPos; omega
    simp only [Res.bind]
    rw [sliceFrom_bounds _ _ (by omega), e, show ((f.toNat : Nat) : Int) = f by omega]
  next h2 =>
  unfold addI64
  rw [if_pos (by norm_num; omega)]
  simp only [Res.bind]
  rw [if_pos (show f < 0 by omega)]
  split
  · next h3 =>
    unfold iter
    rw [if_pos (by omega)]
    have e : clampPos slen (f + slen) = (f + slen).toNat := by unfold clampPos; omega
    simp only [Res.bind]
    rw [sliceFrom_bounds _ _ (by omega), e, show (((f + slen).toNat : Nat) : Int) = f + slen by omega]
  next h3 =>
  have e : clampPos slen (f + slen) = 0 := by unfold clampPos; omega
  rw [e]
  cases length with
  | none => rfl
  | some l =>
    have := hl l rfl
    norm_num at this
    simp only
    split
    · congr 2; unfold clampPos; omega
    · rw [if_pos (by norm_num; omega)]
      simp only [sliceFrom_bounds _ _ (Nat.zero_le _)]
      congr 3; simp

example : doSlice 5 (some (-7)) (some 3) = .ok (0, 1) ∧ doSlice 5 (some 9) (some (-3)) = .ok (5, 5) := by
  decide

theorem sub_eq_filter {α} (l : List α) (b e : Nat) (P : Nat → Bool)
    (hP : ∀ i, i < l.length → ((b ≤ i ∧ i < e) ↔ P i = true)) :
    sub l b e = (l.zipIdx.filter fun x => P x.2).map Prod.fst := by
  unfold sub
  have key : ∀ (l : List α) (k : Nat), (∀ i, k ≤ i → i < k + l.length → ((b ≤ i ∧ i < e) ↔ P i = true)) →
      ((l.zipIdx k).filter fun x => P x.2).map Prod.fst = (l.take (e - k)).drop (b - k) := by
    intro l
    induction l with
    | nil => intro k _; simp
    | cons x xs ih =>
      intro k h
      have ih' := ih (k + 1) (fun i h1 h2 => h i (by omega) (by simp; omega))
      rw [List.zipIdx_cons, List.filter_cons]
      have hk := h k (Nat.le_refl _) (by simp)
      by_cases hp : P k = true
      · have := hk.2 hp
        simp only [hp, if_true, List.map_cons, ih']
        rw [show e - k = (e - (k + 1)) + 1 by omega, show b - k = 0 by omega,
          show b - (k + 1) = 0 by omega]
        simp
      · have hn : ¬ (b ≤ k ∧ k < e) := fun hc => hp (hk.1 hc)
        simp only [hp, Bool.false_eq_true, if_false, ih']
        by_cases hb : b ≤ k
        · rw [show e - k = 0 by omega, show e - (k + 1) = 0 by omega]; simp
        · rw [show b - k = (b - (k + 1)) + 1 by omega]
          by_cases hek : e ≤ k
          · rw [show e - k = 0 by omega, show e - (k + 1) = 0 by omega]; simp
          · rw [show e - k = (e - (k + 1)) + 1 by omega]; simp
  have := key l 0 (fun i _ h => hP i (by omega))
  simpa using this.symm

/-- C10: `slice(text, from, length)` returns exactly the elements whose index lies in the slice, in
order, for strings and arrays. -/
theorem C10_slice {α} (text : List α) (hs : (text.length : Int) ≤ 2 ^ 63 - 1) (from? length : Option Int)
    (hf : OptI64 from?) (hl : OptI64 length) :
    slice text from? length =
      .ok ((text.zipIdx.filter fun x => inSlice text.length from? length x.2).map Prod.fst) := by
  obtain ⟨b, e, h, hbe, hel, hi⟩ := C10_slice_range text.length hs from? length hf hl
  unfold slice
  rw [h]
  simp only [Res.map]
  rw [← sub_eq_filter text b e _ hi]
  congr 1
  split
  · rfl
  · next hne =>
    have : b = 0 ∧ e = text.length := by omega
    obtain ⟨rfl, rfl⟩ := this
    simp [sub]

example : OptI64 (some (-2 ^ 63)) ∧ OptI64 (some (2 ^ 63 - 1)) ∧ OptI64 none := by
  refine ⟨?_, ?_, ?_⟩ <;> intro v h <;> cases h <;> decide
example : slice [10, 11, 12, 13, 14] (some (-4)) (some 2) = .ok [11, 12] ∧
    slice [10, 11, 12] (some (-2 ^ 63)) (some (2 ^ 63 - 1)) = .ok [10, 11] ∧
    slice [10, 11, 12] (some (-5)) (some 3) = .ok [10] := by decide

/-! ## C17 -/

/-- C17: `replace_slice` keeps what precedes and what follows the slice, and puts the slice of the
replacement in between.  `pre`, `mid`, `post` decompose the text at the boundaries of its slice. -/
theorem C17_replace_slice {α} (text repl : List α) (hs : (text.length : Int) ≤ 2 ^ 63 - 1)
    (hr : (repl.length : Int) ≤ 2 ^ 63 - 1) (from? length rfrom rlength : Option Int)
    (hf : OptI64 from?) (hl : OptI64 length) (hrf : OptI64 rfrom) (hrl : OptI64 rlength) :
    ∃ pre mid post rmid, text = pre ++ mid ++ post ∧ slice text from? length = .ok mid ∧
      slice repl rfrom rlength = .ok rmid ∧
      (∀ i, i < text.length → ((pre.length ≤ i ∧ i < pre.length + mid.length) ↔
        inSlice text.length from? length i = true)) ∧
      replaceSlice text from? length repl rfrom rlength = .ok (pre ++ rmid ++ post) := by
  obtain ⟨b, e, h, hbe, hel, hi⟩ := C10_slice_range text.length hs from? length hf hl
  obtain ⟨rb, re, h', hbe', hel', hi'⟩ := C10_slice_range repl.length hr rfrom rlength hrf hrl
  have h2 := C10_slice text hs from? length hf hl
  have h2' := C10_slice repl hr rfrom rlength hrf hrl
  rw [← sub_eq_filter text b e _ hi] at h2
  rw [← sub_eq_filter repl rb re _ hi'] at h2'
  have hmid : (sub text b e).length = e - b := by simp [sub]; omega
  refine ⟨sub text 0 b, sub text b e, sub text e text.length, sub repl rb re, ?_, h2, h2', ?_, ?_⟩
  · unfold sub
    simp only [List.drop_zero, List.take_length]
    have : (text.take e).drop b ++ text.drop e = text.drop b := by
      conv => rhs; rw [← List.take_append_drop e text]
      rw [List.drop_append_of_le_length (by simp; omega)]
    rw [List.append_assoc, this, List.take_append_drop]
  · intro i hii
    rw [hmid, ← hi i hii]
    simp [sub]; omega
  · unfold replaceSlice
    have : doSlice repl.length (some (rfrom.getD 0)) rlength = doSlice repl.length rfrom rlength := by
      unfold doSlice; simp
    rw [h, this, h']
    rfl

theorem overwrite_eq {α} (l : List α) (off : Nat) (xs : List α) (h : off + xs.length ≤ l.length) :
    overwrite l off xs = l.take off ++ xs ++ l.drop (off + xs.length) := by
  induction xs generalizing l off with
  | nil => simp [overwrite]
  | cons x xs ih =>
    simp only [List.length_cons] at h
    rw [overwrite, ih _ _ (by simp; omega)]
    rw [List.take_set, List.drop_set]
    rw [if_pos (by omega)]
    have e1 : (l.take (off + 1)).set off x = l.take off ++ [x] := by
      rw [List.take_add_one, List.getElem?_eq_getElem (by omega)]
      rw [List.set_append_right _ _ (by simp)]
      simp [Nat.min_eq_left (show off ≤ l.length by omega)]
    rw [e1]
    simp only [List.append_assoc, List.cons_append, List.nil_append, List.length_cons]
    rw [show off + 1 + xs.length = off + (xs.length + 1) by omega]

/-- C17: the in-place algorithm for arrays computes the same result as the one for strings. -/
theorem C17_array_agrees {α} (data repl : List α) (hs : (data.length : Int) ≤ 2 ^ 63 - 1)
    (hr : (repl.length : Int) ≤ 2 ^ 63 - 1) (from? length rfrom rlength : Option Int)
    (hf : OptI64 from?) (hl : OptI64 length) (hrf : OptI64 rfrom) (hrl : OptI64 rlength) :
    arrayReplaceSlice data from? length repl rfrom rlength =
      replaceSlice data from? length repl rfrom rlength := by
  obtain ⟨b, e, h, hbe, hel, -⟩ := C10_slice_range data.length hs from? length hf hl
  obtain ⟨rb, re, h', hbe', hel', -⟩ := C10_slice_range repl.length hr rfrom rlength hrf hrl
  have h'' : doSlice repl.length (some (rfrom.getD 0)) rlength = .ok (rb, re) := by
    rw [← h']; unfold doSlice; simp
  unfold arrayReplaceSlice replaceSlice
  rw [h, h'']
  simp only [Res.bind, Res.map]
  congr 1
  have hlen : ∀ x y, x ≤ y → y ≤ repl.length → (sub repl x y).length = y - x := by
    intro x y h1 h2; simp [sub]; omega
  split
  · next hd =>
    have hx := hlen rb re hbe' hel'
    rw [overwrite_eq _ _ _ (by rw [hx]; omega), hx]
    have l1 : (data.take b ++ sub repl rb re).length = b + (re - rb) := by simp [hx]; omega
    generalize hA : data.take b ++ sub repl rb re = A at *
    rw [← l1, List.take_left, l1,
      show b + (e - b) = (b + (re - rb)) + (e - b - (re - rb)) by omega, ← List.drop_drop]
    rw [← l1, List.drop_left, l1, List.drop_drop, ← hA]
    simp only [sub, List.drop_zero, List.take_length]
    congr 2; omega
  · next hd =>
    have hx := hlen rb (rb + (e - b)) (by omega) (by omega)
    rw [overwrite_eq _ _ _ (by rw [hx]; omega), hx]
    have l1 : (data.take b ++ sub repl rb (rb + (e - b))).length = b + (rb + (e - b) - rb) := by
      simp [hx]; omega
    rw [show b + (e - b) = b + (rb + (e - b) - rb) by omega]
    rw [← l1, List.take_left, List.drop_left, l1]
    have : sub repl rb (rb + (e - b)) ++ sub repl (rb + (e - b)) (rb + (re - rb)) = sub repl rb re := by
      unfold sub
      rw [show rb + (re - rb) = re by omega]
      conv => rhs; rw [← List.take_append_drop (rb + (e - b)) (repl.take re)]
      rw [List.drop_append_of_le_length (by simp; omega), List.take_take,
        Nat.min_eq_left (by omega)]
    rw [List.append_assoc, List.append_assoc, ← List.append_assoc (sub repl _ _), this]
    simp only [sub, List.drop_zero, List.take_length, List.append_assoc]
    congr 3; omega

example : replaceSlice [1, 2, 3, 4, 5] (some 1) (some 2) [7, 8, 9] (some 0) none =
    .ok [1, 7, 8, 9, 4, 5] ∧
    arrayReplaceSlice [1, 2, 3, 4, 5] (some 1) (some 2) [7, 8, 9] none none =
    .ok [1, 7, 8, 9, 4, 5] ∧
    arrayReplaceSlice [1, 2, 3, 4, 5] (some (-4)) (some 3) [7, 8, 9] (some 1) (some 1) =
    .ok [1, 8, 5] := by decide

end Asteria.Slice
