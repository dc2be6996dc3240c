import Verif.Proof.Subscript

/-!
# Properties of subscripts and references: C41, C42, C43, C44, C70
-/

namespace Asteria.Subscript

open ArrayLib (probeOrigin probeOrigin_lt)

/-! ## C41: index wrapping -/

/-- **C41** (partial): an index that is not one of the two extreme values applied to an empty array is
resolved without overflow.  `0 ≤ i < n` and `-n ≤ i < 0` need no new element.  Otherwise exactly as many
elements are to be added as make the index valid, at the end for `i ≥ 0` and at the beginning for
`i < 0`; and the index resolved is `i`, or counts from the end.

Missing: `i = INT64_MAX` and `i = INT64_MIN` with `n = 0`, see `C41_false`. -/
theorem C41_partial (n : Nat) (i : Int) (hn : n ≤ 2 ^ 63 - 1) (hi : -2 ^ 63 ≤ i ∧ i ≤ 2 ^ 63 - 1)
    (hx : n ≠ 0 ∨ (i ≠ 2 ^ 63 - 1 ∧ i ≠ -2 ^ 63)) :
    ∃ w, wrap n i = .ok w ∧ w.rindex < w.nprepend + n + w.nappend ∧
      (0 ≤ i ∧ i < n → w = ⟨0, 0, i.toNat⟩) ∧
      (-(n : Int) ≤ i ∧ i < 0 → w = ⟨0, 0, (n + i).toNat⟩) ∧
      (n ≤ i → w.nprepend = 0 ∧ n + w.nappend = i + 1 ∧ w.rindex = i) ∧
      (i < -(n : Int) → w.nappend = 0 ∧ w.nprepend + n = -i ∧ w.rindex = 0) := by
  obtain ⟨w, hw⟩ := wrap_def (n := n) (i := i) (by unfold fits; omega) (by unfold fits; omega) hx
  obtain ⟨_, _, h1, h2⟩ := wrap_ok hw
  obtain ⟨a, b, c⟩ := w
  simp only at *
  refine ⟨_, hw, ?_⟩
  simp only [Wrapped.mk.injEq]
  omega

/-- Non-vacuity: `-5` into an array of three elements needs two more at the beginning. -/
example : wrap 3 (-5) = .ok ⟨0, 2, 0⟩ ∧ wrap 3 (-1) = .ok ⟨0, 0, 2⟩ ∧ wrap 3 4 = .ok ⟨2, 0, 4⟩ := by decide

/-- **C41**, negation of the full statement: both extreme indices overflow with an empty array, and these
are the only cases. -/
theorem C41_false (n : Nat) (i : Int) (hn : n ≤ 2 ^ 63 - 1) (hi : -2 ^ 63 ≤ i ∧ i ≤ 2 ^ 63 - 1) :
    wrap n i = .ub ↔ n = 0 ∧ (i = 2 ^ 63 - 1 ∨ i = -2 ^ 63) := by
  constructor
  · intro h
    by_contra hc
    obtain ⟨w, hw⟩ := wrap_def (n := n) (i := i) (by unfold fits; omega) (by unfold fits; omega) (by omega)
    rw [hw] at h
    cases h
  · rintro ⟨rfl, rfl | rfl⟩ <;> decide

/-- **C41**: the element that reading an array finds: the one at `i`, or the one at `n + i` for a negative `i`, and none for any other
index. -/
theorem C41_read (l : List Value) (i : Int) (hn : l.length ≤ 2 ^ 63 - 1) (hi : -2 ^ 63 ≤ i ∧ i ≤ 2 ^ 63 - 1)
    (hx : l.length ≠ 0 ∨ (i ≠ 2 ^ 63 - 1 ∧ i ≠ -2 ^ 63)) :
    (0 ≤ i ∧ i < l.length → applyRead (.index i) (.arr l) = .ok (some (.elem i.toNat)))
    ∧ (-(l.length : Int) ≤ i ∧ i < 0 → applyRead (.index i) (.arr l) = .ok (some (.elem (l.length + i).toNat)))
    ∧ (l.length ≤ i ∨ i < -(l.length : Int) → applyRead (.index i) (.arr l) = .ok none) := by
  obtain ⟨w, hw, _, h1, h2, h3, h4⟩ := C41_partial l.length i hn hi hx
  have e : applyRead (.index i) (.arr l) = if w.nprepend ≠ 0 ∨ w.nappend ≠ 0 then .ok none else .ok (some (.elem w.rindex)) := by
    simp only [applyRead, hw, Res.bind]
  rw [e]
  refine ⟨fun h => ?_, fun h => ?_, fun h => ?_⟩
  · rw [h1 h]; simp
  · rw [h2 h]; simp
  · rcases h with h | h
    · have := h3 h
      rw [if_pos (by omega)]
    · have := h4 h
      rw [if_pos (by omega)]

example : applyRead (.index (-1)) (.arr [.null, .int 7]) = .ok (some (.elem 1)) ∧ applyRead (.index 2) (.arr [.null, .int 7]) = .ok none :=
  ⟨(C41_read [.null, .int 7] (-1) (by simp) (by omega) (by simp)).2.1 (by simp), (C41_read [.null, .int 7] 2 (by simp) (by omega) (by simp)).2.2 (by simp)⟩

/-- Non-vacuity: both directions occur. -/
example : wrap 0 9223372036854775807 = .ub ∧ wrap 1 9223372036854775807 ≠ .ub := by decide

/-! ## C42: reading after writing -/

theorem assign_cons {lim : Nat} {x : Value} {s : Sub} {ss : List Sub} {v v' : Value}
    (h : assignPath lim x (s :: ss) v = (v', .ok ())) :
    ∃ v₁ p c c', applyOpen lim s v = (v₁, .ok p) ∧ get v₁ p = some c ∧
      assignPath lim x ss c = (c', .ok ()) ∧ v' = put v₁ p c' := by
  simp only [assignPath] at h
  rcases ho : applyOpen lim s v with ⟨v₁, r⟩
  rw [ho] at h
  cases r with
  | throw => simp at h
  | ub => simp at h
  | ok p =>
    simp only at h
    cases hg : get v₁ p with
    | none => rw [hg] at h; simp at h
    | some c =>
      rw [hg] at h
      simp only [Prod.mk.injEq] at h
      exact ⟨v₁, p, c, (assignPath lim x ss c).1, rfl, hg, by rw [← h.2], h.1.symm⟩

theorem readPath_cons {s : Sub} {ss : List Sub} {v : Value} {p : Loc} {x : Value}
    (h : applyRead s v = .ok (some p)) (hx : get v p = some x) :
    readPath (s :: ss) v = readPath ss x := by
  simp only [readPath, h, Res.bind, hx]

/-- **C42**: after a successful assignment through a chain of subscripts, reading the same chain gives the
value assigned. -/
theorem C42_read_after_write (lim : Nat) (hlim : lim < 2 ^ 63) (x : Value) (path : List Sub) (v v' : Value)
    (h : assignPath lim x path v = (v', .ok ())) : readPath path v' = .ok x := by
  induction path generalizing v v' with
  | nil =>
    simp only [assignPath, Prod.mk.injEq] at h
    simp [readPath, h.1]
  | cons s ss ih =>
    obtain ⟨v₁, p, c, c', h1, h2, h3, rfl⟩ := assign_cons h
    obtain ⟨g1, g2⟩ := read_put c' (open_read hlim h1)
    rw [readPath_cons g1 g2]
    exact ih _ _ h3

/-- Non-vacuity: `v[-3]["k"][$] = 7` with `v = [1]`. -/
example : ∃ v', assignPath 100 (.int 7) [.index (-3), .key [107], .tail] (.arr [.int 1]) = (v', .ok ()) ∧
    v' = .arr [.obj [([107], .arr [.int 7])], .null, .int 1] := ⟨_, rfl, rfl⟩

/-- Two subscripts that address different elements, whatever is added to the array; the index of the second
is an `int64_t`. -/
inductive Apart : Sub → Sub → Prop
  | key {k k' : Bytes} : k ≠ k' → Apart (.key k) (.key k')
  | front {i j : Int} : 0 ≤ i → 0 ≤ j → j < 2 ^ 63 → i ≠ j → Apart (.index i) (.index j)
  | back {i j : Int} : i < 0 → j < 0 → -2 ^ 63 ≤ j → i ≠ j → Apart (.index i) (.index j)

theorem readPath_null (q : List Sub) : readPath q .null = .ok .null := by
  cases q with
  | nil => rfl
  | cons s ss => cases s <;> simp [readPath, applyRead]

/-- An index read from an array. -/
theorem readPath_index {i : Int} {q : List Sub} {l : List Value} {y : Value}
    (h : readPath (.index i :: q) (.arr l) = .ok y) :
    fits l.length ∧ fits i ∧
    ((∃ e : Value, (if 0 ≤ i then l[i.toNat]? else if -(l.length : Int) ≤ i then l[(i + l.length).toNat]?
        else none) = some e ∧ readPath q e = .ok y) ∨
      ((0 ≤ i → (l.length : Int) ≤ i) ∧ (i < 0 → i < -(l.length : Int)) ∧ y = .null)) := by
  simp only [readPath, applyRead] at h
  cases hw : wrap l.length i with
  | throw => rw [hw] at h; simp at h
  | ub => rw [hw] at h; simp at h
  | ok w =>
    rw [hw] at h
    obtain ⟨hn, hi, h1, h2⟩ := wrap_ok hw
    refine ⟨hn, hi, ?_⟩
    simp only [Res.bind] at h
    by_cases hc : w.nprepend ≠ 0 ∨ w.nappend ≠ 0
    · rw [if_pos hc] at h
      simp only [Res.ok.injEq] at h
      right
      refine ⟨fun hp => ?_, fun hp => ?_, h.symm⟩
      · have := h1 hp; omega
      · have := h2 hp; omega
    · rw [if_neg hc] at h
      simp only [get] at h
      left
      cases hg : l[w.rindex]? with
      | none => rw [hg] at h; simp at h
      | some e =>
        rw [hg] at h
        refine ⟨e, ?_, h⟩
        split
        · rename_i hp
          rw [← (h1 hp).2.1, hg]
        · rename_i hp
          have := h2 (by omega)
          rw [if_pos (by omega), ← this.2.2, hg]

theorem readPath_index_of {i : Int} {q : List Sub} {l : List Value} (hn : fits l.length) {j : Nat} {e : Value}
    (hj : (0 ≤ i ∧ j = i.toNat) ∨ (i < 0 ∧ -(l.length : Int) ≤ i ∧ j = (i + l.length).toNat))
    (he : l[j]? = some e) : readPath (.index i :: q) (.arr l) = readPath q e := by
  have hlt : j < l.length := (List.getElem?_eq_some_iff.1 he).1
  refine readPath_cons (p := .elem j) ?_ he
  simp only [applyRead]
  rw [wrap_in hn (by omega) (by omega)]
  simp only [Res.bind]
  rw [if_neg (by omega)]
  congr 3
  split <;> omega

theorem readPath_index_none {i : Int} {q : List Sub} {l : List Value} (hn : fits l.length) (hi : fits i)
    (h0 : l.length ≠ 0)
    (hj : (0 ≤ i ∧ (l.length : Int) ≤ i) ∨ i < -(l.length : Int)) :
    readPath (.index i :: q) (.arr l) = .ok .null := by
  simp only [readPath, applyRead]
  obtain ⟨w, hw⟩ := wrap_def hn hi (.inl h0)
  obtain ⟨_, _, h1, h2⟩ := wrap_ok hw
  rw [hw]
  simp only [Res.bind]
  rw [if_pos (by omega)]

/-- Before and after `apply_open`, the element found is the same, or it is null. -/
theorem open_child {lim : Nat} {s : Sub} {q : List Sub} {v v₁ c y : Value} {p : Loc}
    (h : applyOpen lim s v = (v₁, .ok p)) (hc : get v₁ p = some c) (hy : readPath (s :: q) v = .ok y) :
    readPath q c = .ok y := by
  cases s with
  | index i =>
    obtain ⟨l, a, b, j, hl, hn, hi, rfl, rfl, hle, hj, h1, h2⟩ := open_index h
    simp only [get] at hc
    cases v with
    | null =>
      cases hl
      rw [readPath_null] at hy
      cases hy
      simp only [List.append_nil, List.replicate_append_replicate] at hc
      rw [List.getElem?_replicate] at hc
      split at hc
      · cases hc; exact readPath_null _
      · cases hc
    | arr l₁ =>
      cases hl
      obtain ⟨_, _, ⟨e, he, hq⟩ | ⟨g1, g2, rfl⟩⟩ := readPath_index hy
      · split at he
        · rename_i hp
          obtain ⟨rfl, hb, rfl⟩ := h1 hp
          have hlt : i.toNat < l.length := (List.getElem?_eq_some_iff.1 he).1
          rw [List.replicate_zero, List.nil_append, List.getElem?_append_left hlt, he] at hc
          cases hc; exact hq
        · split at he
          · rename_i hp hp2
            obtain ⟨rfl, ha, rfl⟩ := h2 (by omega)
            have ha0 : a = 0 := by omega
            subst ha0
            rw [List.replicate_zero, List.nil_append, List.append_nil, he] at hc
            cases hc; exact hq
          · cases he
      · rcases Int.lt_or_le i 0 with hp | hp
        · obtain ⟨rfl, ha, rfl⟩ := h2 hp
          have := g2 hp
          rw [List.replicate_zero, List.append_nil, List.getElem?_append_left (by simp; omega),
            List.getElem?_replicate, if_pos (by omega)] at hc
          cases hc; exact readPath_null _
        · obtain ⟨rfl, hb, rfl⟩ := h1 hp
          have := g1 hp
          rw [List.replicate_zero, List.nil_append, List.getElem?_append_right (by omega),
            List.getElem?_replicate, if_pos (by omega)] at hc
          cases hc; exact readPath_null _
    | _ => simp [asArray] at hl
  | key k =>
    obtain ⟨l, l', hl, rfl, rfl, hk⟩ := open_key h
    simp only [get] at hc
    have hd : y = .null ∧ c = .null ∨ readPath q c = .ok y := by
      cases v with
      | null =>
        cases hl
        rw [readPath_null] at hy
        cases hy
        rcases hk with ⟨⟨x, hx⟩, rfl⟩ | ⟨_, rfl⟩
        · simp [lookup] at hx
        · simp [lookup] at hc
          exact .inl ⟨rfl, hc.symm⟩
      | obj l₁ =>
        cases hl
        simp only [readPath, applyRead, Res.bind] at hy
        rcases hk with ⟨⟨x, hx⟩, rfl⟩ | ⟨hx, rfl⟩
        · rw [hx] at hy hc
          cases hc
          simp only [Option.map_some, get, hx] at hy
          exact .inr hy
        · rw [hx] at hy
          simp only [Option.map_none, Res.ok.injEq] at hy
          rw [lookup_append, hx] at hc
          simp [lookup] at hc
          exact .inl ⟨hy.symm, hc.symm⟩
      | _ => simp [asObject] at hl
    rcases hd with ⟨rfl, rfl⟩ | hd
    · exact readPath_null _
    · exact hd
  | head =>
    obtain ⟨l, hl, rfl, rfl, _⟩ := open_head h
    simp only [get, List.getElem?_cons_zero, Option.some.injEq] at hc
    subst hc
    cases v with
    | null =>
      cases hl
      rw [readPath_null] at hy
      cases hy
      exact readPath_null _
    | arr l₁ =>
      cases hl
      cases l with
      | nil =>
        simp only [readPath, applyRead, List.length_nil, if_true, Res.bind, Res.ok.injEq] at hy
        subst hy
        exact readPath_null _
      | cons a l => simpa [readPath, applyRead, get] using hy
    | _ => simp [asArray] at hl
  | tail =>
    obtain ⟨l, hl, rfl, rfl, _⟩ := open_tail h
    simp only [get] at hc
    rw [List.getElem?_append_right (Nat.le_refl _), Nat.sub_self] at hc
    simp only [List.getElem?_cons_zero, Option.some.injEq] at hc
    subst hc
    cases v with
    | null =>
      cases hl
      rw [readPath_null] at hy
      cases hy
      exact readPath_null _
    | arr l₁ =>
      cases hl
      by_cases h0 : l.length = 0
      · have : l = [] := List.eq_nil_of_length_eq_zero h0
        subst this
        simp only [readPath, applyRead, List.length_nil, if_true, Res.bind, Res.ok.injEq] at hy
        subst hy
        exact readPath_null _
      · simp only [readPath, applyRead, if_neg h0, Res.bind, get] at hy
        rw [List.getLast?_eq_getElem?]
        cases hx : l[l.length - 1]? with
        | none => rw [hx] at hy; simp at hy
        | some e => rw [hx] at hy; exact hy
    | _ => simp [asArray] at hl
  | random seed =>
    obtain ⟨l, j, rfl, rfl, rfl, _, h1⟩ := open_random h
    rwa [readPath_cons h1 hc] at hy

/-- **C42**: a path that leaves the path written to at some point reads the same value before and after
the assignment. -/
theorem C42_frame (lim : Nat) (hlim : lim < 2 ^ 63) (x : Value) (pre : List Sub) (s t : Sub)
    (ss ts : List Sub) (v v' y : Value) (hst : Apart s t)
    (h : assignPath lim x (pre ++ s :: ss) v = (v', .ok ()))
    (hy : readPath (pre ++ t :: ts) v = .ok y) : readPath (pre ++ t :: ts) v' = .ok y := by
  induction pre generalizing v v' with
  | nil =>
    rw [List.nil_append] at *
    obtain ⟨v₁, p, c, c', h1, h2, h3, rfl⟩ := assign_cons h
    cases hst with
    | key hk =>
      rename_i k k'
      obtain ⟨l, l', hl, rfl, rfl, hor⟩ := open_key h1
      simp only [put, readPath, applyRead, Res.bind, lookup_assign, if_neg (Ne.symm hk)]
      have hlk : lookup k' l' = lookup k' l := by
        rcases hor with ⟨_, rfl⟩ | ⟨_, rfl⟩
        · rfl
        · rw [lookup_append]
          simp [lookup, hk]
      rw [hlk]
      cases v with
      | null =>
        cases hl
        rw [readPath_null] at hy
        simpa [lookup] using hy
      | obj l₁ =>
        cases hl
        simp only [readPath, applyRead, Res.bind] at hy
        cases hx : lookup k' l with
        | none => rw [hx] at hy; simpa using hy
        | some e =>
          rw [hx] at hy
          simp only [Option.map_some, get, hx] at hy
          simp only [Option.map_some, get, lookup_assign, if_neg (Ne.symm hk), hlk, hx]
          exact hy
      | _ => simp [asObject] at hl
    | front hi0 hj0 hj1 hij =>
      rename_i i j
      obtain ⟨l, a, b, m, hl, hn, hi, rfl, rfl, hle, hm, g1, -⟩ := open_index h1
      obtain ⟨rfl, hb, rfl⟩ := g1 hi0
      simp only [List.replicate_zero, List.nil_append, put]
      have hfit : fits (((l ++ List.replicate b Value.null).set i.toNat c').length : Nat) := by
        unfold fits at *
        simp only [List.length_set, List.length_append, List.length_replicate]
        omega
      have hnull : (l.length : Int) ≤ j → fits j →
          readPath (.index j :: ts) (.arr ((l ++ List.replicate b Value.null).set i.toNat c')) = .ok .null := by
        intro hlj hfj
        by_cases hlt : j.toNat < l.length + b
        · rw [readPath_index_of hfit (.inl ⟨hj0, rfl⟩) (e := .null), readPath_null]
          rw [List.getElem?_set_ne (by omega), List.getElem?_append_right (by omega),
            List.getElem?_replicate, if_pos (by omega)]
        · exact readPath_index_none hfit hfj
            (by simp only [List.length_set, List.length_append, List.length_replicate]; omega)
            (.inl ⟨hj0, by simp only [List.length_set, List.length_append, List.length_replicate]; omega⟩)
      cases v with
      | null =>
        cases hl
        rw [readPath_null] at hy
        cases hy
        exact hnull (by simpa using hj0) (by unfold fits; omega)
      | arr l₁ =>
        cases hl
        obtain ⟨_, hfj, ⟨e, he, hq⟩ | ⟨k1, k2, rfl⟩⟩ := readPath_index hy
        · rw [if_pos hj0] at he
          have hlt : j.toNat < l.length := (List.getElem?_eq_some_iff.1 he).1
          rw [readPath_index_of hfit (.inl ⟨hj0, rfl⟩) (e := e), hq]
          rw [List.getElem?_set_ne (by omega), List.getElem?_append_left hlt, he]
        · exact hnull (k1 hj0) hfj
      | _ => simp [asArray] at hl
    | back hi0 hj0 hj1 hij =>
      rename_i i j
      obtain ⟨l, a, b, m, hl, hn, hi, rfl, rfl, hle, hm, -, g2⟩ := open_index h1
      obtain ⟨rfl, ha, rfl⟩ := g2 hi0
      simp only [List.replicate_zero, List.append_nil, put]
      have hlen : ((List.replicate a Value.null ++ l).set (i + l.length).toNat c').length = a + l.length := by
        simp
      have hfit : fits (((List.replicate a Value.null ++ l).set (i + l.length).toNat c').length : Nat) := by
        rw [hlen]
        unfold fits at *
        omega
      have hnull : j < -(l.length : Int) → fits j → readPath (.index j :: ts)
          (.arr ((List.replicate a Value.null ++ l).set (i + l.length).toNat c')) = .ok .null := by
        intro hlj hfj
        by_cases hlt : -((a + l.length : Nat) : Int) ≤ j
        · rw [readPath_index_of hfit (j := (j + (a + l.length : Nat)).toNat)
            (.inr ⟨hj0, by rw [hlen]; exact hlt, by rw [hlen]⟩) (e := .null), readPath_null]
          rw [List.getElem?_set_ne (by omega), List.getElem?_append_left (by simp; omega),
            List.getElem?_replicate, if_pos (by omega)]
        · exact readPath_index_none hfit hfj (by rw [hlen]; omega) (.inr (by rw [hlen]; omega))
      cases v with
      | null =>
        cases hl
        rw [readPath_null] at hy
        cases hy
        exact hnull (by simpa using hj0) (by unfold fits; omega)
      | arr l₁ =>
        cases hl
        obtain ⟨_, hfj, ⟨e, he, hq⟩ | ⟨k1, k2, rfl⟩⟩ := readPath_index hy
        · rw [if_neg (by omega)] at he
          split at he
          · rename_i hle
            rw [readPath_index_of hfit (j := (j + (a + l.length : Nat)).toNat)
              (.inr ⟨hj0, by rw [hlen]; omega, by rw [hlen]⟩) (e := e), hq]
            rw [List.getElem?_set_ne (by omega), List.getElem?_append_right (by simp; omega), ← he]
            congr 1
            simp
            omega
          · cases he
        · exact hnull (k2 hj0) hfj
      | _ => simp [asArray] at hl
  | cons u pre ih =>
    rw [List.cons_append] at *
    obtain ⟨v₁, p, c, c', h1, h2, h3, rfl⟩ := assign_cons h
    obtain ⟨g1, g2⟩ := read_put c' (open_read hlim h1)
    rw [readPath_cons g1 g2]
    exact ih _ _ h3 (open_child h1 h2 hy)

/-- Non-vacuity: `v["a"][0] = 1` leaves `v["a"][2]` as it was. -/
example : Apart (.index 0) (.index 2) ∧
    (assignPath 100 (.int 1) [.key [97], .index 0] (.obj [([97], .arr [.null, .null, .int 5])])).2 = .ok () ∧
    readPath [.key [97], .index 2] (.obj [([97], .arr [.null, .null, .int 5])]) = .ok (.int 5) :=
  ⟨.front (by decide) (by decide) (by decide) (by decide), rfl, rfl⟩

/-- **C42**: the exact effect on an array (null counts as an empty one).  `[i]` adds nulls at the beginning
or at the end, as many as are needed and no others; `[^]` and `[$]` add one element; `[?]` adds none.  All other
elements are kept in order. -/
theorem C42_array (lim : Nat) (x : Value) (s : Sub) (ss : List Sub) (l : List Value) (v v' : Value)
    (hv : v = .arr l ∨ (v = .null ∧ l = [])) (hs : ∀ k, s ≠ .key k)
    (h : assignPath lim x (s :: ss) v = (v', .ok ())) :
    ∃ before after : List Value, ∃ new : Value, v' = .arr (before ++ new :: after) ∧
      match s with
      | .index i => ∃ old, before ++ old :: after =
            List.replicate (if i < 0 then (-i - l.length).toNat else 0) .null ++ l ++
              List.replicate (if 0 ≤ i then (i + 1 - l.length).toNat else 0) .null ∧
          (0 ≤ i → before.length = i) ∧ (i < 0 → after.length + 1 = -i)
      | .head => before = [] ∧ after = l
      | .tail => before = l ∧ after = []
      | _ => ∃ old, before ++ old :: after = l := by
  obtain ⟨v₁, p, c, c', h1, h2, h3, rfl⟩ := assign_cons h
  have hl : asArray v = some l := by
    rcases hv with rfl | ⟨rfl, rfl⟩ <;> rfl
  have split : ∀ (L : List Value) (j : Nat), j < L.length →
      L.set j c' = L.take j ++ c' :: L.drop (j + 1) ∧ ∃ old, L.take j ++ old :: L.drop (j + 1) = L := by
    intro L j hj
    refine ⟨List.set_eq_take_append_cons_drop .. |>.trans (if_pos hj), L[j], ?_⟩
    rw [List.getElem_cons_drop, List.take_append_drop]
  cases s with
  | index i =>
    obtain ⟨l₁, a, b, j, hl₁, hn, hi, rfl, rfl, hle, hj, g1, g2⟩ := open_index h1
    rw [hl] at hl₁
    cases hl₁
    simp only [put]
    have hlen : (List.replicate a Value.null ++ l ++ List.replicate b Value.null).length = a + l.length + b := by
      simp [Nat.add_assoc]
    obtain ⟨e1, old, e2⟩ := split (List.replicate a Value.null ++ l ++ List.replicate b Value.null) j
      (by rw [hlen]; exact hj)
    refine ⟨_, _, c', congrArg Value.arr e1, old, ?_, ?_, ?_⟩
    · rw [e2]
      congr 2
      · congr 1
        split <;> omega
      · split <;> omega
    · intro hi0
      rw [List.length_take, hlen]
      have := g1 hi0
      omega
    · intro hi0
      rw [List.length_drop, hlen]
      have := g2 hi0
      omega
  | key k => exact absurd rfl (hs k)
  | head =>
    obtain ⟨l₁, hl₁, rfl, rfl, _⟩ := open_head h1
    rw [hl] at hl₁
    cases hl₁
    exact ⟨[], l, c', rfl, rfl, rfl⟩
  | tail =>
    obtain ⟨l₁, hl₁, rfl, rfl, _⟩ := open_tail h1
    rw [hl] at hl₁
    cases hl₁
    refine ⟨l, [], c', ?_, rfl, rfl⟩
    simp [put]
  | random seed =>
    obtain ⟨l₁, j, rfl, rfl, rfl, hj, _⟩ := open_random h1
    have : l₁ = l := by simpa [asArray] using hl
    subst this
    obtain ⟨e1, old, e2⟩ := split l₁ j hj
    exact ⟨_, _, c', congrArg Value.arr e1, old, e2⟩

/-- Non-vacuity: `v[1] = 9` and `v[-3] = 9` on `[4]`. -/
example : assignPath 9 (.int 9) [.index 1] (.arr [.int 4]) = (.arr [.int 4, .int 9], .ok ()) ∧
    assignPath 9 (.int 9) [.index (-3)] (.arr [.int 4]) = (.arr [.int 9, .null, .int 4], .ok ()) := ⟨rfl, rfl⟩

/-- **C42**: the exact effect on an object (null counts as an empty one): at most the key is added, and all
other keys have the same values as before. -/
theorem C42_object (lim : Nat) (x : Value) (k : Bytes) (ss : List Sub) (l : List (Bytes × Value)) (v v' : Value)
    (hv : v = .obj l ∨ (v = .null ∧ l = [])) (h : assignPath lim x (.key k :: ss) v = (v', .ok ())) :
    ∃ l' new, v' = .obj l' ∧ lookup k l' = some new ∧ (∀ k', k' ≠ k → lookup k' l' = lookup k' l) ∧
      l'.map Prod.fst = if k ∈ l.map Prod.fst then l.map Prod.fst else l.map Prod.fst ++ [k] := by
  obtain ⟨v₁, p, c, c', h1, h2, h3, rfl⟩ := assign_cons h
  obtain ⟨l₁, l', hl₁, rfl, rfl, hor⟩ := open_key h1
  have hl : asObject v = some l := by
    rcases hv with rfl | ⟨rfl, rfl⟩ <;> rfl
  rw [hl] at hl₁
  cases hl₁
  refine ⟨_, c', rfl, ?_, ?_, ?_⟩
  · rw [lookup_assign, if_pos rfl]
    simp only [get] at h2
    rw [h2]
    rfl
  · intro k' hk'
    rw [lookup_assign, if_neg hk']
    rcases hor with ⟨_, rfl⟩ | ⟨_, rfl⟩
    · rfl
    · rw [lookup_append]
      simp [lookup, Ne.symm hk']
  · rw [keys_assign]
    rcases hor with ⟨⟨y, hy⟩, rfl⟩ | ⟨hy, rfl⟩
    · rw [if_pos]
      by_contra hc
      rw [← lookup_none, hy] at hc
      cases hc
    · rw [if_neg ((lookup_none _ _).1 hy)]
      simp

/-- Non-vacuity: a key is added to an object with one. -/
example : assignPath 9 (.int 9) [.key [98]] (.obj [([97], .int 1)]) =
    (.obj [([97], .int 1), ([98], .int 9)], .ok ()) := rfl

/-- **C42** for references: a successful assignment is to an initialized variable that is not immutable; all
other variables are unchanged; and reading the reference afterwards gives the value assigned. -/
theorem C42_reference (lim : Nat) (hlim : lim < 2 ^ 63) (env env' : Nat → Var) (x : Value) (r : Ref)
    (h : r.assign lim env x = (env', .ok ())) :
    r.readonly env' = .ok x ∧
    ∃ v subs, r = .var v subs ∧ (env v).immutable = false ∧ (∃ val, (env v).value = some val) ∧
      (env' v).immutable = false ∧ ∀ u, u ≠ v → env' u = env u := by
  cases r with
  | bad => simp [Ref.assign] at h
  | temp _ _ => simp [Ref.assign] at h
  | var v subs =>
    simp only [Ref.assign] at h
    cases hv : (env v).value with
    | none => rw [hv] at h; simp at h
    | some val =>
      rw [hv] at h
      simp only at h
      cases him : (env v).immutable with
      | true => rw [him] at h; simp at h
      | false =>
        rw [him] at h
        simp only [Bool.false_eq_true, if_false, Prod.mk.injEq] at h
        obtain ⟨rfl, h2⟩ := h
        refine ⟨?_, v, subs, rfl, him, ⟨val, hv⟩, by simp, fun u hu => by simp [hu]⟩
        simp only [Ref.readonly, if_true]
        exact C42_read_after_write lim hlim x subs val _ (by rw [← h2])

/-- Non-vacuity: `v[2] = 3` with a null variable. -/
example : ((Ref.var 0 [.index 2]).assign 9 (fun _ => ⟨some .null, false⟩) (.int 3)).2 = .ok () := rfl

/-! ## C44: reading and writing agree -/

/-- **C44**: `apply_write_opt` finds an element if and only if `apply_read_opt` does, it is the same
element, and both throw for the same parents. -/
theorem C44_locate (s : Sub) (v : Value) : applyWrite s v = applyRead s v := write_eq_read s v

/-- **C44**: copying out of a temporary, which uses `apply_write_opt`, gives the same as reading it. -/
theorem C44_copy (env : Nat → Var) (r : Ref) : r.copy env = r.readonly env := by
  cases r with
  | bad => rfl
  | temp val subs => exact copyPath_eq subs val
  | var v subs => rfl

/-- **C44**: what makes an access throw: the parent is neither null nor of the type that the subscript
needs.  This is the same for opening, except that a random element of an empty array cannot be opened. -/
theorem C44_throw (s : Sub) (v : Value) :
    applyRead s v = .throw ↔ v ≠ .null ∧
      match s with
      | .key _ => ∀ l, v ≠ .obj l
      | _ => ∀ l, v ≠ .arr l := by
  cases s with
  | index i =>
    cases v with
    | arr l =>
      simp only [applyRead]
      cases hw : wrap l.length i with
      | throw => exact absurd hw (wrap_not_throw _ _)
      | ub => simp
      | ok w => simp only [Res.bind]; split <;> simp
    | _ => simp [applyRead]
  | key k => cases v <;> simp [applyRead]
  | head =>
    cases v with
    | arr l => simp only [applyRead]; split <;> simp
    | _ => simp [applyRead]
  | tail =>
    cases v with
    | arr l => simp only [applyRead]; split <;> simp
    | _ => simp [applyRead]
  | random seed =>
    cases v with
    | arr l =>
      simp only [applyRead]
      generalize probeOrigin l.length seed = j
      split <;> simp
    | _ => simp [applyRead]

/-- Non-vacuity: an index into a string throws, a key into null does not. -/
example : applyRead (.index 0) (.str []) = .throw ∧ applyRead (.key []) .null = .ok none := ⟨rfl, rfl⟩

/-! ## C43: unset -/

/-- `path` leads to the element `x` of `v`. -/
inductive Located : List Sub → Value → Value → Prop
  | nil (v : Value) : Located [] v v
  | cons {s : Sub} {ss : List Sub} {v c x : Value} {p : Loc} :
      applyRead s v = .ok (some p) → get v p = some c → Located ss c x → Located (s :: ss) v x

theorem unset_one (s : Sub) (v : Value) :
    (applyUnset s v).2 = readPath [s] v ∧
    (∀ p, applyRead s v = .ok (some p) → (applyUnset s v).1 = removeAt v p) ∧
    ((∀ p, applyRead s v ≠ .ok (some p)) → (applyUnset s v).1 = v) := by
  cases s with
  | index i =>
    cases v with
    | arr l =>
      simp only [applyUnset, readPath, applyRead]
      cases hw : wrap l.length i with
      | throw => simp
      | ub => simp
      | ok w =>
        simp only [Res.bind]
        by_cases hc : w.nprepend ≠ 0 ∨ w.nappend ≠ 0
        · simp [hc]
        · rw [if_neg hc, if_neg hc]
          simp only [get, Res.ok.injEq, Option.some.injEq]
          cases hx : l[w.rindex]? with
          | none =>
            simp only [forall_eq', removeAt]
            refine ⟨trivial, ?_, fun h => absurd rfl (h _)⟩
            rw [List.eraseIdx_of_length_le (List.getElem?_eq_none_iff.1 hx)]
          | some e => simp [removeAt]
    | _ => simp [applyUnset, readPath, applyRead]
  | key k =>
    cases v with
    | obj l =>
      simp only [applyUnset, readPath, applyRead]
      cases hx : lookup k l with
      | none => simp
      | some e => simp [get, hx, removeAt]
    | _ => simp [applyUnset, readPath, applyRead]
  | head =>
    cases v with
    | arr l => cases l <;> simp [applyUnset, readPath, applyRead, get, removeAt]
    | _ => simp [applyUnset, readPath, applyRead]
  | tail =>
    cases v with
    | arr l =>
      rcases List.eq_nil_or_concat l with rfl | ⟨l, e, rfl⟩
      · simp [applyUnset, readPath, applyRead]
      · simp [applyUnset, readPath, applyRead, get, removeAt, List.eraseIdx_append_of_length_le]
    | _ => simp [applyUnset, readPath, applyRead]
  | random seed =>
    cases v with
    | arr l =>
      simp only [applyUnset, readPath, applyRead]
      have hlt := probeOrigin_lt l.length seed
      generalize probeOrigin l.length seed = j at *
      by_cases h0 : l.length = 0
      · simp [h0]
      · simp only [if_neg h0]
        have hj := hlt (by omega)
        simp [get, hj, removeAt]
    | _ => simp [applyUnset, readPath, applyRead]

/-- **C43**: `unset` returns, throws, or has undefined behaviour exactly as reading the same path does. -/
theorem C43_result (path : List Sub) (hp : path ≠ []) (v : Value) :
    (unsetPath path v).2 = readPath path v := by
  induction path generalizing v with
  | nil => exact absurd rfl hp
  | cons s ss ih =>
    cases ss with
    | nil => exact (unset_one s v).1
    | cons t ts =>
      simp only [unsetPath]
      rw [readPath]
      rw [write_eq_read]
      cases hr : applyRead s v with
      | throw => rfl
      | ub => rfl
      | ok o =>
        cases o with
        | none => rfl
        | some p =>
          simp only [Res.bind]
          cases hg : get v p with
          | none => rfl
          | some c => exact ih (by simp) c

/-- **C43**: a path that leads to no element leaves the value unchanged, and null is returned unless a
subscript was not applicable. -/
theorem C43_absent (path : List Sub) (v : Value) (h : ∀ x, ¬ Located path v x) :
    (unsetPath path v).1 = v := by
  induction path generalizing v with
  | nil => exact absurd (Located.nil v) (h v)
  | cons s ss ih =>
    cases ss with
    | nil =>
      refine (unset_one s v).2.2 fun p hp => ?_
      obtain ⟨x, hx⟩ := read_get hp
      exact h x (.cons hp hx (.nil x))
    | cons t ts =>
      simp only [unsetPath]
      rw [write_eq_read]
      cases hr : applyRead s v with
      | throw => rfl
      | ub => rfl
      | ok o =>
        cases o with
        | none => rfl
        | some p =>
          simp only
          cases hg : get v p with
          | none => rfl
          | some c =>
            simp only
            rw [ih c fun x hx => h x (.cons hr hg hx)]
            rcases read_kind hr with ⟨l, rfl⟩ | ⟨l, rfl⟩
            · obtain ⟨j, hj, rfl⟩ := read_arr hr
              simp only [get] at hg
              simp only [put]
              obtain ⟨_, rfl⟩ := List.getElem?_eq_some_iff.1 hg
              rw [List.set_getElem_self]
            · obtain ⟨k, y, hy, rfl, rfl⟩ := read_obj hr
              simp only [get] at hg
              simp only [put]
              congr 1
              clear ih hr h hy
              induction l with
              | nil => rfl
              | cons q l ih =>
                obtain ⟨k', z⟩ := q
                simp only [lookup] at hg
                simp only [assignKey]
                split
                · rename_i e
                  rw [if_pos e] at hg
                  cases hg
                  rfl
                · rename_i e
                  rw [if_neg e] at hg
                  rw [ih hg]

/-- **C43**: the element that the path leads to is returned and removed: its container, found by the
same path, has lost that element and nothing else. -/
theorem C43_present (pre : List Sub) (s : Sub) (v x : Value) (h : Located (pre ++ [s]) v x) :
    (unsetPath (pre ++ [s]) v).2 = .ok x ∧
    ∃ c c', Located pre v c ∧ Located pre (unsetPath (pre ++ [s]) v).1 c' ∧
      ((∃ l j, c = .arr l ∧ l[j]? = some x ∧ c' = .arr (l.take j ++ l.drop (j + 1))) ∨
       (∃ k l l', c = .obj l ∧ s = .key k ∧ lookup k l = some x ∧ c' = .obj l' ∧
          l'.Sublist l ∧ l'.length + 1 = l.length ∧
          ((l.map Prod.fst).Nodup → lookup k l' = none ∧ ∀ k', k' ≠ k → lookup k' l' = lookup k' l))) := by
  induction pre generalizing v with
  | nil =>
    rw [List.nil_append] at *
    cases h with
    | @cons _ _ _ c _ p hr hg hl =>
      cases hl
      have hu := unset_one s v
      rw [readPath_cons hr hg] at hu
      refine ⟨hu.1, v, (unsetPath [s] v).1, .nil v, .nil _, ?_⟩
      simp only [unsetPath, hu.2.1 p hr]
      rcases read_kind hr with ⟨l, rfl⟩ | ⟨l, rfl⟩
      · obtain ⟨j, hj, rfl⟩ := read_arr hr
        left
        refine ⟨l, j, rfl, hg, ?_⟩
        simp only [removeAt]
        rw [List.eraseIdx_eq_take_drop_succ]
      · obtain ⟨k, y, hy, rfl, rfl⟩ := read_obj hr
        right
        refine ⟨k, l, _, rfl, rfl, hg, rfl, eraseKey_sublist k l, erase_length hy, fun hnd => ⟨?_, ?_⟩⟩
        · rw [lookup_erase hnd, if_pos rfl]
        · intro k' hk'
          rw [lookup_erase hnd, if_neg hk']
  | cons u pre ih =>
    rw [List.cons_append] at *
    cases h with
    | @cons _ _ _ c _ p hr hg hl =>
      obtain ⟨g1, d, d', g2, g3, g4⟩ := ih c hl
      have hstep : unsetPath (u :: (pre ++ [s])) v =
          (put v p (unsetPath (pre ++ [s]) c).1, (unsetPath (pre ++ [s]) c).2) := by
        cases hq : pre ++ [s] with
        | nil => simp at hq
        | cons t ts => simp only [unsetPath, write_eq_read, hr, hg]
      rw [hstep]
      obtain ⟨k1, k2⟩ := read_put (unsetPath (pre ++ [s]) c).1 hr
      exact ⟨g1, d, d', .cons hr hg g2, .cons k1 k2 g3, g4⟩

/-- Non-vacuity: `unset v["a"][1]`. -/
example : Located [.key [97], .index 1] (.obj [([97], .arr [.int 1, .int 2])]) (.int 2) ∧
    unsetPath [.key [97], .index 1] (.obj [([97], .arr [.int 1, .int 2])]) =
      (.obj [([97], .arr [.int 1])], .ok (.int 2)) :=
  ⟨.cons (p := .field [97]) rfl rfl (.cons (p := .elem 1) rfl rfl (.nil _)), rfl⟩

theorem put_other {s t : Sub} (hst : Apart s t) {v : Value} {p : Loc} (x : Value) (ts : List Sub)
    (h : applyRead s v = .ok (some p)) : readPath (t :: ts) (put v p x) = readPath (t :: ts) v := by
  cases hst with
  | key hk =>
    rcases read_kind h with ⟨l, rfl⟩ | ⟨l, rfl⟩
    · simp [applyRead] at h
    · obtain ⟨k, y, hy, rfl, hs⟩ := read_obj h
      cases hs
      rename_i k k'
      simp only [readPath, put, applyRead, lookup_assign, if_neg (Ne.symm hk)]
      cases hx : lookup k' l with
      | none => simp
      | some e => simp [get, lookup_assign, Ne.symm hk, hx]
  | _ =>
    rename_i i j hi hj hj1 hij
    rcases read_kind h with ⟨l, rfl⟩ | ⟨l, rfl⟩
    · have h' := h
      obtain ⟨m, hm, rfl⟩ := read_arr h
      simp only [readPath, put]
      rw [read_length (l := l) (List.length_set ..)]
      have hne : ∀ m', applyRead (.index j) (.arr l) = .ok (some (.elem m')) → m ≠ m' := by
        intro m' hm'
        simp only [applyRead] at h hm'
        cases hw : wrap l.length i with
        | throw => rw [hw] at h; simp at h
        | ub => rw [hw] at h; simp at h
        | ok w =>
          cases hw' : wrap l.length j with
          | throw => rw [hw'] at hm'; simp at hm'
          | ub => rw [hw'] at hm'; simp at hm'
          | ok w' =>
            rw [hw] at h
            rw [hw'] at hm'
            simp only [Res.bind] at h hm'
            obtain ⟨_, _, a1, a2⟩ := wrap_ok hw
            obtain ⟨_, _, b1, b2⟩ := wrap_ok hw'
            split at h
            · simp at h
            · split at hm'
              · simp at hm'
              · simp only [Res.ok.injEq, Option.some.injEq, Loc.elem.injEq] at h hm'
                omega
      cases hr : applyRead (.index j) (.arr l) with
      | throw => rfl
      | ub => rfl
      | ok o =>
        cases o with
        | none => rfl
        | some q =>
          obtain ⟨m', hm', rfl⟩ := read_arr hr
          simp only [Res.bind, get]
          rw [List.getElem?_set_ne (hne m' hr)]
    · simp [applyRead] at h

/-- **C43**: a path that leaves the path of the container at some point reads the same value before and
after `unset`; so does a path to another key of the container. -/
theorem C43_frame (pre : List Sub) (s t : Sub) (ss ts : List Sub) (v : Value) (hst : Apart s t)
    (hss : ss ≠ [] ∨ ∃ k, s = .key k) (hnd : ∀ l, readPath pre v = .ok (.obj l) → (l.map Prod.fst).Nodup) :
    readPath (pre ++ t :: ts) (unsetPath (pre ++ s :: ss) v).1 = readPath (pre ++ t :: ts) v := by
  induction pre generalizing v with
  | nil =>
    simp only [List.nil_append] at *
    cases ss with
    | nil =>
      obtain ⟨k, rfl⟩ : ∃ k, s = .key k := by
        rcases hss with h | h
        · exact absurd rfl h
        · exact h
      cases hst with
      | @key _ k' hk =>
        have hu := unset_one (.key k) v
        simp only [unsetPath]
        cases hr : applyRead (.key k) v with
        | throw => rw [hu.2.2 (by simp [hr])]
        | ub => rw [hu.2.2 (by simp [hr])]
        | ok o =>
          cases o with
          | none => rw [hu.2.2 (by simp [hr])]
          | some p =>
            rw [hu.2.1 p hr]
            rcases read_kind hr with ⟨l, rfl⟩ | ⟨l, rfl⟩
            · simp [applyRead] at hr
            · obtain ⟨k₁, y, hy, rfl, hs⟩ := read_obj hr
              cases hs
              have hn := hnd l rfl
              simp only [readPath, removeAt, applyRead, get]
              rw [lookup_erase hn, if_neg (Ne.symm hk)]
              cases hx : lookup k' l with
              | none => simp
              | some e => simp [lookup_erase hn, Ne.symm hk, hx]
    | cons u us =>
      simp only [unsetPath, write_eq_read]
      cases hr : applyRead s v with
      | throw => rfl
      | ub => rfl
      | ok o =>
        cases o with
        | none => rfl
        | some p =>
          simp only
          cases hg : get v p with
          | none => rfl
          | some c => exact put_other hst _ ts hr
  | cons u pre ih =>
    simp only [List.cons_append] at *
    have hstep : unsetPath (u :: (pre ++ s :: ss)) v = match applyRead u v with
        | .throw => (v, .throw)
        | .ub => (v, .ub)
        | .ok none => (v, .ok .null)
        | .ok (some p) => match get v p with
          | none => (v, .ub)
          | some c => (put v p (unsetPath (pre ++ s :: ss) c).1, (unsetPath (pre ++ s :: ss) c).2) := by
      cases hq : pre ++ s :: ss with
      | nil => simp at hq
      | cons a b =>
        simp only [unsetPath, write_eq_read]
        cases applyRead u v with
        | throw => rfl
        | ub => rfl
        | ok o =>
          cases o with
          | none => rfl
          | some p => cases get v p <;> rfl
    rw [hstep]
    cases hr : applyRead u v with
    | throw => rfl
    | ub => rfl
    | ok o =>
      cases o with
      | none => rfl
      | some p =>
        simp only
        cases hg : get v p with
        | none => rfl
        | some c =>
          simp only
          obtain ⟨k1, k2⟩ := read_put (unsetPath (pre ++ s :: ss) c).1 hr
          rw [readPath_cons k1 k2, readPath_cons hr hg]
          exact ih c fun l hl => hnd l (by rw [readPath_cons hr hg]; exact hl)

/-- Non-vacuity: `unset v["a"]` and `v["b"]`. -/
example : Apart (.key [97]) (.key [98]) ∧
    unsetPath [.key [97]] (.obj [([97], .int 1), ([98], .int 2)]) = (.obj [([98], .int 2)], .ok (.int 1)) :=
  ⟨.key (by decide), rfl⟩

/-! ## C70: failed assignments -/

/-- **C70**, negation of the full statement: `v[^][?] = 1` with `v = [[]]` throws, but `v` is `[[], []]`
afterwards; and `v[?] = 1` with `v = null` throws and leaves `[]`. -/
theorem C70_false : ∃ (lim : Nat) (path : List Sub) (v v' : Value),
    assignPath lim (.int 1) path v = (v', .throw) ∧ v' ≠ v :=
  ⟨100, [.head, .random 0], .arr [.arr []], .arr [.arr [], .arr []], rfl, by simp⟩

/-- **C70**, the negation for a variable with a null value. -/
theorem C70_false_null : ∃ (lim : Nat) (path : List Sub) (v' : Value),
    assignPath lim (.int 1) path .null = (v', .throw) ∧ v' ≠ .null :=
  ⟨100, [.random 0], .arr [], rfl, by simp⟩

/-- One step of an assignment that fails leaves a parent that was not null unchanged. -/
theorem open_fail {lim : Nat} {s : Sub} {v : Value} (hv : v ≠ .null) (h : (applyOpen lim s v).2 = .throw) :
    (applyOpen lim s v).1 = v := by
  have hg : ∀ l l', (growTo lim l l').2 = .throw → (growTo lim l l').1 = l := by
    intro l l' h
    unfold growTo at *
    split
    · rfl
    · rename_i h1; simp [h1] at h
  cases s with
  | index i =>
    cases v with
    | null => exact absurd rfl hv
    | arr l =>
      simp only [applyOpen, asArray] at *
      cases hw : wrap l.length i with
      | throw => rfl
      | ub => rfl
      | ok w =>
        rw [hw] at h
        simp only at *
        congr 1
        split
        · rename_i h1
          rw [if_pos h1] at h
          refine hg _ _ ?_
          cases hx : (growTo lim l (List.replicate w.nprepend Value.null ++ l)).2 <;> rw [hx] at h <;> simp at h ⊢
        · rename_i h1
          rw [if_neg h1] at h
          split
          · rename_i h2
            rw [if_pos h2] at h
            refine hg _ _ ?_
            cases hx : (growTo lim l (l ++ List.replicate w.nappend Value.null)).2 <;> rw [hx] at h <;>
              simp at h ⊢
          · rfl
    | _ => rfl
  | key k => cases v <;> simp [applyOpen, asObject] at *
  | head =>
    cases v with
    | null => exact absurd rfl hv
    | arr l =>
      simp only [applyOpen, asArray] at *
      congr 1
      refine hg _ _ ?_
      cases hx : (growTo lim l (dupHead l)).2 <;> rw [hx] at h <;> simp at h ⊢
    | _ => rfl
  | tail =>
    cases v with
    | null => exact absurd rfl hv
    | arr l =>
      simp only [applyOpen, asArray] at *
      congr 1
      refine hg _ _ ?_
      cases hx : (growTo lim l (dupTail l)).2 <;> rw [hx] at h <;> simp at h ⊢
    | _ => rfl
  | random seed =>
    cases v with
    | null => exact absurd rfl hv
    | arr l =>
      simp only [applyOpen, asArray]
      generalize probeOrigin l.length seed = j
      split <;> rfl
    | _ => rfl

/-- **C70** (partial): an assignment that fails leaves the variable unchanged if it fails at once: because the
reference is a temporary, is immutable, is not initialized, or because the first subscript is not
applicable to a value that is not null.

Missing: failures after the first subscript, or with a null value, see `C70_false`. -/
theorem C70_partial (lim : Nat) (env : Nat → Var) (x : Value) (r : Ref)
    (hr : ∀ v subs val, r = .var v subs → (env v).value = some val → (env v).immutable = false →
      subs.length ≤ 1 ∧ val ≠ .null)
    (h : (r.assign lim env x).2 = .throw) : (r.assign lim env x).1 = env := by
  cases r with
  | bad => rfl
  | temp _ _ => rfl
  | var v subs =>
    simp only [Ref.assign] at *
    cases hv : (env v).value with
    | none => rfl
    | some val =>
      rw [hv] at h
      simp only at *
      cases him : (env v).immutable with
      | true => rfl
      | false =>
        rw [him] at h
        simp only [Bool.false_eq_true, if_false] at *
        obtain ⟨h1, h2⟩ := hr v subs val rfl hv him
        have hval : (assignPath lim x subs val).1 = val := by
          cases subs with
          | nil => simp [assignPath] at h
          | cons s ss =>
            cases ss with
            | cons _ _ => simp at h1
            | nil =>
              simp only [assignPath] at *
              rcases ho : applyOpen lim s val with ⟨v₁, q⟩
              have hf := open_fail (lim := lim) (s := s) h2
              rw [ho] at hf
              rw [ho] at h
              cases q with
              | throw => exact hf rfl
              | ub => simp at h
              | ok p =>
                simp only at h
                cases hg : get v₁ p with
                | none => rw [hg] at h; simp at h
                | some c => rw [hg] at h; simp at h
        funext u
        rw [hval]
        split
        · rename_i e
          subst e
          cases hvv : env u
          rw [hvv] at hv him
          simp_all
        · rfl

/-- Non-vacuity: `v[?] = 1` with an empty array. -/
example : ((Ref.var 0 [.random 3]).assign 9 (fun _ => ⟨some (.arr []), false⟩) (.int 3)).2 = .throw := rfl

/-- **C70**: constants and temporaries are never changed, whether the assignment or `unset` fails or
not. -/
theorem C70_immutable (lim : Nat) (env : Nat → Var) (x : Value) (r : Ref) (u : Nat) (hu : (env u).immutable = true) :
    (r.assign lim env x).1 u = env u ∧ (r.unset env).1 u = env u := by
  cases r with
  | bad => exact ⟨rfl, rfl⟩
  | temp _ _ => exact ⟨rfl, rfl⟩
  | var v subs =>
    simp only [Ref.assign, Ref.unset]
    cases hv : (env v).value with
    | none => exact ⟨rfl, rfl⟩
    | some val =>
      simp only
      cases him : (env v).immutable with
      | true => exact ⟨rfl, rfl⟩
      | false =>
        have hne : u ≠ v := by
          rintro rfl
          rw [hu] at him
          cases him
        simp [hne]

/-- Non-vacuity: an assignment to a constant. -/
example : ((Ref.var 0 []).assign 9 (fun _ => ⟨some (.int 1), true⟩) (.int 3)).2 = .throw := rfl

end Asteria.Subscript
