import Verif.Model.Subscript
import Verif.Proof.ArrayRotate

/-! # Lemmas about subscripts -/

namespace Asteria.Subscript

open ArrayLib (probeOrigin probeOrigin_lt)

theorem wrap_ok {n : Nat} {i : Int} {w : Wrapped} (h : wrap n i = .ok w) :
    fits n ∧ fits i ∧
    (0 ≤ i → w.nprepend = 0 ∧ w.rindex = i.toNat ∧ w.nappend = (i + 1 - n).toNat) ∧
    (i < 0 → w.nappend = 0 ∧ w.nprepend = (-i - n).toNat ∧ w.rindex = (i + n).toNat) := by
  unfold wrap at h
  simp only at h
  split at h
  · cases h
  · rename_i h0
    simp only [not_or, not_not] at h0
    refine ⟨h0.2.1, h0.2.2, ?_⟩
    obtain ⟨_, h1, h2⟩ := h0
    unfold fits at h1 h2
    split at h
    · split at h
      · rename_i h3 h4
        cases h
        unfold fits at h4
        simp only
        refine ⟨fun _ => ⟨trivial, trivial, ?_⟩, fun _ => by omega⟩
        omega
      · cases h
    · split at h
      · rename_i h3 h4
        cases h
        unfold fits at h4
        simp only
        refine ⟨fun _ => by omega, fun _ => ⟨trivial, by omega, by omega⟩⟩
      · cases h

/-- When the constructor has no undefined behaviour. -/
theorem wrap_def {n : Nat} {i : Int} (hn : fits n) (hi : fits i)
    (hx : n ≠ 0 ∨ (i ≠ 2 ^ 63 - 1 ∧ i ≠ -2 ^ 63)) : ∃ w, wrap n i = .ok w := by
  unfold wrap
  simp only
  unfold fits at hn hi
  rw [if_neg (by unfold fits; omega)]
  split
  · rw [if_pos (by unfold fits; omega)]; exact ⟨_, rfl⟩
  · rw [if_pos (by unfold fits; omega)]; exact ⟨_, rfl⟩

theorem wrap_not_throw (n i : Int) : wrap n i ≠ .throw := by
  unfold wrap
  simp only
  split
  · simp
  · split <;> split <;> simp

/-- An index within the bounds. -/
theorem wrap_in {n : Nat} {i : Int} (hn : fits n) (h1 : -(n : Int) ≤ i) (h2 : i < n) :
    wrap n i = .ok ⟨0, 0, if 0 ≤ i then i.toNat else (i + n).toNat⟩ := by
  unfold fits at hn
  obtain ⟨w, hw⟩ := wrap_def (n := n) (i := i) (by unfold fits; omega) (by unfold fits; omega) (by omega)
  obtain ⟨_, _, ha, hb⟩ := wrap_ok hw
  rw [hw]
  obtain ⟨a, b, c⟩ := w
  simp only [Res.ok.injEq, Wrapped.mk.injEq] at *
  split
  · have := ha (by omega); omega
  · have := hb (by omega); omega

/-! ### Objects -/

theorem lookup_append (k : Bytes) (l₁ l₂ : List (Bytes × Value)) :
    lookup k (l₁ ++ l₂) = (lookup k l₁).or (lookup k l₂) := by
  induction l₁ with
  | nil => simp [lookup]
  | cons p l₁ ih =>
    obtain ⟨k', v⟩ := p
    simp only [List.cons_append, lookup]
    split
    · simp
    · exact ih

theorem lookup_assign (k k' : Bytes) (x : Value) (l : List (Bytes × Value)) :
    lookup k (assignKey k' x l) = if k = k' then (lookup k l).map (fun _ => x) else lookup k l := by
  induction l with
  | nil => simp [lookup, assignKey]
  | cons p l ih =>
    obtain ⟨k₁, v⟩ := p
    simp only [assignKey]
    by_cases h1 : k₁ = k'
    · rw [if_pos h1]
      subst h1
      simp only [lookup]
      by_cases h2 : k₁ = k
      · simp [h2]
      · have h3 : ¬ k = k₁ := fun e => h2 e.symm
        simp [h2, h3]
    · rw [if_neg h1]
      simp only [lookup]
      by_cases h2 : k₁ = k
      · subst h2
        simp [h1]
      · simp only [h2, if_false, ih]

theorem keys_assign (k : Bytes) (x : Value) (l : List (Bytes × Value)) :
    (assignKey k x l).map Prod.fst = l.map Prod.fst := by
  induction l with
  | nil => rfl
  | cons p l ih =>
    obtain ⟨k₁, v⟩ := p
    simp only [assignKey]
    split <;> simp [ih]

theorem lookup_none (k : Bytes) (l : List (Bytes × Value)) :
    lookup k l = none ↔ k ∉ l.map Prod.fst := by
  induction l with
  | nil => simp [lookup]
  | cons p l ih =>
    obtain ⟨k', v⟩ := p
    simp only [lookup, List.map_cons, List.mem_cons, not_or]
    split
    · rename_i h; simp [h]
    · rename_i h
      rw [ih]
      constructor
      · exact fun h' => ⟨fun e => h e.symm, h'⟩
      · exact fun h' => h'.2

theorem eraseKey_sublist (k : Bytes) (l : List (Bytes × Value)) : (eraseKey k l).Sublist l := by
  induction l with
  | nil => exact List.Sublist.refl _
  | cons p l ih =>
    obtain ⟨k', v⟩ := p
    simp only [eraseKey]
    split
    · exact List.sublist_cons_self _ _
    · exact ih.cons_cons _

theorem lookup_erase {l : List (Bytes × Value)} (hl : (l.map Prod.fst).Nodup) (k k' : Bytes) :
    lookup k (eraseKey k' l) = if k = k' then none else lookup k l := by
  induction l with
  | nil => simp [lookup, eraseKey]
  | cons p l ih =>
    obtain ⟨k₁, v⟩ := p
    simp only [List.map_cons, List.nodup_cons] at hl
    simp only [eraseKey]
    by_cases h1 : k₁ = k'
    · rw [if_pos h1]
      subst h1
      by_cases h2 : k = k₁
      · subst h2
        rw [if_pos rfl]
        exact (lookup_none _ _).2 hl.1
      · rw [if_neg h2]
        simp only [lookup]
        rw [if_neg (fun e => h2 e.symm)]
    · rw [if_neg h1]
      simp only [lookup]
      by_cases h2 : k₁ = k
      · subst h2
        rw [if_pos rfl, if_neg h1, if_pos rfl]
      · rw [if_neg h2, if_neg h2, ih hl.2]

theorem erase_length {l : List (Bytes × Value)} {k : Bytes} {x : Value} (h : lookup k l = some x) :
    (eraseKey k l).length + 1 = l.length := by
  induction l with
  | nil => simp [lookup] at h
  | cons p l ih =>
    obtain ⟨k₁, v⟩ := p
    simp only [lookup] at h
    simp only [eraseKey]
    split
    · simp
    · rename_i h1
      rw [if_neg h1] at h
      simp [ih h]

/-! ### Reading -/

/-- What a subscript finds in an array depends on its length only. -/
theorem read_length {l l' : List Value} (h : l'.length = l.length) (s : Sub) :
    applyRead s (.arr l') = applyRead s (.arr l) := by
  cases s <;> simp only [applyRead, h]

/-- What is found in an array is one of its elements. -/
theorem read_arr {s : Sub} {l : List Value} {p : Loc} (h : applyRead s (.arr l) = .ok (some p)) :
    ∃ j, j < l.length ∧ p = .elem j := by
  cases s with
  | index i =>
    simp only [applyRead] at h
    cases hw : wrap l.length i with
    | ok w =>
      rw [hw] at h
      simp only [Res.bind] at h
      split at h
      · simp at h
      · rename_i h1
        simp only [Res.ok.injEq, Option.some.injEq] at h
        obtain ⟨_, _, ha, hb⟩ := wrap_ok hw
        refine ⟨w.rindex, ?_, h.symm⟩
        rcases Int.lt_or_le i 0 with hi | hi
        · have := hb hi; omega
        · have := ha hi; omega
    | throw => rw [hw] at h; simp at h
    | ub => rw [hw] at h; simp at h
  | key k => simp [applyRead] at h
  | head =>
    simp only [applyRead] at h
    split at h
    · simp at h
    · simp only [Res.ok.injEq, Option.some.injEq] at h
      exact ⟨0, by omega, h.symm⟩
  | tail =>
    simp only [applyRead] at h
    split at h
    · simp at h
    · simp only [Res.ok.injEq, Option.some.injEq] at h
      exact ⟨l.length - 1, by omega, h.symm⟩
  | random seed =>
    simp only [applyRead] at h
    split at h
    · simp at h
    · simp only [Res.ok.injEq, Option.some.injEq] at h
      exact ⟨_, probeOrigin_lt l.length seed (by omega), h.symm⟩

/-- What is found in an object is one of its fields. -/
theorem read_obj {s : Sub} {l : List (Bytes × Value)} {p : Loc} (h : applyRead s (.obj l) = .ok (some p)) :
    ∃ k x, lookup k l = some x ∧ p = .field k ∧ s = .key k := by
  cases s with
  | key k =>
    simp only [applyRead, Res.ok.injEq] at h
    cases hl : lookup k l with
    | none => rw [hl] at h; simp at h
    | some y =>
      rw [hl] at h
      simp only [Option.map_some, Option.some.injEq] at h
      exact ⟨k, y, hl, h.symm, rfl⟩
  | _ => simp [applyRead] at h

/-- Only arrays and objects have elements. -/
theorem read_kind {s : Sub} {v : Value} {p : Loc} (h : applyRead s v = .ok (some p)) :
    (∃ l, v = .arr l) ∨ ∃ l, v = .obj l := by
  cases v with
  | arr l => exact .inl ⟨l, rfl⟩
  | obj l => exact .inr ⟨l, rfl⟩
  | _ => cases s <;> simp [applyRead] at h

/-- Assigning to the element found changes neither the element found nor the others. -/
theorem read_put {s : Sub} {v : Value} {p : Loc} (x : Value) (h : applyRead s v = .ok (some p)) :
    applyRead s (put v p x) = .ok (some p) ∧ get (put v p x) p = some x := by
  rcases read_kind h with ⟨l, rfl⟩ | ⟨l, rfl⟩
  · obtain ⟨j, hj, rfl⟩ := read_arr h
    simp only [put, get]
    rw [read_length (List.length_set ..)]
    exact ⟨h, by simp [hj]⟩
  · obtain ⟨k, y, hy, rfl, rfl⟩ := read_obj h
    simp [put, get, applyRead, lookup_assign, hy]

/-- A pointer that was returned points to an element. -/
theorem read_get {s : Sub} {v : Value} {p : Loc} (h : applyRead s v = .ok (some p)) :
    ∃ x, get v p = some x := by
  rcases read_kind h with ⟨l, rfl⟩ | ⟨l, rfl⟩
  · obtain ⟨j, hj, rfl⟩ := read_arr h
    exact ⟨l[j], by simp [get, hj]⟩
  · obtain ⟨k, y, hy, rfl, rfl⟩ := read_obj h
    exact ⟨y, hy⟩

theorem write_eq_read (s : Sub) (v : Value) : applyWrite s v = applyRead s v := by
  unfold applyRead applyWrite
  rfl

theorem copyPath_eq (ss : List Sub) (v : Value) : copyPath ss v = readPath ss v := by
  induction ss generalizing v with
  | nil => rfl
  | cons s ss ih =>
    simp only [copyPath, readPath, write_eq_read]
    cases applyRead s v with
    | ok p =>
      cases p with
      | none => rfl
      | some p =>
        simp only [Res.bind]
        cases get v p with
        | none => rfl
        | some x => exact ih x
    | throw => rfl
    | ub => rfl

/-! ### Opening -/

theorem growTo_ok {lim : Nat} {l l' : List Value} (h : (growTo lim l l').2 = .ok ()) :
    (growTo lim l l').1 = l' ∧ l'.length ≤ lim := by
  unfold growTo at *
  split
  · rename_i h1; simp [h1] at h
  · exact ⟨rfl, by omega⟩

/-- `[i]`: the array is extended by as many nulls as are needed. -/
theorem open_index {lim : Nat} {i : Int} {v v' : Value} {p : Loc}
    (h : applyOpen lim (.index i) v = (v', .ok p)) :
    ∃ l a b j, asArray v = some l ∧ fits l.length ∧ fits i ∧
      v' = .arr (List.replicate a .null ++ l ++ List.replicate b .null) ∧ p = .elem j ∧
      (a + b = 0 ∨ a + l.length + b ≤ lim) ∧ j < a + l.length + b ∧
      (0 ≤ i → a = 0 ∧ b = (i + 1 - l.length).toNat ∧ j = i.toNat) ∧
      (i < 0 → b = 0 ∧ a = (-i - l.length).toNat ∧ j = (i + l.length).toNat) := by
  simp only [applyOpen] at h
  cases hl : asArray v with
  | none => rw [hl] at h; simp at h
  | some l =>
    rw [hl] at h
    simp only at h
    cases hw : wrap l.length i with
    | ub => rw [hw] at h; simp at h
    | throw => rw [hw] at h; simp at h
    | ok w =>
      rw [hw] at h
      simp only at h
      obtain ⟨hn, hi, ha, hb⟩ := wrap_ok hw
      obtain ⟨na, np, j⟩ := w
      simp only at ha hb h
      by_cases h1 : np = 0
      · by_cases h2 : na = 0
        · subst h1 h2
          simp only [ne_eq, not_true_eq_false, if_false, Res.map, Prod.mk.injEq, Res.ok.injEq] at h
          obtain ⟨rfl, rfl⟩ := h
          refine ⟨l, 0, 0, j, rfl, hn, hi, by simp, rfl, by simp, ?_, by omega, by omega⟩
          omega
        · subst h1
          simp only [ne_eq, not_true_eq_false, if_false, h2, not_false_eq_true, if_true, Prod.mk.injEq] at h
          have hg : (growTo lim l (l ++ List.replicate na Value.null)).2 = .ok () := by
            cases hg : (growTo lim l (l ++ List.replicate na Value.null)).2 with
            | ok u => rfl
            | throw => rw [hg] at h; simp at h
            | ub => rw [hg] at h; simp at h
          obtain ⟨g1, g2⟩ := growTo_ok hg
          rw [g1, hg] at h
          simp only [Res.map, Res.ok.injEq] at h
          obtain ⟨rfl, rfl⟩ := h
          simp only [List.length_append, List.length_replicate] at g2
          refine ⟨l, 0, na, j, rfl, hn, hi, by simp, rfl, by omega, ?_, by omega, by omega⟩
          omega
      · have hna : na = 0 := by omega
        subst hna
        simp only [ne_eq, h1, not_false_eq_true, if_true, Prod.mk.injEq] at h
        have hg : (growTo lim l (List.replicate np Value.null ++ l)).2 = .ok () := by
          cases hg : (growTo lim l (List.replicate np Value.null ++ l)).2 with
          | ok u => rfl
          | throw => rw [hg] at h; simp at h
          | ub => rw [hg] at h; simp at h
        obtain ⟨g1, g2⟩ := growTo_ok hg
        rw [g1, hg] at h
        simp only [Res.map, Res.ok.injEq] at h
        obtain ⟨rfl, rfl⟩ := h
        simp only [List.length_append, List.length_replicate] at g2
        refine ⟨l, np, 0, j, rfl, hn, hi, by simp, rfl, by omega, ?_, by omega, by omega⟩
        omega

/-- `["k"]`: a null is added if there is no such key. -/
theorem open_key {lim : Nat} {k : Bytes} {v v' : Value} {p : Loc}
    (h : applyOpen lim (.key k) v = (v', .ok p)) :
    ∃ l l', asObject v = some l ∧ v' = .obj l' ∧ p = .field k ∧
      ((∃ x, lookup k l = some x) ∧ l' = l ∨ lookup k l = none ∧ l' = l ++ [(k, .null)]) := by
  simp only [applyOpen] at h
  cases hl : asObject v with
  | none => rw [hl] at h; simp at h
  | some l =>
    rw [hl] at h
    simp only [Prod.mk.injEq, Res.ok.injEq] at h
    obtain ⟨rfl, rfl⟩ := h
    cases hk : lookup k l with
    | none => exact ⟨l, _, rfl, rfl, rfl, .inr ⟨hk, rfl⟩⟩
    | some x => exact ⟨l, _, rfl, rfl, rfl, .inl ⟨⟨x, hk⟩, rfl⟩⟩

/-- `[^]`: a copy of the first element, or null, is inserted. -/
theorem open_head {lim : Nat} {v v' : Value} {p : Loc}
    (h : applyOpen lim .head v = (v', .ok p)) :
    ∃ l, asArray v = some l ∧ v' = .arr (l.head?.getD .null :: l) ∧ p = .elem 0 ∧ l.length + 1 ≤ lim := by
  simp only [applyOpen] at h
  cases hl : asArray v with
  | none => rw [hl] at h; simp at h
  | some l =>
    rw [hl] at h
    simp only [Prod.mk.injEq] at h
    have hg : (growTo lim l (dupHead l)).2 = .ok () := by
      cases hg : (growTo lim l (dupHead l)).2 with
      | ok u => rfl
      | throw => rw [hg] at h; simp at h
      | ub => rw [hg] at h; simp at h
    obtain ⟨g1, g2⟩ := growTo_ok hg
    rw [g1, hg] at h
    simp only [Res.map, Res.ok.injEq] at h
    obtain ⟨rfl, rfl⟩ := h
    refine ⟨l, rfl, ?_, rfl, ?_⟩
    · cases l <;> simp [dupHead]
    · cases l <;> simpa [dupHead] using g2

/-- `[$]`: a copy of the last element, or null, is appended. -/
theorem open_tail {lim : Nat} {v v' : Value} {p : Loc}
    (h : applyOpen lim .tail v = (v', .ok p)) :
    ∃ l, asArray v = some l ∧ v' = .arr (l ++ [l.getLast?.getD .null]) ∧ p = .elem l.length ∧
      l.length + 1 ≤ lim := by
  simp only [applyOpen] at h
  cases hl : asArray v with
  | none => rw [hl] at h; simp at h
  | some l =>
    rw [hl] at h
    simp only [Prod.mk.injEq] at h
    have hg : (growTo lim l (dupTail l)).2 = .ok () := by
      cases hg : (growTo lim l (dupTail l)).2 with
      | ok u => rfl
      | throw => rw [hg] at h; simp at h
      | ub => rw [hg] at h; simp at h
    obtain ⟨g1, g2⟩ := growTo_ok hg
    rw [g1, hg] at h
    simp only [Res.map, Res.ok.injEq] at h
    have e : dupTail l = l ++ [l.getLast?.getD .null] := by
      unfold dupTail
      cases hx : l.getLast? with
      | none => rw [List.getLast?_eq_none_iff] at hx; simp [hx]
      | some x => simp
    rw [e] at h g2
    obtain ⟨rfl, rfl⟩ := h
    simp only [List.length_append, List.length_singleton] at g2
    exact ⟨l, rfl, rfl, by simp, g2⟩

/-- `[?]`: an existing element. -/
theorem open_random {lim seed : Nat} {v v' : Value} {p : Loc}
    (h : applyOpen lim (.random seed) v = (v', .ok p)) :
    ∃ l j, v = .arr l ∧ v' = v ∧ p = .elem j ∧ j < l.length ∧
      applyRead (.random seed) v = .ok (some (.elem j)) := by
  simp only [applyOpen] at h
  cases hl : asArray v with
  | none => rw [hl] at h; simp at h
  | some l =>
    rw [hl] at h
    simp only at h
    have hlt := probeOrigin_lt l.length seed
    cases v with
    | null => cases hl; simp at h
    | arr l₁ =>
      cases hl
      simp only [applyRead]
      generalize probeOrigin l.length seed = j at *
      split at h
      · simp at h
      · rename_i h0
        simp only [Prod.mk.injEq, Res.ok.injEq] at h
        obtain ⟨rfl, rfl⟩ := h
        exact ⟨l, j, rfl, rfl, rfl, hlt (by omega), by rw [if_neg h0]⟩
    | _ => simp [asArray] at hl

/-- After a successful `apply_open`, reading the same subscript finds the element returned. -/
theorem open_read {lim : Nat} (hlim : lim < 2 ^ 63) {s : Sub} {v v' : Value} {p : Loc}
    (h : applyOpen lim s v = (v', .ok p)) : applyRead s v' = .ok (some p) := by
  cases s with
  | index i =>
    obtain ⟨l, a, b, j, hl, hn, hi, rfl, rfl, hle, hj, h1, h2⟩ := open_index h
    simp only [applyRead]
    have hfit : fits ((List.replicate a Value.null ++ l ++ List.replicate b Value.null).length : Nat) := by
      unfold fits at *
      simp only [List.length_append, List.length_replicate]
      omega
    rw [wrap_in hfit (by simp; omega) (by simp; omega)]
    simp [Res.bind]
    split <;> omega
  | key k =>
    obtain ⟨l, l', hl, rfl, rfl, ⟨⟨x, hx⟩, rfl⟩ | ⟨hx, rfl⟩⟩ := open_key h
    · simp [applyRead, hx]
    · simp [applyRead, lookup_append, hx, lookup]
  | head =>
    obtain ⟨l, hl, rfl, rfl, _⟩ := open_head h
    simp [applyRead]
  | tail =>
    obtain ⟨l, hl, rfl, rfl, _⟩ := open_tail h
    simp [applyRead]
  | random seed =>
    obtain ⟨l, j, rfl, rfl, rfl, _, h1⟩ := open_random h
    exact h1

end Asteria.Subscript
