import Verif.Proof.StaticVector

/-!
# C154: a `static_vector` is a list of bounded length
-/

namespace Asteria.StaticVector

variable {α : Type}

/-- The check of the size, for capacities that exist. -/
theorem fits_eq {cap a n : Nat} (h : cap < 2 ^ 64) : fits cap a n = decide (a + n ≤ cap) := by
  unfold fits
  by_cases h1 : a + n ≤ cap
  · simp [h1]; omega
  · simp [h1]

/-- `append`, for a vector known by its elements. -/
theorem append_ok {cap : Nat} {l : List α} (n : Nat) (x : α) (hc : Countable cap l.length)
    (hk : l.length + n ≤ cap → Countable cap (l.length + n)) :
    (rep cap l).append cap n x
      = if l.length + n ≤ cap ∨ n = 0 then .ok (rep cap (l ++ List.replicate n x), some ()) else .ok (rep cap l, none) := by
  unfold Vec.append
  by_cases h0 : n = 0
  · subst h0; simp
  · rw [if_neg h0, fits_eq hc.1, show (rep cap l).nelem = l.length from rfl]
    by_cases h1 : l.length + n ≤ cap
    · rw [if_pos (by simpa using h1), if_pos (.inl h1), rep_appendN x n h1 (hk h1), Res.ok_map]
    · rw [if_neg (by simpa using h1), if_neg (by simp [h0, h1])]

/-- `append` of a range, for a vector known by its elements. -/
theorem appendRange_ok {cap : Nat} {l : List α} (fwd : Bool) (xs : List α) (hc : Countable cap l.length)
    (hm : fwd = false → l.length + xs.length ≤ cap) (hb : l.length ≤ cap)
    (hk : l.length + xs.length ≤ cap → Countable cap (l.length + xs.length)) :
    (rep cap l).appendRange cap fwd xs
      = if l.length + xs.length ≤ cap then .ok (rep cap (l ++ xs), some ()) else .ok (rep cap l, none) := by
  unfold Vec.appendRange
  cases xs with
  | nil => simp [hb]
  | cons x xs =>
    rw [if_neg (by simp), fits_eq hc.1, show (rep cap l).nelem = l.length from rfl]
    by_cases h1 : l.length + (x :: xs).length ≤ cap
    · rw [if_pos (by cases fwd <;> simp_all), if_pos h1, rep_appendRange _ h1 (hk h1), Res.ok_map]
    · have hf : fwd = true := by
        cases fwd
        · exact absurd (hm rfl) h1
        · rfl
      subst hf
      rw [if_neg (by simpa using h1), if_neg h1]

/-- `push_back`, for a vector known by its elements. -/
theorem pushBack_ok {cap : Nat} {l : List α} (x : α) (hc : Countable cap l.length)
    (hk : l.length + 1 ≤ cap → Countable cap (l.length + 1)) :
    (rep cap l).pushBack cap x
      = if l.length + 1 ≤ cap then .ok (rep cap (l ++ [x]), some ()) else .ok (rep cap l, none) := by
  unfold Vec.pushBack
  rw [fits_eq hc.1, show (rep cap l).nelem = l.length from rfl]
  by_cases h1 : l.length + 1 ≤ cap
  · rw [if_pos (by simpa using h1), if_pos h1, rep_emplace h1 (hk h1), Res.ok_map]
  · rw [if_neg (by simpa using h1), if_neg h1]

/-- Moving the new elements to their place. -/
theorem swizzle_ok {cap : Nat} {l xs : List α} {pos : Nat} (hp : pos ≤ l.length) :
    Vec.swizzle (.ok (rep cap (l ++ xs), some ())) pos l.length
      = .ok (rep cap (l.take pos ++ xs ++ l.drop pos), some ()) := by
  unfold Vec.swizzle
  rw [Res.ok_bind]
  dsimp only
  rw [rep_rotate hp (by simp), Res.ok_map, List.take_append_of_le_length hp]
  simp

/-- What `put` says about an exception. -/
def flag (t : Bool) : Option Unit := if t then none else some ()

/-- C154 for one call.  If a vector has exactly the elements `l`, a call that is allowed leaves it with exactly the elements
that the same call makes of the list, and throws exactly if there is no such position or no room.  Nothing is
constructed on top of an object, nothing is destroyed that is not there, and no cell outside is touched (these would be
undefined behaviour).

Missing for the full statement: capacities of 256, 65536 and 2^32 if the vector becomes full (`C154_false`), and ranges that
can be read only once if they are too long (`C154_input_false`). -/
theorem C154_step_partial {cap : Nat} {v : Vec α} {l l' : List α} {t : Bool} {o : Op α} (h : Holds cap v l)
    (hm : o.Measured cap l) (he : expected cap l o = some (l', t)) (hc : Countable cap l'.length) :
    ∃ v', v.step cap o = .ok (v', flag t) ∧ Holds cap v' l' := by
  have hv := h.eq
  subst hv
  have hb := h.bound
  have h0 := h.count
  cases o with
  | append n x =>
    have key := append_ok n x h0 (fun hle => by
      simp [expected, put, hle] at he; rw [← he.1] at hc; simpa using hc)
    simp only [expected, put, Option.some.injEq, List.length_replicate, Nat.le_refl, true_and] at he
    simp only [Vec.step, key]
    split at he
    · next hle =>
      cases he
      rw [if_pos (.inl hle)]
      exact ⟨_, rfl, by simpa using rep_holds (l := l ++ List.replicate n x) (by simp; omega) (by simpa using hc)⟩
    · next hle =>
      cases he
      rw [if_neg (by omega)]
      exact ⟨_, rfl, h⟩
  | appendRange fwd xs =>
    have key := appendRange_ok fwd xs h0 (by intro e; subst e; exact hm) hb (fun hle => by
      simp [expected, put, hle] at he; rw [← he.1] at hc; simpa using hc)
    simp only [expected, put, Option.some.injEq, Nat.le_refl, true_and] at he
    simp only [Vec.step, key]
    split at he
    · next hle =>
      cases he
      rw [if_pos hle]
      exact ⟨_, rfl, by simpa using rep_holds (l := l ++ xs) (by simpa using hle) (by simpa using hc)⟩
    · next hle =>
      cases he
      rw [if_neg hle]
      exact ⟨_, rfl, h⟩
  | pushBack x =>
    have key := pushBack_ok x h0 (fun hle => by
      simp [expected, put, hle] at he; rw [← he.1] at hc; simpa using hc)
    simp only [expected, put, Option.some.injEq, List.length_singleton, Nat.le_refl, true_and] at he
    simp only [Vec.step, key]
    split at he
    · next hle =>
      cases he
      rw [if_pos hle]
      exact ⟨_, rfl, by simpa using rep_holds (l := l ++ [x]) (by simpa using hle) (by simpa using hc)⟩
    · next hle =>
      cases he
      rw [if_neg hle]
      exact ⟨_, rfl, h⟩
  | insert pos x =>
    simp only [expected, put, Option.some.injEq, List.length_singleton] at he
    simp only [Vec.step, Vec.insert, show (rep cap l).nelem = l.length from rfl]
    by_cases hp : pos ≤ l.length
    · rw [if_pos hp]
      have key := pushBack_ok x h0 (fun hle => by
        rw [if_pos ⟨hp, hle⟩] at he; cases he; simp at hc; exact hc.mono (by omega))
      rw [key]
      by_cases hle : l.length + 1 ≤ cap
      · rw [if_pos ⟨hp, hle⟩] at he
        cases he
        rw [if_pos hle, swizzle_ok hp]
        exact ⟨_, rfl, rep_holds (by simp; omega) hc⟩
      · rw [if_neg (fun e => hle e.2)] at he
        cases he
        rw [if_neg hle]
        exact ⟨_, rfl, h⟩
    · rw [if_neg hp]
      rw [if_neg (fun e => hp e.1)] at he
      cases he
      exact ⟨_, rfl, h⟩
  | insertN pos n x =>
    simp only [expected, put, Option.some.injEq, List.length_replicate] at he
    simp only [Vec.step, Vec.insertN, show (rep cap l).nelem = l.length from rfl]
    by_cases hp : pos ≤ l.length
    · rw [if_pos hp]
      have key := append_ok n x h0 (fun hle => by
        rw [if_pos ⟨hp, hle⟩] at he; cases he; simp at hc; exact hc.mono (by omega))
      rw [key]
      by_cases hle : l.length + n ≤ cap
      · rw [if_pos ⟨hp, hle⟩] at he
        cases he
        rw [if_pos (.inl hle), swizzle_ok hp]
        exact ⟨_, rfl, rep_holds (by simp; omega) hc⟩
      · rw [if_neg (fun e => hle e.2)] at he
        cases he
        rw [if_neg (by omega)]
        exact ⟨_, rfl, h⟩
    · rw [if_neg hp]
      rw [if_neg (fun e => hp e.1)] at he
      cases he
      exact ⟨_, rfl, h⟩
  | insertRange pos fwd xs =>
    simp only [expected, put, Option.some.injEq] at he
    simp only [Vec.step, Vec.insertRange, show (rep cap l).nelem = l.length from rfl]
    by_cases hp : pos ≤ l.length
    · rw [if_pos hp]
      have key := appendRange_ok fwd xs h0 (by intro e; subst e; exact hm) hb (fun hle => by
        rw [if_pos ⟨hp, hle⟩] at he; cases he; simp at hc; exact hc.mono (by omega))
      rw [key]
      by_cases hle : l.length + xs.length ≤ cap
      · rw [if_pos ⟨hp, hle⟩] at he
        cases he
        rw [if_pos hle, swizzle_ok hp]
        exact ⟨_, rfl, rep_holds (by simp; omega) hc⟩
      · rw [if_neg (fun e => hle e.2)] at he
        cases he
        rw [if_neg hle]
        exact ⟨_, rfl, h⟩
    · rw [if_neg hp]
      rw [if_neg (fun e => hp e.1)] at he
      cases he
      exact ⟨_, rfl, h⟩
  | erase pos n =>
    simp only [expected, Option.some.injEq] at he
    simp only [Vec.step, Vec.erase, show (rep cap l).nelem = l.length from rfl]
    by_cases hp : pos ≤ l.length
    · rw [if_pos hp] at he ⊢
      cases he
      unfold Vec.eraseUnchecked
      rw [rep_rotate (by omega) (by omega), Res.ok_bind]
      have hl : (l.take pos ++ l.drop (pos + min (l.length - pos) n)
          ++ (l.take (pos + min (l.length - pos) n)).drop pos).length = l.length := by simp; omega
      rw [rep_popN _ (by omega) (by omega), Res.ok_map, hl]
      have e : (l.take pos ++ l.drop (pos + min (l.length - pos) n)
          ++ (l.take (pos + min (l.length - pos) n)).drop pos).take (l.length - min (l.length - pos) n)
          = l.take pos ++ l.drop (pos + n) := by
        rw [List.take_append_of_le_length (by simp; omega), List.take_of_length_le (by simp; omega)]
        congr 1
        by_cases hn : n ≤ l.length - pos
        · rw [Nat.min_eq_right hn]
        · rw [Nat.min_eq_left (by omega), List.drop_of_length_le (by omega), List.drop_of_length_le (by omega)]
      rw [e]
      exact ⟨_, rfl, rep_holds (by simp; omega) hc⟩
    · rw [if_neg hp] at he ⊢
      cases he
      exact ⟨_, rfl, h⟩
  | popBack n =>
    simp only [expected] at he
    split at he
    · next hn =>
      cases he
      simp only [Vec.step, Vec.popBack, rep_popN n hb hn, Res.ok_map]
      exact ⟨_, rfl, rep_holds (by simp; omega) hc⟩
    · cases he
  | clear =>
    simp only [expected, Option.some.injEq] at he
    cases he
    simp only [Vec.step, Vec.clear, show (rep cap l).nelem = l.length from rfl, rep_popN _ hb (Nat.le_refl _), Res.ok_map]
    exact ⟨_, rfl, by simpa using rep_holds (cap := cap) (l := ([] : List α)) (by simp) hc⟩
  | resize n x =>
    simp only [expected, Option.some.injEq] at he
    simp only [Vec.step, Vec.resize, show (rep cap l).nelem = l.length from rfl]
    by_cases hn : l.length < n
    · rw [if_pos hn]
      have key := append_ok (n - l.length) x h0 (fun hle => by
        rw [if_pos (by omega)] at he; cases he; exact hc.mono (by simp; omega))
      rw [key]
      by_cases hle : n ≤ cap
      · rw [if_pos hle] at he
        cases he
        rw [if_pos (.inl (by omega)), List.take_of_length_le (by omega)]
        rw [List.take_of_length_le (by omega)] at hc
        exact ⟨_, rfl, rep_holds (by simp; omega) hc⟩
      · rw [if_neg hle] at he
        cases he
        rw [if_neg (by omega)]
        exact ⟨_, rfl, h⟩
    · rw [if_neg hn]
      rw [if_pos (by omega)] at he
      cases he
      rw [show n - l.length = 0 by omega, List.replicate_zero, List.append_nil] at hc ⊢
      simp only [Vec.popBack, rep_popN (l.length - n) hb (by omega), Res.ok_map]
      rw [show l.length - (l.length - n) = n by omega]
      exact ⟨_, rfl, rep_holds (by simp; omega) hc⟩
  | reserve n =>
    simp only [expected, Option.some.injEq, Prod.mk.injEq] at he
    obtain ⟨rfl, rfl⟩ := he
    simp only [Vec.step, Vec.reserve, fits_eq h0.1, Nat.zero_add]
    by_cases hn : n ≤ cap
    · rw [if_pos (by simpa using hn)]
      exact ⟨_, by simp [flag, hn], h⟩
    · rw [if_neg (by simpa using hn)]
      exact ⟨_, by simp [flag]; omega, h⟩
  | assign n x =>
    simp only [expected, Option.some.injEq] at he
    simp only [Vec.step, Vec.assign, Vec.clear, show (rep cap l).nelem = l.length from rfl, rep_popN _ hb (Nat.le_refl _),
      Res.ok_bind, Nat.sub_self, List.take_zero]
    have key := append_ok (cap := cap) (l := []) n x (h0.mono (by simp)) (fun hle => by
      rw [if_pos (by simpa using hle)] at he; cases he; simpa using hc)
    rw [key]
    by_cases hle : n ≤ cap
    · rw [if_pos hle] at he
      cases he
      rw [if_pos (.inl (by simpa using hle))]
      exact ⟨_, rfl, rep_holds (by simpa using hle) hc⟩
    · rw [if_neg hle] at he
      cases he
      rw [if_neg (by simp; omega)]
      exact ⟨_, rfl, rep_holds (by simp) hc⟩
  | assignRange fwd xs =>
    simp only [expected, Option.some.injEq] at he
    simp only [Vec.step, Vec.assignRange, Vec.clear, show (rep cap l).nelem = l.length from rfl,
      rep_popN _ hb (Nat.le_refl _), Res.ok_bind, Nat.sub_self, List.take_zero]
    have key := appendRange_ok (cap := cap) (l := []) fwd xs (h0.mono (by simp))
      (by intro e; subst e; simpa using (show xs.length ≤ cap from hm)) (by simp) (fun hle => by
      rw [if_pos (by simpa using hle)] at he; cases he; simpa using hc)
    rw [key]
    by_cases hle : xs.length ≤ cap
    · rw [if_pos hle] at he
      cases he
      rw [if_pos (by simpa using hle)]
      exact ⟨_, rfl, rep_holds (by simpa using hle) hc⟩
    · rw [if_neg hle] at he
      cases he
      rw [if_neg (by simpa using hle)]
      exact ⟨_, rfl, rep_holds (by simp) hc⟩
  | «mut» pos x =>
    simp only [expected, Option.some.injEq] at he
    simp only [Vec.step, Vec.mut, show (rep cap l).nelem = l.length from rfl]
    by_cases hp : pos < l.length
    · rw [if_pos hp] at he ⊢
      cases he
      rw [rep_store hp, Res.ok_map]
      exact ⟨_, rfl, rep_holds (by simpa using hb) hc⟩
    · rw [if_neg hp] at he ⊢
      cases he
      exact ⟨_, rfl, h⟩

/-- Insertion in the middle, and an insertion for which there is no room. -/
example : expected 4 ['a', 'b'] (.insertN 1 2 'x') = some (['a', 'x', 'x', 'b'], false)
    ∧ expected 4 ['a', 'b'] (.insertN 1 3 'x') = some (['a', 'b'], true) := by
  constructor <;> rfl

/-- C154 for programs: whatever calls are made, one after another, including those that throw, the vector behaves as the
list. -/
theorem C154_run_partial {cap : Nat} {l l' : List α} {os : List (Op α)} {ts : List Bool} (hr : Runs cap l os l' ts) :
    ∀ {v : Vec α}, Holds cap v l → ∃ v', v.run cap os = .ok (v', ts) ∧ Holds cap v' l' := by
  induction hr with
  | nil => intro v h; exact ⟨v, rfl, h⟩
  | cons hm he hc _ ih =>
    rename_i t _ _ _ _
    intro v h
    obtain ⟨v1, e1, h1⟩ := C154_step_partial h hm he hc
    obtain ⟨v2, e2, h2⟩ := ih h1
    refine ⟨v2, ?_, h2⟩
    unfold Vec.run
    rw [e1, Res.ok_bind, e2, Res.ok_map]
    cases t <;> rfl

/-- A new vector is empty. -/
theorem C154_new {cap : Nat} (h : Countable cap 0) : Holds cap (Vec.new cap : Vec α) [] :=
  ⟨rfl, by simp, by simp [Vec.new], h⟩

example : Runs 3 ([] : List Nat) [.pushBack 5, .insert 0 4, .append 2 9, .erase 0 1] [5] [false, false, true, false] :=
  .cons trivial rfl (by simp [Countable]) <| .cons trivial rfl (by simp [Countable]) <|
    .cons trivial rfl (by simp [Countable]) <| .cons trivial rfl (by simp [Countable]) .nil

/-- C154 for calls that read: `at`, `ptr` and `back`, and `subvec`, which makes a new vector. -/
theorem C154_read {cap : Nat} {v : Vec α} {l : List α} (h : Holds cap v l) :
    (∀ pos, v.at pos = .ok (v, l[pos]?)) ∧ (∀ pos, v.ptr pos = .ok l[pos]?)
      ∧ (∀ x, l.getLast? = some x → v.back = .ok x)
      ∧ (∀ pos n, pos ≤ l.length → ∃ w, v.subvec cap pos n = .ok (v, some w) ∧ Holds cap w ((l.drop pos).take n))
      ∧ (∀ pos n, l.length < pos → v.subvec cap pos n = .ok (v, none)) := by
  have hv := h.eq
  subst hv
  have hb := h.bound
  have h0 := h.count
  refine ⟨fun pos => ?_, fun pos => ?_, fun x hx => ?_, fun pos n hp => ?_, fun pos n hp => ?_⟩
  · unfold Vec.at
    by_cases hp : pos < l.length
    · rw [if_pos (show pos < (rep cap l).nelem from hp), rep_read hp, Res.ok_map, List.getElem?_eq_getElem hp]
    · rw [if_neg (show ¬ pos < (rep cap l).nelem from hp), List.getElem?_eq_none (by omega)]
  · unfold Vec.ptr
    by_cases hp : pos < l.length
    · rw [if_pos (show pos < (rep cap l).nelem from hp), rep_read hp, Res.ok_map, List.getElem?_eq_getElem hp]
    · rw [if_neg (show ¬ pos < (rep cap l).nelem from hp), List.getElem?_eq_none (by omega)]
  · have hl : 0 < l.length := by
      cases l with
      | nil => simp at hx
      | cons => simp
    unfold Vec.back
    rw [if_neg (show ¬ (rep cap l).nelem = 0 from by show ¬ l.length = 0; omega)]
    rw [show (rep cap l).nelem - 1 = l.length - 1 from rfl, rep_read (by omega)]
    rw [List.getLast?_eq_getElem?, List.getElem?_eq_getElem (by omega)] at hx
    cases hx
    rfl
  · unfold Vec.subvec
    rw [if_pos (show pos ≤ (rep cap l).nelem from hp), show (rep cap l).nelem = l.length from rfl,
      rep_slice _ _ (by omega), Res.ok_bind]
    have hn : (Vec.new cap : Vec α) = rep cap [] := by simp [Vec.new, rep]
    have hlen : ((l.drop pos).take (min (l.length - pos) n)).length ≤ l.length := by simp; omega
    rw [hn, rep_appendRange _ (by simpa using Nat.le_trans hlen hb) (h0.mono (by simpa using hlen)), Res.ok_map]
    refine ⟨_, rfl, ?_⟩
    have e : (l.drop pos).take (min (l.length - pos) n) = (l.drop pos).take n := by
      rw [Nat.min_comm, ← List.length_drop, ← List.take_eq_take_min]
    rw [List.nil_append, e]
    rw [e] at hlen
    exact rep_holds (by omega) (h0.mono hlen)
  · unfold Vec.subvec
    rw [if_neg (show ¬ pos ≤ (rep cap l).nelem from by show ¬ pos ≤ l.length; omega)]

example : Holds 3 (⟨2, [some 'a', some 'b', none]⟩ : Vec Char) ['a', 'b'] := ⟨rfl, by decide, rfl, by simp [Countable]⟩

/-- C154 for assignment and construction from another vector: afterwards both have the elements of the other one; if it
is moved from, it keeps as many elements, of which moving has left what it leaves of values. -/
theorem C154_take {cap : Nat} (husk : α → α) {v w : Vec α} {l m : List α} (hv : Holds cap v l) (hw : Holds cap w m) :
    ∃ v' w', v.takeFrom cap husk w = .ok (v', w') ∧ Holds cap v' m ∧ Holds cap w' (m.map husk) := by
  have e1 := hv.eq
  have e2 := hw.eq
  subst e1 e2
  refine ⟨rep cap m, rep cap (m.map husk), ?_, hw, rep_holds (by simpa using hw.bound) (by simpa using hw.count)⟩
  unfold Vec.takeFrom
  simp only [show (rep cap l).nelem = l.length from rfl, show (rep cap m).nelem = m.length from rfl]
  by_cases h : l.length < m.length
  · rw [if_pos h]
    have h1 := assignLoop_eq (cap := cap) husk l (m.take l.length) [] [] [] (m.drop l.length) rfl (by simp; omega)
    simp only [List.nil_append, List.append_nil, List.take_append_drop, List.length_nil] at h1
    rw [h1, Res.ok_bind]
    have h2 := emplaceLoop_eq (cap := cap) husk (m.drop l.length) (m.take l.length) ((m.take l.length).map husk) (by simp)
      (by simp; have := hw.bound; omega) (hw.count.mono (by simp; omega))
    rw [List.take_append_drop, ← List.map_append, List.take_append_drop,
      show (m.take l.length).length = l.length by simp; omega, show (m.drop l.length).length = m.length - l.length by simp] at h2
    exact h2
  · rw [if_neg h]
    have h1 := assignLoop_eq (cap := cap) husk (l.take m.length) m [] [] (l.drop m.length) [] rfl (by simp; omega)
    simp only [List.nil_append, List.append_nil, List.take_append_drop, List.length_nil] at h1
    rw [show (l.take m.length).length = m.length by simp; omega] at h1
    rw [h1, Res.ok_bind]
    dsimp only
    have hl : (m ++ l.drop m.length).length = l.length := by simp; omega
    rw [rep_popN _ (by rw [hl]; exact hv.bound) (by rw [hl]; omega), hl, Res.ok_map,
      show l.length - (l.length - m.length) = m.length by omega]
    simp

/-- C154 for `swap`: the vectors exchange their elements. -/
theorem C154_swap {cap : Nat} (husk : α → α) {v w : Vec α} {l m : List α} (hv : Holds cap v l) (hw : Holds cap w m) :
    ∃ v' w', v.exchangeWith cap husk w = .ok (v', w') ∧ Holds cap v' m ∧ Holds cap w' l := by
  have e1 := hv.eq
  have e2 := hw.eq
  subst e1 e2
  refine ⟨rep cap m, rep cap l, ?_, hw, hv⟩
  unfold Vec.exchangeWith
  simp only [show (rep cap l).nelem = l.length from rfl, show (rep cap m).nelem = m.length from rfl]
  by_cases h : l.length < m.length
  · rw [if_pos h]
    have h1 := swapLoop_eq (cap := cap) l (m.take l.length) [] [] [] (m.drop l.length) rfl (by simp; omega)
    simp only [List.nil_append, List.append_nil, List.take_append_drop, List.length_nil] at h1
    rw [h1, Res.ok_bind]
    have h2 := emplaceLoop_eq (cap := cap) husk (m.drop l.length) (m.take l.length) l (by simp; omega)
      (by simp; have := hw.bound; omega) (hw.count.mono (by simp; omega))
    rw [List.take_append_drop,
      show (m.take l.length).length = l.length by simp; omega, show (m.drop l.length).length = m.length - l.length by simp] at h2
    dsimp only
    rw [h2, Res.ok_bind]
    dsimp only
    have hl : (l ++ (m.drop l.length).map husk).length = m.length := by simp; omega
    rw [rep_popN _ (by rw [hl]; exact hw.bound) (by rw [hl]; omega), hl, Res.ok_map,
      show m.length - (m.length - l.length) = l.length by omega]
    simp
  · rw [if_neg h]
    have h1 := swapLoop_eq (cap := cap) (l.take m.length) m [] [] (l.drop m.length) [] rfl (by simp; omega)
    simp only [List.nil_append, List.append_nil, List.take_append_drop, List.length_nil] at h1
    rw [show (l.take m.length).length = m.length by simp; omega] at h1
    rw [h1, Res.ok_bind]
    have h2 := emplaceLoop_eq (cap := cap) husk (l.drop m.length) (l.take m.length) m (by simp; omega)
      (by simp; have := hv.bound; omega) (hv.count.mono (by simp; omega))
    rw [List.take_append_drop,
      show (l.take m.length).length = m.length by simp; omega, show (l.drop m.length).length = l.length - m.length by simp] at h2
    dsimp only
    rw [h2, Res.ok_bind]
    dsimp only
    have hl : (m ++ (l.drop m.length).map husk).length = l.length := by simp; omega
    rw [rep_popN _ (by rw [hl]; exact hv.bound) (by rw [hl]; omega), hl, Res.ok_map,
      show l.length - (l.length - m.length) = m.length by omega]
    simp

example : Holds 3 (⟨1, [some 'x', none, none]⟩ : Vec Char) ['x'] := ⟨rfl, by decide, rfl, by simp [Countable]⟩

/-- C154 for the destructor: every element is destroyed once, and nothing is left. -/
theorem C154_destroy {cap : Nat} {v : Vec α} {l : List α} (h : Holds cap v l) : v.destroy = .ok (List.replicate cap none) := by
  have hv := h.eq
  subst hv
  have hb := h.bound
  unfold Vec.destroy
  have := rep_destroy (cap := cap) (m := l.length) l.length l (cap - l.length) rfl
  rw [show l.length + (cap - l.length) = cap by omega] at this
  exact this

/-- C154: removing more elements than there are fails an assertion. -/
theorem C154_pop {cap : Nat} {v : Vec α} {l : List α} {n : Nat} (h : Holds cap v l) (hn : l.length < n) :
    v.step cap (.popBack n) = .ub := by
  have hv := h.eq
  subst hv
  simp only [Vec.step, Vec.popBack, rep_popN_ub n h.bound hn]
  rfl

/-- C154 is false for full vectors of 256, 65536 or 2^32 elements: `nelem_type` is chosen for the capacity minus one and
cannot represent the capacity, so adding the last element makes the number of elements zero.  The vector then appears
empty, and its elements are never destroyed. -/
theorem C154_false {cap : Nat} (hcap : cap = 256 ∨ cap = 65536 ∨ cap = 4294967296) {v : Vec α} {l : List α}
    (h : Holds cap v l) (hl : l.length + 1 = cap) (x : α) :
    expected cap l (.pushBack x) = some (l ++ [x], false)
      ∧ ∃ v', v.step cap (.pushBack x) = .ok (v', some ()) ∧ v'.nelem = 0 ∧ v'.clear = .ok v'
        ∧ v'.cells = (l ++ [x]).map some := by
  have hv := h.eq
  subst hv
  have hm : countMod cap = cap := by
    rcases hcap with rfl | rfl | rfl <;> rfl
  refine ⟨by simp [expected, put, hl], ⟨0, (l ++ [x]).map some⟩, ?_, rfl, rfl, rfl⟩
  simp only [Vec.step, Vec.pushBack, fits_eq h.count.1, show (rep cap l).nelem = l.length from rfl]
  rw [if_pos (by simp; omega)]
  unfold Vec.emplaceBackUnchecked
  have hd : cap - l.length = 1 := by omega
  have hg : (rep cap l).cells[(rep cap l).nelem]? = some none := by simp [rep, hd]
  rw [if_pos (show (rep cap l).nelem < cap from by show l.length < cap; omega), hg]
  simp only [hm, show (rep cap l).nelem = l.length from rfl, hl, Nat.mod_self]
  simp [rep, hd, List.set_append_right]

/-- There are such vectors. -/
example : Holds 256 (rep 256 (List.replicate 255 'x')) (List.replicate 255 'x') ∧ (List.replicate 255 'x').length + 1 = 256 :=
  ⟨rep_holds (by rw [List.length_replicate]; omega) (by rw [List.length_replicate]; exact ⟨by decide, .inl (by decide)⟩),
    by rw [List.length_replicate]⟩

/-- C154 is false for ranges that can be read only once: their length is taken to be zero, so they pass the check, and
the assertion in `emplace_back_unchecked` fails instead of `length_error` being thrown; without assertions, objects are
constructed beyond the storage. -/
theorem C154_input_false {cap : Nat} {v : Vec α} {l xs : List α} (h : Holds cap v l) (hc : Countable cap cap)
    (hx : cap < l.length + xs.length) :
    expected cap l (.appendRange false xs) = some (l, true) ∧ v.step cap (.appendRange false xs) = .ub := by
  have hv := h.eq
  subst hv
  refine ⟨by simp [expected, put]; omega, ?_⟩
  have hne : xs ≠ [] := by
    intro e; subst e; have := h.bound; simp at hx; omega
  have key : ∀ (xs : List α) (l : List α), l.length ≤ cap → cap < l.length + xs.length →
      (rep cap l).appendRangeUnchecked cap xs = .ub := by
    intro xs
    induction xs with
    | nil => intro l h1 h2; simp at h2; omega
    | cons x xs ih =>
      intro l h1 h2
      simp only [List.length_cons] at h2
      unfold Vec.appendRangeUnchecked
      by_cases h3 : l.length < cap
      · rw [rep_emplace h3 (hc.mono (by omega)), Res.ok_bind]
        exact ih _ (by simp; omega) (by simp; omega)
      · unfold Vec.emplaceBackUnchecked
        rw [if_neg (show ¬ (rep cap l).nelem < cap from h3)]
        rfl
  simp only [Vec.step, Vec.appendRange]
  rw [if_neg (by simpa using hne), fits_eq h.count.1, if_pos (by simpa [rep] using h.bound), key xs l h.bound hx]
  rfl

example : Countable 3 3 ∧ 3 < ['a', 'b'].length + ['c', 'd'].length := ⟨by simp [Countable], by decide⟩

end Asteria.StaticVector
