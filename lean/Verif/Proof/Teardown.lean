import Verif.Spec.Teardown

/-!
# Destruction of values: lemmas
-/

namespace Asteria.Teardown

open Spec

theorem held_nil (f : Val → Nat) : held f [] = 0 := rfl
theorem held_cons (f : Val → Nat) (v : Val) (l : List Val) : held f (v :: l) = f v + held f l := rfl
theorem held_append (f : Val → Nat) (a b : List Val) : held f (a ++ b) = held f a + held f b := by
  simp [held]

theorem held_one (l : List Val) : held one l = l.length := by
  induction l with
  | nil => rfl
  | cons v l ih => rw [held_cons, ih, List.length_cons, one, Nat.add_comm]

theorem held_mem {f : Val → Nat} {v : Val} {l : List Val} (h : v ∈ l) : f v ≤ held f l := by
  induction l with
  | nil => cases h
  | cons w l ih =>
    rw [held_cons]
    rcases List.mem_cons.1 h with rfl | h
    · omega
    · have := ih h; omega

theorem held_pos {i : Nat} {l : List Val} (h : 0 < held (refers i) l) : ∃ v ∈ l, refers i v = 1 := by
  induction l with
  | nil => cases h
  | cons w l ih =>
    rw [held_cons] at h
    by_cases hw : refers i w = 0
    · obtain ⟨v, h1, h2⟩ := ih (by omega)
      exact ⟨v, List.mem_cons_of_mem _ h1, h2⟩
    · refine ⟨w, List.mem_cons_self, ?_⟩
      unfold refers at hw ⊢
      split
      · rfl
      · rename_i e; rw [if_neg e] at hw; exact absurd rfl hw

theorem sum_set (l : List Nat) (i : Nat) (x : Nat) (h : i < l.length) :
    (l.set i x).sum + l[i] = l.sum + x := by
  induction l generalizing i with
  | nil => cases h
  | cons a l ih =>
    cases i with
    | zero => simp; omega
    | succ i =>
      have := ih i (by simpa using h)
      simp; omega

theorem cell_some {st : State} {i : Nat} {c : Cell} (h : st.cell i = some c) :
    ∃ hi : i < st.cells.length, st.cells[i] = some c := by
  unfold State.cell at h
  cases hc : st.cells[i]? with
  | none => rw [hc] at h; cases h
  | some o =>
    rw [hc] at h
    obtain ⟨h1, h2⟩ := List.getElem?_eq_some_iff.1 hc
    exact ⟨h1, by rw [h2]; exact h⟩

theorem cell_store {st : State} {i : Nat} {c : Cell} (h : st.cell i = some c) (d : Option Cell) (j : Nat) :
    (st.store i d).cell j = if j = i then d else st.cell j := by
  obtain ⟨hi, _⟩ := cell_some h
  unfold State.cell State.store
  dsimp only
  by_cases e : j = i
  · subst e; rw [List.getElem?_set_self hi, if_pos rfl]; rfl
  · rw [List.getElem?_set_ne (fun e' => e e'.symm), if_neg e]

theorem inside_store {st : State} {i : Nat} {c : Cell} (h : st.cell i = some c) (d : Option Cell) (f : Val → Nat) :
    inside f (st.store i d) + held f c.kids = inside f st + inCell f d := by
  obtain ⟨hi, h2⟩ := cell_some h
  unfold inside State.store
  dsimp only
  rw [List.map_set]
  have := sum_set (st.cells.map (inCell f)) i (inCell f d) (by simpa using hi)
  simp only [List.getElem_map, h2] at this
  exact this

theorem inside_mem {st : State} {i : Nat} {c : Cell} (h : st.cell i = some c) (f : Val → Nat) :
    held f c.kids ≤ inside f st := by
  have := inside_store h none f
  have e : inCell f none = 0 := rfl
  omega

theorem inside_pos {st : State} {i : Nat} (h : 0 < inside (refers i) st) : ∃ a, Contains st a i := by
  unfold inside at h
  have key : ∀ l : List (Option Cell), 0 < (l.map (inCell (refers i))).sum →
      ∃ (a : Nat) (c : Cell), l[a]? = some (some c) ∧ 0 < held (refers i) c.kids := by
    intro l
    induction l with
    | nil => intro h; cases h
    | cons o l ih =>
      intro h
      rw [List.map_cons, List.sum_cons] at h
      by_cases ho : inCell (refers i) o = 0
      · obtain ⟨a, c, h1, h2⟩ := ih (by omega)
        exact ⟨a + 1, c, by simpa using h1, h2⟩
      · cases o with
        | none => exact absurd rfl ho
        | some c => exact ⟨0, c, rfl, Nat.pos_of_ne_zero ho⟩
  obtain ⟨a, c, h1, h2⟩ := key _ h
  refine ⟨a, c, ?_, held_pos h2⟩
  unfold State.cell
  rw [h1]; rfl

/-- What pushing the elements does. -/
theorem push_spec (f : Val → Nat) (hf : f .plain = 0) (l : List Val) : ∀ (room : Nat) (stack : List Val),
    (push room stack l).room + (push room stack l).stack.length = room + stack.length ∧
    held f (push room stack l).stack + held f (push room stack l).kids = held f stack + held f l ∧
    (push room stack l).kids.length = l.length := by
  induction l with
  | nil => intro room stack; exact ⟨rfl, rfl, rfl⟩
  | cons v l ih =>
    intro room stack
    unfold push
    by_cases h : room = 0
    · rw [if_pos h]
      refine ⟨?_, rfl, rfl⟩
      dsimp only; omega
    · rw [if_neg h]
      obtain ⟨h1, h2, h3⟩ := ih (room - 1) (v :: stack)
      dsimp only
      rw [List.length_cons] at h1
      rw [held_cons] at h2 ⊢
      rw [held_cons]
      exact ⟨by omega, by omega, by simp [h3]⟩

theorem push_done (l : List Val) : ∀ (room : Nat) (stack : List Val), (push room stack l).done = true →
    (push room stack l).stack = l.reverse ++ stack ∧ (push room stack l).kids = List.replicate l.length .plain ∧
    (push room stack l).room + l.length = room := by
  induction l with
  | nil => intro room stack _; exact ⟨rfl, rfl, rfl⟩
  | cons v l ih =>
    intro room stack
    unfold push
    by_cases h : room = 0
    · rw [if_pos h]; intro e; cases e
    · rw [if_neg h]
      dsimp only
      intro e
      obtain ⟨h1, h2, h3⟩ := ih _ _ e
      rw [h1, h2]
      refine ⟨by simp, by rw [List.length_cons, List.replicate_succ], by rw [List.length_cons]; omega⟩

theorem push_fails (l : List Val) : ∀ (room : Nat) (stack : List Val), (push room stack l).done = false →
    room < l.length := by
  induction l with
  | nil => intro room stack e; cases e
  | cons v l ih =>
    intro room stack
    unfold push
    by_cases h : room = 0
    · intro _; rw [List.length_cons]; omega
    · rw [if_neg h]
      dsimp only
      intro e
      have := ih _ _ e
      rw [List.length_cons]; omega

theorem each_plain (nested : State → Val → Res State) (n : Nat) (st : State) :
    each nested st (List.replicate n .plain) = .ok st := by
  induction n with
  | zero => rfl
  | succ n ih => rw [List.replicate_succ, each, if_pos rfl, Res.ok_bind, ih]

/-- What every round keeps, and what it gets done. -/
structure Step (st : State) (cur : Val) (stack : List Val) (R : List Val) (st' : State) (stack' : List Val) : Prop where
  counted : Counted st' (stack' ++ R)
  total : ∀ f, inside f st' + held f stack' = inside f st + held f stack
  keep : ∀ i c', st'.cell i = some c' → ∃ c, st.cell i = some c ∧ c'.kids = c.kids
  drops : ∀ k, st'.drops.count k = st.drops.count k + isExt k cur
  freed : ∀ i, st'.freed.count i + exist st' i = st.freed.count i + exist st i

theorem refers_box (b : Bool) (i j : Nat) : refers j (.box b (some i)) = if j = i then 1 else 0 := by
  unfold refers
  by_cases e : j = i
  · subst e; cases b <;> simp
  · have : i ≠ j := fun e' => e e'.symm
    cases b <;> simp [e, this]

theorem counted_cast {st st' : State} {l l' : List Val} (h : Counted st l) (hc : ∀ i, st'.cell i = st.cell i)
    (ht : ∀ i, held (refers i) l' + inside (refers i) st' = held (refers i) l + inside (refers i) st) :
    Counted st' l' := by
  intro i
  have := h i
  rw [hc i, ht i]
  exact this

theorem Step.same {st st' : State} {cur : Val} {stack R : List Val} (h : Counted st (cur :: stack ++ R))
    (hr : ∀ i, refers i cur = 0) (hc : st'.cells = st.cells) (hf : st'.freed = st.freed)
    (hd : ∀ k, st'.drops.count k = st.drops.count k + isExt k cur) : Step st cur stack R st' stack := by
  have hcell : ∀ i, st'.cell i = st.cell i := fun i => by unfold State.cell; rw [hc]
  have hin : ∀ f, inside f st' = inside f st := fun f => by unfold inside; rw [hc]
  refine ⟨counted_cast h hcell ?_, ?_, ?_, hd, ?_⟩
  · intro i
    rw [hin, List.cons_append, held_cons, hr]
    omega
  · intro f; rw [hin]
  · intro i c' e; exact ⟨c', by rw [← hcell]; exact e, rfl⟩
  · intro i; unfold exist; rw [hf, hcell]

/-- A reference to a storage that others refer to is dropped. -/
theorem Step.less {st : State} {b : Bool} {i : Nat} {c : Cell} {stack R : List Val}
    (h : Counted st (.box b (some i) :: stack ++ R)) (hc : st.cell i = some c) (h1 : c.cnt ≠ 1) :
    Step st (.box b (some i)) stack R (st.store i (some ⟨c.cnt - 1, c.kids⟩)) stack := by
  have hin : ∀ f, inside f (st.store i (some ⟨c.cnt - 1, c.kids⟩)) = inside f st := fun f => by
    have := inside_store hc (some ⟨c.cnt - 1, c.kids⟩) f
    have e : inCell f (some ⟨c.cnt - 1, c.kids⟩) = held f c.kids := rfl
    omega
  refine ⟨?_, ?_, ?_, ?_, ?_⟩
  · intro j
    have := h j
    rw [cell_store hc, hin]
    rw [List.cons_append, held_cons, refers_box] at this
    by_cases e : j = i
    · subst e
      rw [if_pos rfl, hc] at *
      dsimp only at this ⊢
      omega
    · rw [if_neg e] at *
      rw [Nat.zero_add] at this
      exact this
  · intro f; rw [hin]
  · intro j c' e
    rw [cell_store hc] at e
    by_cases ej : j = i
    · subst ej; rw [if_pos rfl] at e; cases e; exact ⟨c, hc, rfl⟩
    · rw [if_neg ej] at e; exact ⟨c', e, rfl⟩
  · intro k; simp [State.store, isExt]
  · intro j
    unfold exist
    rw [cell_store hc]
    by_cases ej : j = i
    · subst ej; simp [State.store, hc]
    · simp [State.store, ej]

/-- The last reference to a storage is dropped, and what was in it is on the stack. -/
theorem Step.last {st : State} {b : Bool} {i : Nat} {c : Cell} {stack R : List Val}
    (h : Counted st (.box b (some i) :: stack ++ R)) (hc : st.cell i = some c) (h1 : c.cnt = 1) :
    Step st (.box b (some i)) stack R (st.free i) (c.kids.reverse ++ stack) := by
  have hin : ∀ f, inside f (st.free i) + held f c.kids = inside f st := fun f => by
    have := inside_store hc none f
    exact this
  have hcell : ∀ j, (st.free i).cell j = if j = i then none else st.cell j :=
    fun j => cell_store hc none j
  have hrev : ∀ f, held f c.kids.reverse = held f c.kids := fun f => by simp [held, List.sum_reverse]
  refine ⟨?_, ?_, ?_, ?_, ?_⟩
  · intro j
    have hj := h j
    have hk := hin (refers j)
    rw [hcell]
    rw [List.cons_append, held_cons, refers_box] at hj
    rw [List.append_assoc, held_append, hrev]
    by_cases e : j = i
    · subst e
      rw [if_pos rfl] at hj ⊢
      rw [hc] at hj
      dsimp only at hj ⊢
      omega
    · rw [if_neg e] at hj ⊢
      rw [Nat.zero_add] at hj
      cases hcj : st.cell j with
      | none => rw [hcj] at hj; dsimp only at hj ⊢; omega
      | some d => rw [hcj] at hj; dsimp only at hj ⊢; omega
  · intro f
    have := hin f
    rw [held_append, hrev]; omega
  · intro j c' e
    rw [hcell] at e
    by_cases ej : j = i
    · rw [if_pos ej] at e; cases e
    · rw [if_neg ej] at e; exact ⟨c', e, rfl⟩
  · intro k; simp [State.free, State.store, isExt]
  · intro j
    unfold exist
    rw [hcell]
    rw [show (st.free i).freed = i :: st.freed from rfl]
    rw [List.count_cons]
    by_cases ej : j = i
    · subst ej; simp [hc]
    · have : ¬ i = j := fun e => ej e.symm
      simp [ej, this]

/-- What an exception leaves. -/
structure Fail (st : State) (stack R : List Val) (st' : State) (leaked : List Val) : Prop where
  counted : Counted st' (leaked ++ R)
  total : ∀ f, f .plain = 0 → (∀ i b, f (.box b (some i)) = 0) → inside f st' + held f leaked = inside f st + held f stack
  keep : ∀ i c', st'.cell i = some c' → ∃ c, st.cell i = some c ∧
    (c'.kids = c.kids ∨ (c'.cnt = 1 ∧ 0 < held (refers i) leaked))
  drops : st'.drops = st.drops
  freed : ∀ i, st'.freed.count i + exist st' i = st.freed.count i + exist st i

theorem Fail.intro {st : State} {b : Bool} {i : Nat} {c : Cell} {stack R : List Val} (room : Nat)
    (h : Counted st (.box b (some i) :: stack ++ R)) (hc : st.cell i = some c) (h1 : c.cnt = 1) :
    Fail st stack R (st.store i (some ⟨c.cnt, (push room stack c.kids).kids⟩))
      (.box b (some i) :: (push room stack c.kids).stack) := by
  have hin : ∀ f, f .plain = 0 → inside f (st.store i (some ⟨c.cnt, (push room stack c.kids).kids⟩)) +
      held f (push room stack c.kids).stack = inside f st + held f stack := fun f hf => by
    have e1 := inside_store hc (some ⟨c.cnt, (push room stack c.kids).kids⟩) f
    have e2 : inCell f (some ⟨c.cnt, (push room stack c.kids).kids⟩) = held f (push room stack c.kids).kids := rfl
    have e3 := (push_spec f hf c.kids room stack).2.1
    omega
  refine ⟨?_, ?_, ?_, rfl, ?_⟩
  · intro j
    have hj := h j
    have e3 := hin (refers j) rfl
    rw [cell_store hc]
    rw [List.cons_append, held_cons, held_append] at hj ⊢
    by_cases e : j = i
    · subst e
      rw [if_pos rfl]
      rw [hc] at hj
      dsimp only at hj ⊢
      omega
    · rw [if_neg e]
      cases hcj : st.cell j with
      | none => rw [hcj] at hj; dsimp only at hj ⊢; omega
      | some d => rw [hcj] at hj; dsimp only at hj ⊢; omega
  · intro f hf hb
    rw [held_cons, hb]
    have := hin f hf
    omega
  · intro j c' e
    rw [cell_store hc] at e
    by_cases ej : j = i
    · subst ej
      rw [if_pos rfl] at e
      cases e
      refine ⟨c, hc, Or.inr ⟨h1, ?_⟩⟩
      rw [held_cons, refers_box, if_pos rfl]
      omega
    · rw [if_neg ej] at e; exact ⟨c', e, Or.inl rfl⟩
  · intro j
    unfold exist
    rw [cell_store hc]
    by_cases ej : j = i
    · subst ej; simp [State.store, hc]
    · simp [State.store, ej]

/-- One round. -/
def RoundOk (room : Nat) (st : State) (cur : Val) (stack R : List Val) : Round → Prop
  | .more room' st' stack' => Step st cur stack R st' stack' ∧ room' + stack'.length = room + stack.length
  | .failed st' leaked => Fail st stack R st' leaked ∧ room < inside one st ∧ ∀ k, isExt k cur = 0

theorem expand_ok (room : Nat) (st : State) (b : Bool) (p : Option Nat) (stack R : List Val)
    (h : Counted st (.box b p :: stack ++ R)) :
    ∃ r, (∀ nested, expand nested room st (.box b p) p stack = .ok r) ∧ RoundOk room st (.box b p) stack R r := by
  cases p with
  | none =>
    refine ⟨.more room st stack, fun _ => rfl, Step.same h (fun i => by unfold refers; simp) rfl rfl (fun k => ?_), rfl⟩
    simp [isExt]
  | some i =>
    have hi := h i
    rw [List.cons_append, held_cons, refers_box, if_pos rfl] at hi
    cases hc : st.cell i with
    | none => rw [hc] at hi; dsimp only at hi; omega
    | some c =>
      rw [hc] at hi
      dsimp only at hi
      by_cases h1 : c.cnt = 1
      rotate_left
      · refine ⟨.more room (st.store i (some ⟨c.cnt - 1, c.kids⟩)) stack, fun nested => ?_, Step.less h hc h1, rfl⟩
        unfold expand
        dsimp only
        rw [hc]
        dsimp only
        rw [if_neg (fun e => h1 e.2)]
        unfold State.dtor
        dsimp only
        rw [hc]
        dsimp only
        rw [if_neg (by omega), if_pos (by omega)]
        rfl
      by_cases hk : c.kids = []
      · refine ⟨.more room (st.free i) stack, fun nested => ?_, ?_, rfl⟩
        rotate_left
        · have := Step.last h hc h1
          rw [hk] at this
          exact this
        unfold expand
        dsimp only
        rw [hc]
        dsimp only
        rw [if_neg (fun e => e.1 hk)]
        unfold State.dtor
        dsimp only
        rw [hc]
        dsimp only
        rw [if_neg (by omega), if_neg (by omega), hk]
        simp only [each, Res.ok_map, State.free, State.store, List.set_set]
      cases hd : (push room stack c.kids).done with
      | false =>
        refine ⟨.failed (st.store i (some ⟨c.cnt, (push room stack c.kids).kids⟩))
          (.box b (some i) :: (push room stack c.kids).stack), fun nested => ?_, Fail.intro room h hc h1, ?_, fun k => by simp [isExt]⟩
        · unfold expand
          dsimp only
          rw [hc]
          dsimp only
          rw [if_pos ⟨hk, h1⟩, hd, if_neg (by simp)]
        · have e1 := push_fails _ _ _ hd
          have e2 := inside_mem hc one
          rw [held_one] at e2
          omega
      | true =>
        obtain ⟨d1, d2, d3⟩ := push_done _ _ _ hd
        refine ⟨.more (push room stack c.kids).room (st.free i)
          (c.kids.reverse ++ stack), fun nested => ?_, Step.last h hc h1, ?_⟩
        rotate_left
        · rw [List.length_append, List.length_reverse]; omega
        unfold expand
        dsimp only
        rw [hc]
        dsimp only
        rw [if_pos ⟨hk, h1⟩, hd, if_pos rfl]
        unfold State.dtor
        dsimp only
        rw [cell_store hc, if_pos rfl]
        dsimp only
        rw [if_neg (by omega), if_neg (by omega), d2, each_plain, Res.ok_map, Res.ok_map, d1]
        simp only [State.free, State.store, List.set_set]

theorem round_ok (room : Nat) (st : State) (cur : Val) (stack R : List Val) (h : Counted st (cur :: stack ++ R)) :
    ∃ r, (∀ nested, round nested room st cur stack = .ok r) ∧ RoundOk room st cur stack R r := by
  cases cur with
  | plain =>
    refine ⟨.more room st stack, fun _ => rfl, Step.same h (fun i => rfl) rfl rfl (fun k => ?_), rfl⟩
    simp [isExt]
  | ext k =>
    refine ⟨.more room { st with drops := k :: st.drops } stack, fun _ => rfl,
      Step.same h (fun i => by simp [refers]) rfl rfl (fun j => ?_), rfl⟩
    dsimp only
    rw [List.count_cons]
    simp [isExt]
  | box b p =>
    obtain ⟨r, h1, h2⟩ := expand_ok room st b p stack R h
    refine ⟨r, fun nested => ?_, h2⟩
    cases b
    · exact h1 nested
    · exact h1 nested

/-- What the loop does. -/
structure Final (room : Nat) (st : State) (l : List Val) (R : List Val) (st' : State) (leaked : List Val) : Prop where
  counted : Counted st' (leaked ++ R)
  keep : ∀ i c', st'.cell i = some c' → ∃ c, st.cell i = some c ∧
    (c'.kids = c.kids ∨ (c'.cnt = 1 ∧ 0 < held (refers i) leaked))
  drops : ∀ k, st'.drops.count k + inside (isExt k) st' + held (isExt k) leaked
    = st.drops.count k + inside (isExt k) st + held (isExt k) l
  freed : ∀ i, st'.freed.count i + exist st' i = st.freed.count i + exist st i
  enough : inside one st ≤ room → leaked = []

theorem loop_ok (R : List Val) : ∀ (fuel room : Nat) (st : State) (cur : Val) (stack : List Val),
    Counted st (cur :: stack ++ R) → inside one st + stack.length < fuel →
    ∃ st' leaked, (∀ nested, loop nested fuel room st cur stack = .ok (st', leaked)) ∧
      Final room st (cur :: stack) R st' leaked := by
  intro fuel
  induction fuel with
  | zero => intro room st cur stack _ h; omega
  | succ fuel ih =>
    intro room st cur stack h hn
    obtain ⟨r, h1, h2⟩ := round_ok room st cur stack R h
    cases r with
    | failed st' leaked =>
      obtain ⟨h2, h3, h4⟩ := h2
      refine ⟨st', leaked, fun nested => ?_, h2.counted, h2.keep, ?_, h2.freed, fun e => absurd e (by omega)⟩
      · rw [loop, h1, Res.ok_bind]
      · intro k
        have := h2.total (isExt k) rfl (fun _ _ => by simp [isExt])
        rw [h2.drops, held_cons, h4]
        omega
    | more room' st' stack' =>
      obtain ⟨h2, h3⟩ := h2
      cases stack' with
      | nil =>
        refine ⟨st', [], fun nested => ?_, h2.counted, ?_, ?_, h2.freed, fun _ => rfl⟩
        · rw [loop, h1, Res.ok_bind]
        · intro i c' e
          obtain ⟨c, e1, e2⟩ := h2.keep i c' e
          exact ⟨c, e1, Or.inl e2⟩
        · intro k
          have e1 := h2.total (isExt k)
          have e2 := h2.drops k
          rw [held_cons]
          omega
      | cons v s =>
        have ht := h2.total one
        rw [held_one, held_one, List.length_cons] at ht
        obtain ⟨st'', leaked, k1, k2⟩ := ih room' st' v s h2.counted (by omega)
        refine ⟨st'', leaked, fun nested => ?_, k2.counted, ?_, ?_, ?_, ?_⟩
        · rw [loop, h1, Res.ok_bind]
          exact k1 nested
        · intro i c' e
          obtain ⟨c, e1, e2⟩ := k2.keep i c' e
          obtain ⟨d, e3, e4⟩ := h2.keep i c e1
          refine ⟨d, e3, ?_⟩
          rcases e2 with e2 | e2
          · left; rw [e2, e4]
          · right; exact e2
        · intro k
          have e1 := k2.drops k
          have e2 := h2.drops k
          have e3 := h2.total (isExt k)
          rw [held_cons] at *
          omega
        · intro i
          rw [k2.freed, h2.freed]
        · intro e
          apply k2.enough
          rw [List.length_cons] at h3
          omega

end Asteria.Teardown
