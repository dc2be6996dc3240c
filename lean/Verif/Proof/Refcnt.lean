import Verif.Spec.Refcnt

/-!
# Invariant of reference counting
-/

namespace Asteria.Refcnt

open Spec

/-- One if an object has been made and its counter is zero. -/
def due (o next c : Nat) : Nat := if o < next ∧ c = 0 then 1 else 0

theorem due_pos {o next c : Nat} (h : c ≠ 0) : due o next c = 0 := if_neg (fun e => h e.2)

/-- Everything that points to an object, or did and is still to be counted, is in its counter; an object
that exists and has none is about to be deleted, exactly once. -/
structure Inv (st : State) : Prop where
  cnt : ∀ o, st.cnt o = st.slots.count (some o) + st.pend.count (.drop o)
  del : ∀ o, st.pend.count (.del o) + st.log.count o = due o st.next (st.cnt o)
  alive : ∀ o, st.alive o = true ↔ o < st.next ∧ st.log.count o = 0
  fresh : ∀ o, st.next ≤ o → st.cnt o = 0
  clear : ∀ s, .clear s ∈ st.pend → s < st.slots.length
  mem : ∀ o s, s ∈ st.mem o → s < st.slots.length ∧ st.home s = some o
  dead : ∀ o s, o ∈ st.log → s ∈ st.mem o → .clear s ∈ st.pend ∨ st.slots[s]? = some none
  home : ∀ s h, st.home s = some h → (s < st.slots.length ∧ h < st.next) ∧ s ∈ st.mem h
  young : ∀ o, st.next ≤ o → st.mem o = []

theorem Inv.init : Inv .init := by
  refine ⟨?_, ?_, ?_, ?_, ?_, ?_, ?_, ?_, ?_⟩ <;> simp [State.init, due]

theorem Inv.pos {st : State} (h : Inv st) {o : Nat} (hc : 0 < st.cnt o) :
    o < st.next ∧ st.alive o = true ∧ st.pend.count (.del o) = 0 ∧ o ∉ st.log := by
  have h1 : o < st.next := by
    apply Nat.lt_of_not_le
    intro e
    have := h.fresh o e
    omega
  have h2 := h.del o
  rw [due_pos (by omega)] at h2
  refine ⟨h1, (h.alive o).2 ⟨h1, by omega⟩, by omega, ?_⟩
  intro e
  have := List.count_pos_iff.2 e
  omega

theorem Inv.pointed {st : State} (h : Inv st) {o : Nat} (hm : some o ∈ st.slots) : 0 < st.cnt o := by
  have := List.count_pos_iff.2 hm
  rw [h.cnt]; omega

theorem count_set_opt (l : List (Option Nat)) (i : Nat) (p q : Option Nat) (hi : l[i]? = some q) (o : Nat) :
    (l.set i p).count (some o) + (if q = some o then 1 else 0)
      = l.count (some o) + (if p = some o then 1 else 0) := by
  obtain ⟨h1, h2⟩ := List.getElem?_eq_some_iff.1 hi
  rw [List.count_set h1, h2]
  have : q = some o → 0 < l.count (some o) := by
    intro e
    apply List.count_pos_iff.2
    rw [← e, ← h2]
    exact List.getElem_mem h1
  by_cases hq : q = some o
  · have := this hq
    by_cases hp : p = some o <;> simp [hq, hp] <;> omega
  · by_cases hp : p = some o <;> simp [hq, hp]

theorem count_left (old : Option Nat) (l : List Act) (o : Nat) :
    (left old l).count (.drop o) = l.count (.drop o) + if old = some o then 1 else 0 := by
  cases old with
  | none => simp [left]
  | some x =>
    simp only [left, List.count_cons]
    by_cases e : x = o <;> simp [e]

theorem count_left_del (old : Option Nat) (l : List Act) (o : Nat) :
    (left old l).count (.del o) = l.count (.del o) := by
  cases old with
  | none => rfl
  | some x => simp [left]

theorem clear_left (old : Option Nat) (l : List Act) (s : Nat) : .clear s ∈ left old l ↔ .clear s ∈ l := by
  cases old with
  | none => exact Iff.rfl
  | some x => simp [left]

/-- Exchanging one pointer: a pointer in hand is like one that is to be dropped. -/
theorem Inv.exchange {st : State} {p : Option Nat} (h : Inv { st with pend := left p st.pend }) {d : Nat}
    {old : Option Nat} (hd : st.slots[d]? = some old) (hl : ∀ o, st.home d = some o → o ∉ st.log ∨ p = none) :
    Inv { st with
      slots := st.slots.set d p
      pend := left old st.pend } := by
  have hlen : d < st.slots.length := (List.getElem?_eq_some_iff.1 hd).1
  refine ⟨?_, ?_, h.alive, h.fresh, ?_, ?_, ?_, ?_, h.young⟩
  · intro o
    have h1 := count_set_opt st.slots d p old hd o
    have h2 := h.cnt o
    dsimp only at h2 ⊢
    rw [count_left] at h2 ⊢
    omega
  · intro o
    have h2 := h.del o
    dsimp only at h2 ⊢
    rw [count_left_del] at h2 ⊢
    exact h2
  · intro s hs
    dsimp only at hs ⊢
    rw [List.length_set]
    exact h.clear s ((clear_left _ _ _).2 ((clear_left _ _ _).1 hs))
  · intro o s hs
    dsimp only
    rw [List.length_set]
    exact h.mem o s hs
  · intro o s ho hs
    dsimp only
    rw [clear_left]
    rcases h.dead o s ho hs with h1 | h1
    · exact Or.inl ((clear_left _ _ _).1 h1)
    · right
      by_cases hsd : d = s
      · subst hsd
        rcases hl o (h.mem o d hs).2 with h2 | h2
        · exact absurd ho h2
        · rw [h2, List.getElem?_set_self hlen]
      · rw [List.getElem?_set_ne hsd]; exact h1
  · intro s x hs
    dsimp only
    rw [List.length_set]
    exact h.home s x hs

/-- A pointer that exists and is not a member of an object that has been deleted. -/
structure Ready (st : State) (d : Nat) : Prop where
  lt : d < st.slots.length
  home : ∀ o, st.home d = some o → o ∉ st.log ∧ st.alive o = true

theorem Inv.ready {st : State} (h : Inv st) {s : Nat} (hu : Usable st s) : Ready st s :=
  ⟨hu.1, fun o ho => ⟨(h.pos (h.pointed (hu.2 o ho))).2.2.2, (h.pos (h.pointed (hu.2 o ho))).2.1⟩⟩

theorem Ready.get {st : State} {s : Nat} (h : Ready st s) :
    st.get s = .ok (st.slots[s]'h.lt) := by
  unfold State.get
  rw [List.getElem?_eq_getElem h.lt]
  dsimp only
  cases hh : st.home s with
  | none => rfl
  | some o =>
    dsimp only
    rw [if_pos (h.home o hh).2]

theorem Inv.put {st : State} {p : Option Nat} (h : Inv { st with pend := left p st.pend }) {d : Nat} (hr : Ready st d) :
    ∃ st', st.put d p = .ok st' ∧ Inv st' := by
  unfold State.put
  rw [hr.get, Res.ok_map]
  exact ⟨_, rfl, h.exchange (List.getElem?_eq_getElem hr.lt) (fun o ho => Or.inl (hr.home o ho).1)⟩

theorem Inv.fork {st : State} (h : Inv st) {s : Nat} (hr : Ready st s) :
    ∃ st' p, st.fork s = .ok (p, st') ∧ Inv { st' with pend := left p st'.pend } ∧ ∀ d, Ready st d → Ready st' d := by
  unfold State.fork
  rw [hr.get, Res.ok_bind]
  cases hp : st.slots[s]'hr.lt with
  | none => exact ⟨st, none, rfl, h, fun _ hd => hd⟩
  | some o =>
    dsimp only
    have hc : 0 < st.cnt o := h.pointed (by rw [← hp]; exact List.getElem_mem hr.lt)
    obtain ⟨h1, h2, h3, h4⟩ := h.pos hc
    unfold State.increment
    rw [if_neg (by simp [h2]), if_neg (by omega), Res.ok_map]
    refine ⟨_, _, rfl, ?_, fun d hd => ⟨hd.lt, hd.home⟩⟩
    refine ⟨?_, ?_, h.alive, ?_, ?_, h.mem, ?_, h.home, h.young⟩
    · intro x
      have hx := h.cnt x
      dsimp only
      rw [count_left]
      by_cases e : x = o
      · subst e
        rw [if_pos rfl, if_pos rfl]
        omega
      · rw [if_neg e, if_neg (by simpa using fun e' => e e'.symm)]
        omega
    · intro x
      have hx := h.del x
      dsimp only
      rw [count_left_del, hx]
      by_cases e : x = o
      · subst e
        rw [if_pos rfl, due_pos (by omega), due_pos (by omega)]
      · rw [if_neg e]
    · intro x hx
      dsimp only at hx ⊢
      rw [if_neg (by omega)]
      exact h.fresh x hx
    · intro x hx
      exact h.clear x ((clear_left (some o) _ _).1 hx)
    · intro x y hx hy
      rcases h.dead x y hx hy with h1 | h1
      · exact Or.inl ((clear_left (some o) _ _).2 h1)
      · exact Or.inr h1

theorem Inv.release {st : State} (h : Inv st) {s : Nat} (hr : Ready st s) :
    ∃ st' p, st.release s = .ok (p, st') ∧ Inv { st' with pend := left p st'.pend } ∧ ∀ d, Ready st d → Ready st' d := by
  unfold State.release
  rw [hr.get, Res.ok_map]
  refine ⟨_, _, rfl, ?_, fun d hd => ⟨by rw [List.length_set]; exact hd.lt, hd.home⟩⟩
  exact Inv.exchange (p := none) h (List.getElem?_eq_getElem hr.lt) (fun _ _ => Or.inr rfl)

theorem Inv.create {st : State} (h : Inv st) (k : Nat) :
    Inv { (st.create k).2 with pend := left (some (st.create k).1) (st.create k).2.pend } ∧
      ∀ d, Ready st d → Ready (st.create k).2 d := by
  have hpz : st.pend.count (.drop st.next) = 0 ∧ st.slots.count (some st.next) = 0 := by
    have := h.cnt st.next
    rw [h.fresh st.next (Nat.le_refl _)] at this
    omega
  have hdl : st.pend.count (.del st.next) + st.log.count st.next = 0 := by
    rw [h.del, due, if_neg (by omega)]
  have hlog : st.next ∉ st.log := by
    intro e
    have := List.count_pos_iff.2 e
    omega
  constructor
  · unfold State.create
    dsimp only
    refine ⟨?_, ?_, ?_, ?_, ?_, ?_, ?_, ?_, ?_⟩
    · intro o
      have hx := h.cnt o
      dsimp only
      rw [count_left, List.count_append, List.count_replicate,
        show (if (none == some o) = true then k else 0) = 0 from if_neg (by simp)]
      by_cases e : o = st.next
      · subst e
        rw [if_pos rfl, if_pos rfl]
        omega
      · rw [if_neg e, if_neg (by simpa using fun e' => e e'.symm)]
        omega
    · intro o
      have hx := h.del o
      dsimp only
      rw [count_left_del, hx]
      by_cases e : o = st.next
      · subst e
        rw [if_pos rfl, due_pos (c := 1) (by omega), due, if_neg (by omega)]
      · rw [if_neg e]
        unfold due
        by_cases hz : o < st.next ∧ st.cnt o = 0
        · rw [if_pos hz, if_pos (by omega)]
        · rw [if_neg hz, if_neg (by omega)]
    · intro o
      dsimp only
      by_cases e : o = st.next
      · subst e
        rw [if_pos rfl]
        simp only [true_iff]
        omega
      · rw [if_neg e, h.alive o]
        omega
    · intro o ho
      dsimp only at ho ⊢
      rw [if_neg (by omega)]
      exact h.fresh o (by omega)
    · intro s hs
      have := h.clear s ((clear_left (some st.next) _ _).1 hs)
      dsimp only
      rw [List.length_append]
      omega
    · intro o s hs
      dsimp only at hs ⊢
      rw [List.length_append, List.length_replicate]
      by_cases e : o = st.next
      · rw [if_pos e, List.mem_range'_1] at hs
        rw [if_neg (by omega), if_pos (by omega), e]
        exact ⟨by omega, rfl⟩
      · rw [if_neg e] at hs
        obtain ⟨h1, h2⟩ := h.mem o s hs
        rw [if_pos h1]
        exact ⟨by omega, h2⟩
    · intro o s ho hs
      dsimp only at ho hs ⊢
      have e : o ≠ st.next := fun e => hlog (e ▸ ho)
      rw [if_neg e] at hs
      rw [clear_left]
      rcases h.dead o s ho hs with h1 | h1
      · exact Or.inl h1
      · right
        rw [List.getElem?_append_left (h.mem o s hs).1]
        exact h1
    · intro s x hs
      dsimp only at hs ⊢
      rw [List.length_append, List.length_replicate]
      by_cases h1 : s < st.slots.length
      · rw [if_pos h1] at hs
        obtain ⟨h2, h3⟩ := h.home s x hs
        rw [if_neg (by omega)]
        exact ⟨by omega, h3⟩
      · rw [if_neg h1] at hs
        by_cases h2 : s < st.slots.length + k
        · rw [if_pos h2] at hs
          cases hs
          rw [if_pos rfl, List.mem_range'_1]
          omega
        · rw [if_neg h2] at hs
          cases hs
    · intro o ho
      dsimp only at ho ⊢
      rw [if_neg (by omega)]
      exact h.young o (by omega)
  · intro d hd
    unfold State.create
    dsimp only
    refine ⟨?_, ?_⟩
    · dsimp only
      rw [List.length_append]
      have := hd.lt
      omega
    · intro o ho
      dsimp only at ho ⊢
      rw [if_pos hd.lt] at ho
      obtain ⟨h1, h2⟩ := hd.home o ho
      refine ⟨h1, ?_⟩
      by_cases e : o = st.next
      · rw [if_pos e]
      · rw [if_neg e]; exact h2

/-- What the actions that have been begun do. -/
theorem Inv.act {st : State} (h : Inv st) (a : Act) (ha : a ∈ st.pend) :
    ∃ st', ({ st with pend := st.pend.erase a } : State).act a = .ok st' ∧ Inv st' := by
  have hcount : ∀ b : Act, (st.pend.erase a).count b = st.pend.count b - if a = b then 1 else 0 := by
    intro b
    rw [List.count_erase]
    by_cases e : a = b <;> simp [e]
  have hpos := List.count_pos_iff.2 ha
  have hmem : ∀ b : Act, b ≠ a → (b ∈ st.pend.erase a ↔ b ∈ st.pend) := fun b hb => List.mem_erase_of_ne hb
  cases a with
  | drop o =>
    have hc0 := h.cnt o
    have hc : 0 < st.cnt o := by omega
    obtain ⟨h1, h2, h3, h4⟩ := h.pos hc
    unfold State.act
    dsimp only
    rw [if_neg (by simp [h2]), if_neg (by omega)]
    refine ⟨_, rfl, ?_⟩
    have hcl : ∀ s, Act.clear s ∈ (if st.cnt o - 1 = 0 then Act.del o :: st.pend.erase (.drop o) else
        st.pend.erase (.drop o)) ↔ Act.clear s ∈ st.pend := by
      intro s
      by_cases hz : st.cnt o - 1 = 0
      · rw [if_pos hz, List.mem_cons, hmem _ (by simp)]
        simp
      · rw [if_neg hz, hmem _ (by simp)]
    refine ⟨?_, ?_, h.alive, ?_, ?_, h.mem, ?_, h.home, h.young⟩
    · intro x
      dsimp only
      have hx := h.cnt x
      have hp := hcount (.drop x)
      have hp' : (if st.cnt o - 1 = 0 then Act.del o :: st.pend.erase (.drop o) else
        st.pend.erase (.drop o)).count (.drop x) = (st.pend.erase (.drop o)).count (.drop x) := by
        by_cases hz : st.cnt o - 1 = 0
        · rw [if_pos hz, List.count_cons]; simp
        · rw [if_neg hz]
      rw [hp', hp]
      by_cases e : x = o
      · subst e
        rw [if_pos rfl, if_pos rfl]
        omega
      · rw [if_neg e, if_neg (by simpa using fun e' => e e'.symm)]
        omega
    · intro x
      dsimp only
      have hx := h.del x
      have hp := hcount (.del x)
      rw [if_neg (by simp)] at hp
      by_cases e : x = o
      · subst e
        rw [if_pos rfl]
        rw [due_pos (by omega)] at hx
        by_cases hz : st.cnt x - 1 = 0
        · rw [if_pos hz, hz, show due x st.next 0 = 1 from if_pos ⟨h1, rfl⟩, List.count_cons, hp]
          simp only [beq_self_eq_true, if_true]
          omega
        · rw [if_neg hz, due_pos hz, hp]
          omega
      · rw [if_neg e]
        have hp' : (if st.cnt o - 1 = 0 then Act.del o :: st.pend.erase (.drop o) else
          st.pend.erase (.drop o)).count (.del x) = (st.pend.erase (.drop o)).count (.del x) := by
          by_cases hz : st.cnt o - 1 = 0
          · rw [if_pos hz, List.count_cons, if_neg (by simpa using fun e' => e e'.symm)]; rfl
          · rw [if_neg hz]
        rw [hp', hp]
        exact hx
    · intro x hx
      dsimp only at hx ⊢
      rw [if_neg (by omega)]
      exact h.fresh x hx
    · intro s hs
      exact h.clear s ((hcl s).1 hs)
    · intro x s hx hs
      dsimp only
      rw [hcl s]
      exact h.dead x s hx hs
  | del o =>
    have hd := h.del o
    have hz : o < st.next ∧ st.cnt o = 0 := by
      apply Classical.byContradiction
      intro e
      rw [show due o st.next (st.cnt o) = 0 from if_neg e] at hd
      omega
    have hdu : due o st.next (st.cnt o) = 1 := if_pos hz
    rw [hdu] at hd
    have hal : st.alive o = true := (h.alive o).2 ⟨hz.1, by omega⟩
    unfold State.act
    dsimp only
    rw [if_neg (by simp [hal])]
    refine ⟨_, rfl, ?_⟩
    have hm0 : ∀ (l : List Nat) (b : Act), (∀ s, b ≠ .clear s) → (l.map Act.clear).count b = 0 := by
      intro l b hb
      rw [List.count_eq_zero]
      intro e
      obtain ⟨s, _, hs⟩ := List.mem_map.1 e
      exact hb s hs.symm
    refine ⟨?_, ?_, ?_, h.fresh, ?_, h.mem, ?_, h.home, h.young⟩
    · intro x
      dsimp only
      rw [List.count_append, hm0 _ _ (by simp), hcount, if_neg (by simp), h.cnt x]
      omega
    · intro x
      dsimp only
      rw [List.count_append, hm0 _ _ (by simp), hcount, List.count_cons]
      have hx := h.del x
      by_cases e : o = x
      · subst e
        rw [if_pos rfl, hdu]
        simp only [beq_self_eq_true, if_true]
        omega
      · rw [if_neg (by simpa using e), if_neg (by simpa using e)]
        omega
    · intro x
      dsimp only
      rw [List.count_cons]
      by_cases e : x = o
      · subst e
        simp
      · rw [if_neg e, if_neg (by simpa using fun e' => e e'.symm)]
        exact h.alive x
    · intro s hs
      dsimp only at hs ⊢
      rw [List.mem_append] at hs
      rcases hs with hs | hs
      · obtain ⟨s', h1, h2⟩ := List.mem_map.1 hs
        cases h2
        exact (h.mem o s h1).1
      · exact h.clear s ((hmem _ (by simp)).1 hs)
    · intro x s hx hs
      dsimp only at hx ⊢
      rw [List.mem_append]
      rcases List.mem_cons.1 hx with e | hx
      · subst e
        exact Or.inl (Or.inl (List.mem_map.2 ⟨s, hs, rfl⟩))
      · rcases h.dead x s hx hs with h1 | h1
        · exact Or.inl (Or.inr ((hmem _ (by simp)).2 h1))
        · exact Or.inr h1
  | clear s =>
    have hs := h.clear s ha
    unfold State.act
    dsimp only
    rw [List.getElem?_eq_getElem hs]
    dsimp only
    refine ⟨_, rfl, ?_⟩
    have hget : st.slots[s]? = some st.slots[s] := List.getElem?_eq_getElem hs
    have hX := Inv.exchange (p := none) (show Inv { st with pend := left none st.pend } from h) hget
      (fun o _ => Or.inr rfl)
    have hpd : ∀ (o : Option Nat) (l : List Act) (b : Act), (∀ x, b ≠ .clear x) →
        (left o (l.erase (.clear s))).count b = (left o l).count b := by
      intro o l b hb
      have : (l.erase (.clear s)).count b = l.count b := by
        rw [List.count_erase, if_neg (by simpa using fun e => hb s e.symm)]; rfl
      cases o with
      | none => exact this
      | some x => simp only [left, List.count_cons, this]
    refine ⟨?_, ?_, hX.alive, hX.fresh, ?_, hX.mem, ?_, hX.home, hX.young⟩
    · intro o
      have := hX.cnt o
      dsimp only at this ⊢
      rw [hpd _ _ _ (by simp)]
      exact this
    · intro o
      have := hX.del o
      dsimp only at this ⊢
      rw [hpd _ _ _ (by simp)]
      exact this
    · intro x hx
      dsimp only at hx ⊢
      rw [List.length_set]
      have : Act.clear x ∈ st.pend.erase (.clear s) := by
        cases ho : st.slots[s] with
        | none => rw [ho] at hx; exact hx
        | some o => rw [ho] at hx; simpa [left] using hx
      exact h.clear x (List.mem_of_mem_erase this)
    · intro x y hx hy
      dsimp only at hx ⊢
      by_cases e : s = y
      · subst e
        right
        rw [List.getElem?_set_self hs]
      · rw [List.getElem?_set_ne e]
        rcases h.dead x y hx hy with h1 | h1
        · left
          have : Act.clear y ∈ st.pend.erase (.clear s) := (hmem _ (by simpa using fun e' => e e'.symm)).2 h1
          cases ho : st.slots[s] with
          | none => exact this
          | some o => simpa [left] using this
        · exact Or.inr h1

/-- Whatever a program may do is defined. -/
theorem Inv.exec {st : State} (h : Inv st) (c : Cmd) (ha : Allowed st c) : ∃ st', st.exec c = .ok st' ∧ Inv st' := by
  cases c with
  | var =>
    refine ⟨_, rfl, ?_⟩
    refine ⟨?_, h.del, h.alive, h.fresh, ?_, ?_, ?_, ?_, h.young⟩
    · intro o
      dsimp only
      rw [List.count_append, h.cnt o]
      simp
    · intro s hs
      have := h.clear s hs
      dsimp only
      rw [List.length_append]
      omega
    · intro o s hs
      obtain ⟨h1, h2⟩ := h.mem o s hs
      dsimp only
      rw [List.length_append, if_pos h1]
      exact ⟨by omega, h2⟩
    · intro o s ho hs
      rcases h.dead o s ho hs with h1 | h1
      · exact Or.inl h1
      · right
        dsimp only
        rw [List.getElem?_append_left (h.mem o s hs).1]
        exact h1
    · intro s x hs
      dsimp only at hs ⊢
      by_cases h1 : s < st.slots.length
      · rw [if_pos h1] at hs
        rw [List.length_append]
        obtain ⟨h2, h3⟩ := h.home s x hs
        exact ⟨by omega, h3⟩
      · rw [if_neg h1] at hs
        cases hs
  | make d k =>
    obtain ⟨h1, h2⟩ := h.create k
    exact h1.put (h2 d (h.ready ha))
  | copy d s =>
    obtain ⟨st', p, h1, h2, h3⟩ := h.fork (h.ready ha.2)
    show ∃ st'', (st.fork s).bind _ = _ ∧ _
    rw [h1, Res.ok_bind]
    exact h2.put (h3 d (h.ready ha.1))
  | move d s =>
    obtain ⟨st', p, h1, h2, h3⟩ := h.release (h.ready ha.2)
    show ∃ st'', (st.release s).bind _ = _ ∧ _
    rw [h1, Res.ok_bind]
    exact h2.put (h3 d (h.ready ha.1))
  | swap d s =>
    have hd := h.ready ha.1
    have hs := h.ready ha.2
    show ∃ st'', (st.get d).bind _ = _ ∧ _
    rw [hd.get, Res.ok_bind, hs.get, Res.ok_map]
    refine ⟨_, rfl, ?_⟩
    have g1 := Inv.exchange (p := none) (show Inv { st with pend := left none st.pend } from h)
      (List.getElem?_eq_getElem hd.lt) (fun _ _ => Or.inr rfl)
    by_cases e : d = s
    · subst e
      have g2 := Inv.exchange (st := { st with slots := st.slots.set d none }) g1
        (d := d) (old := none) (List.getElem?_set_self hd.lt) (fun o ho => Or.inl (hd.home o ho).1)
      dsimp only at g2
      rw [List.set_set] at g2 ⊢
      exact g2
    · have g2 := Inv.exchange (st := { st with slots := st.slots.set d none }) g1
        (d := s) (old := st.slots[s]'hs.lt) (by
          dsimp only
          rw [List.getElem?_set_ne e]
          exact List.getElem?_eq_getElem hs.lt) (fun o ho => Or.inl (hs.home o ho).1)
      have g3 := Inv.exchange (st := { st with slots := (st.slots.set d none).set s (st.slots[d]'hd.lt) }) g2
        (d := d) (old := none) (by
          dsimp only
          rw [List.getElem?_set_ne (fun e' => e e'.symm), List.getElem?_set_self hd.lt])
        (fun o ho => Or.inl (hd.home o ho).1)
      dsimp only at g3
      rw [List.set_comm _ _ (fun e' => e e'.symm), List.set_set] at g3
      exact g3
  | reset d =>
    exact Inv.put (p := none) h (h.ready ha)
  | run a =>
    show ∃ st', (if a ∈ st.pend then _ else _) = _ ∧ _
    by_cases hm : a ∈ st.pend
    · rw [if_pos hm]
      exact h.act a hm
    · rw [if_neg hm]
      exact ⟨st, rfl, h⟩

theorem inv {st : State} (h : Reached st) : Inv st := by
  induction h with
  | init => exact Inv.init
  | step _ c ha he ih =>
    obtain ⟨st', h1, h2⟩ := ih.exec c ha
    rw [h1] at he
    cases he
    exact h2

/-! ## What has been begun ends -/

/-- The sum of `f` over what is less than `n`. -/
def sum (f : Nat → Nat) : Nat → Nat
  | 0 => 0
  | n + 1 => sum f n + f n

theorem sum_congr {f g : Nat → Nat} : ∀ {n : Nat}, (∀ x, x < n → f x = g x) → sum f n = sum g n
  | 0, _ => rfl
  | n + 1, h => by
    unfold sum
    rw [sum_congr (fun x hx => h x (by omega)), h n (by omega)]

theorem sum_update {f g : Nat → Nat} {o : Nat} : ∀ {n : Nat}, o < n → (∀ x, x ≠ o → f x = g x) →
    sum f n + g o = sum g n + f o
  | n + 1, ho, h => by
    unfold sum
    by_cases e : o = n
    · subst e
      rw [sum_congr (f := f) (g := g) (fun x hx => h x (by omega))]
      omega
    · have := sum_update (f := f) (g := g) (n := n) (by omega) h
      rw [h n (fun e' => e e'.symm)]
      omega

/-- How much has yet to be done for an action, besides actions on further objects. -/
def cost (st : State) : Act → Nat
  | .drop _ => 1
  | .del o => 1 + 2 * (st.mem o).length
  | .clear _ => 2

def costs (st : State) (l : List Act) : Nat := (l.map (cost st)).sum

/-- How much may yet have to be done. -/
def work (st : State) : Nat :=
  costs st st.pend + sum (fun o => if st.cnt o = 0 then 0 else 1 + 2 * (st.mem o).length) st.next

theorem costs_erase (st : State) : ∀ (l : List Act) (a : Act), a ∈ l → costs st l = cost st a + costs st (l.erase a) := by
  intro l a h
  induction l with
  | nil => cases h
  | cons b l ih =>
    rw [List.erase_cons]
    by_cases e : b = a
    · subst e
      simp [costs]
    · rw [if_neg (by simpa using e)]
      rcases List.mem_cons.1 h with h | h
      · exact absurd h.symm e
      · have := ih h
        simp only [costs, List.map_cons, List.sum_cons] at this ⊢
        omega

theorem costs_clear (st : State) (l : List Nat) : costs st (l.map .clear) = 2 * l.length := by
  induction l with
  | nil => rfl
  | cons x l ih =>
    simp only [costs, List.map_cons, List.sum_cons, List.length_cons, cost] at ih ⊢
    omega

theorem costs_append (st : State) (l m : List Act) : costs st (l ++ m) = costs st l + costs st m := by
  simp [costs]

theorem costs_left (st : State) (p : Option Nat) (l : List Act) : costs st (left p l) ≤ 1 + costs st l := by
  cases p with
  | none => exact Nat.le_add_left _ _
  | some o => exact Nat.le_refl _

theorem Inv.work {st st' : State} (h : Inv st) (a : Act) (ha : a ∈ st.pend) (he : st.exec (.run a) = .ok st') :
    work st' < work st := by
  have he' : ({ st with pend := st.pend.erase a } : State).act a = .ok st' := by
    have : st.exec (.run a) = if a ∈ st.pend then ({ st with pend := st.pend.erase a } : State).act a else .ok st := rfl
    rw [this, if_pos ha] at he
    exact he
  have hco := costs_erase st st.pend a ha
  unfold Refcnt.work
  cases a with
  | drop o =>
    unfold State.act at he'
    dsimp only at he'
    have hc : 0 < st.cnt o := by
      have := h.cnt o
      have := List.count_pos_iff.2 ha
      omega
    obtain ⟨h1, h2, h3, h4⟩ := h.pos hc
    rw [if_neg (by simp [h2]), if_neg (by omega)] at he'
    cases he'
    have hu := sum_update (f := fun x => if (if x = o then st.cnt o - 1 else st.cnt x) = 0 then 0
        else 1 + 2 * (st.mem x).length)
      (g := fun x => if st.cnt x = 0 then 0 else 1 + 2 * (st.mem x).length) h1 (by
        intro x hx
        rw [if_neg hx])
    dsimp only at hu ⊢
    rw [if_pos rfl, if_neg (show ¬ st.cnt o = 0 by omega)] at hu
    have ec : ∀ l, costs { st with
        cnt := fun x => if x = o then st.cnt o - 1 else st.cnt x
        pend := if st.cnt o - 1 = 0 then .del o :: st.pend.erase (.drop o) else st.pend.erase (.drop o) } l
        = costs st l := by
      intro l
      rfl
    rw [ec]
    simp only [cost] at hco
    by_cases hz : st.cnt o - 1 = 0
    · rw [if_pos hz] at hu ⊢
      simp only [costs, List.map_cons, List.sum_cons, cost] at hco ⊢
      omega
    · rw [if_neg hz] at hu ⊢
      omega
  | del o =>
    unfold State.act at he'
    dsimp only at he'
    by_cases hal : st.alive o = false
    · rw [if_pos hal] at he'; cases he'
    rw [if_neg hal] at he'
    cases he'
    dsimp only
    have ec : ∀ l, costs { st with
        alive := fun x => if x = o then false else st.alive x
        log := o :: st.log
        pend := (st.mem o).map .clear ++ st.pend.erase (.del o) } l = costs st l := by
      intro l
      rfl
    rw [ec, costs_append, costs_clear]
    simp only [cost] at hco
    omega
  | clear s =>
    unfold State.act at he'
    dsimp only at he'
    rw [List.getElem?_eq_getElem (h.clear s ha)] at he'
    dsimp only at he'
    cases he'
    dsimp only
    have ec : ∀ l, costs { st with
        slots := st.slots.set s none
        pend := left (st.slots[s]'(h.clear s ha)) (st.pend.erase (.clear s)) } l = costs st l := by
      intro l
      rfl
    rw [ec]
    have := costs_left st (st.slots[s]'(h.clear s ha)) (st.pend.erase (.clear s))
    simp only [cost] at hco
    omega

end Asteria.Refcnt
