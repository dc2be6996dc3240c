import Verif.Proof.Refcnt

/-!
# C150: what reference counting keeps and deletes
-/

namespace Asteria.Refcnt

open Spec

/-- C150: in whatever order threads proceed, whatever a program may do with pointers is defined: no object is
accessed after it has been deleted, and no assertion about a counter fails. -/
theorem C150_defined {st : State} (h : Reached st) (c : Cmd) (ha : Allowed st c) :
    ∃ st', st.exec c = .ok st' ∧ Reached st' := by
  obtain ⟨st', h1, _⟩ := (inv h).exec c ha
  exact ⟨st', h1, .step h c ha h1⟩

/-- C150: what something points to exists, even if it is the member of an object that is being deleted. -/
theorem C150_alive {st : State} (h : Reached st) (o : Nat) (hp : 0 < pointers st o) :
    st.alive o = true ∧ o ∉ st.log :=
  have := (inv h).pos ((inv h).pointed (List.count_pos_iff.1 hp))
  ⟨this.2.1, this.2.2.2⟩

/-- C150: no object is deleted twice, and none that is about to be deleted has been. -/
theorem C150_once {st : State} (h : Reached st) :
    st.log.Nodup ∧ ∀ o, st.pend.count (.del o) ≤ 1 ∧ (.del o ∈ st.pend → o ∉ st.log) := by
  have hd := (inv h).del
  have hle : ∀ o, due o st.next (st.cnt o) ≤ 1 := by
    intro o
    unfold due
    split <;> omega
  refine ⟨List.nodup_iff_count.2 fun o => ?_, fun o => ⟨?_, fun h1 h2 => ?_⟩⟩
  · have := hd o; have := hle o; omega
  · have := hd o; have := hle o; omega
  · have := hd o
    have := hle o
    have := List.count_pos_iff.2 h1
    have := List.count_pos_iff.2 h2
    omega

/-- C150: when nothing is left to be done, an object exists if and only if something points to it. -/
theorem C150_exact {st : State} (h : Reached st) (hs : Settled st) (o : Nat) :
    st.alive o = true ↔ 0 < pointers st o := by
  have hi := inv h
  constructor
  · intro ha
    obtain ⟨h1, h2⟩ := (hi.alive o).1 ha
    have h3 := hi.del o
    have h4 := hi.cnt o
    unfold Settled at hs
    rw [hs] at h3 h4
    simp only [List.count_nil] at h3 h4
    apply Nat.pos_of_ne_zero
    intro e
    unfold pointers at e
    rw [show due o st.next (st.cnt o) = 1 from if_pos ⟨h1, by omega⟩] at h3
    omega
  · exact fun hp => (C150_alive h o hp).1

/-- C150: `use_count` is how many pointers point to the object, and those that were exchanged out and have not
been counted yet. -/
theorem C150_count {st : State} (h : Reached st) (s o : Nat) (hu : Usable st s)
    (hp : st.slots[s]? = some (some o)) :
    st.useCount s = .ok (pointers st o + st.pend.count (.drop o)) ∧
      (Settled st → st.useCount s = .ok (pointers st o)) := by
  have hi := inv h
  have hr := hi.ready hu
  have e : st.useCount s = .ok (pointers st o + st.pend.count (.drop o)) := by
    unfold State.useCount
    rw [hr.get, Res.ok_map]
    have : st.slots[s]'hr.lt = some o := by
      rw [List.getElem?_eq_getElem hr.lt] at hp
      exact Option.some.inj hp
    rw [this]
    dsimp only
    rw [hi.cnt o]
    rfl
  refine ⟨e, fun hs => ?_⟩
  rw [e, hs]
  rfl

/-- C150: when nothing is left to be done, the members of objects that have been deleted point to nothing. -/
theorem C150_members {st : State} (h : Reached st) (hs : Settled st) (o s : Nat) (ho : o ∈ st.log)
    (hm : st.home s = some o) : st.slots[s]? = some none := by
  rcases (inv h).dead o s ho ((inv h).home s o hm).2 with h1 | h1
  · rw [hs] at h1
    cases h1
  · exact h1

/-- C150: when nothing is left to be done, no variable points to anything, and objects that point to each other
are not in a circle, nothing exists any more. -/
theorem C150_no_leak {st : State} (h : Reached st) (hs : Settled st) (hv : NoVariable st)
    (rank : Nat → Nat) (hr : ∀ a b, PointsTo st a b → rank a < rank b) (o : Nat) : st.alive o = false := by
  have hi := inv h
  suffices ∀ n o, rank o = n → st.alive o ≠ true by
    cases ho : st.alive o with
    | false => rfl
    | true => exact absurd ho (this _ o rfl)
  intro n
  induction n using Nat.strongRecOn with
  | ind n ih =>
    intro o hn ho
    have hp := (C150_exact h hs o).1 ho
    obtain ⟨s, hs1, hs2⟩ := List.mem_iff_getElem.1 (List.count_pos_iff.1 hp)
    have hs3 : st.slots[s]? = some (some o) := by rw [List.getElem?_eq_getElem hs1, hs2]
    cases hh : st.home s with
    | none => exact hv s hh o hs3
    | some a =>
      have hlt := hr a o ⟨s, hh, hs3⟩
      refine ih (rank a) (by omega) a rfl ?_
      refine (hi.alive a).2 ⟨(hi.home s a hh).1.2, ?_⟩
      apply Classical.byContradiction
      intro hne
      have := C150_members h hs a s (List.count_pos_iff.1 (by omega)) hh
      rw [hs3] at this
      cases this

/-- C150: what has been begun ends, in whatever order threads go on with it. -/
theorem C150_ends {st : State} (h : Reached st) :
    ∃ bound, ∀ n st', Drains st n st' → n ≤ bound ∧ Reached st' := by
  refine ⟨work st, ?_⟩
  intro n st' hd
  induction hd with
  | nil => exact ⟨Nat.zero_le _, h⟩
  | cons a ha he _ ih =>
    have hr := Reached.step h (.run a) trivial he
    have := (inv h).work a ha he
    have := ih hr
    exact ⟨by omega, this.2⟩

theorem put_slots {st st' : State} {d : Nat} {p : Option Nat} (he : st.put d p = .ok st') :
    st'.slots = st.slots.set d p ∧ d < st.slots.length := by
  unfold State.put at he
  cases hg : st.get d with
  | throw => rw [hg] at he; cases he
  | ub => rw [hg] at he; cases he
  | ok old =>
    rw [hg, Res.ok_map] at he
    cases he
    refine ⟨rfl, ?_⟩
    unfold State.get at hg
    apply Classical.byContradiction
    intro e
    rw [List.getElem?_eq_none (by omega)] at hg
    cases hg

/-- C150: every step does to the pointers what it says, and to no other pointer anything. -/
theorem C150_effect {st st' : State} (h : Reached st) (c : Cmd) (ha : Allowed st c) (he : st.exec c = .ok st') :
    Effect st.next st.slots st'.slots c ∧ st.alive st.next = false := by
  have hi := inv h
  refine ⟨?_, ?_⟩
  rotate_left
  · cases hal : st.alive st.next with
    | false => rfl
    | true =>
      have := ((hi.alive st.next).1 hal).1
      omega
  cases c with
  | var => cases he; rfl
  | make d k =>
    have he : (st.create k).2.put d (some (st.create k).1) = .ok st' := he
    obtain ⟨h1, h2⟩ := put_slots he
    have hd : d < st.slots.length := ha.1
    have h1 : st'.slots = (st.slots ++ List.replicate k none).set d (some st.next) := h1
    refine ⟨?_, ?_, ?_, ?_⟩ <;> rw [h1]
    · rw [List.getElem?_set_self (by rw [List.length_append]; omega)]
    · rw [List.length_set, List.length_append, List.length_replicate]
    · intro x hx hl
      rw [List.getElem?_set_ne (fun e => hx e.symm), List.getElem?_append_left hl]
    · intro x hx hl hk
      rw [List.getElem?_set_ne (fun e => hx e.symm), List.getElem?_append_right hl, List.getElem?_replicate,
        if_pos (by omega)]
  | copy d s =>
    have hd := hi.ready ha.1
    have hs := hi.ready ha.2
    have he : (st.fork s).bind (fun r => r.2.put d r.1) = .ok st' := he
    unfold State.fork at he
    rw [hs.get, Res.ok_bind] at he
    have key : ∃ st0 : State, st0.slots = st.slots ∧ st0.put d (st.slots[s]'hs.lt) = .ok st' := by
      cases hp : st.slots[s]'hs.lt with
      | none =>
        rw [hp] at he
        exact ⟨st, rfl, he⟩
      | some o =>
        rw [hp] at he
        dsimp only at he
        unfold State.increment at he
        by_cases h1 : st.alive o = false
        · rw [if_pos h1] at he; cases he
        rw [if_neg h1] at he
        by_cases h2 : st.cnt o < 1
        · rw [if_pos h2] at he; cases he
        rw [if_neg h2, Res.ok_map, Res.ok_bind] at he
        refine ⟨_, ?_, he⟩
        rfl
    obtain ⟨st0, k1, k2⟩ := key
    obtain ⟨h1, _⟩ := put_slots k2
    rw [k1] at h1
    refine ⟨?_, ?_⟩ <;> rw [h1]
    · rw [List.getElem?_set_self hd.lt, List.getElem?_eq_getElem hs.lt]
    · intro x hx
      rw [List.getElem?_set_ne (fun e => hx e.symm)]
  | move d s =>
    have hd := hi.ready ha.1
    have hs := hi.ready ha.2
    have he : (st.release s).bind (fun r => r.2.put d r.1) = .ok st' := he
    unfold State.release at he
    rw [hs.get, Res.ok_map, Res.ok_bind] at he
    obtain ⟨h1, _⟩ := put_slots he
    have h1 : st'.slots = (st.slots.set s none).set d (st.slots[s]'hs.lt) := h1
    refine ⟨?_, ?_, ?_⟩ <;> rw [h1]
    · rw [List.getElem?_set_self (by rw [List.length_set]; exact hd.lt), List.getElem?_eq_getElem hs.lt]
    · intro hx
      rw [List.getElem?_set_ne (fun e => hx e.symm), List.getElem?_set_self hs.lt]
    · intro x hx hy
      rw [List.getElem?_set_ne (fun e => hx e.symm), List.getElem?_set_ne (fun e => hy e.symm)]
  | swap d s =>
    have hd := hi.ready ha.1
    have hs := hi.ready ha.2
    have he : (st.get d).bind (fun p => (st.get s).map fun q =>
      { st with slots := (st.slots.set d q).set s p }) = .ok st' := he
    rw [hd.get, Res.ok_bind, hs.get, Res.ok_map] at he
    cases he
    dsimp only [Effect]
    refine ⟨?_, ?_, ?_⟩
    · by_cases e : s = d
      · subst e
        rw [List.getElem?_set_self (by rw [List.length_set]; exact hs.lt), List.getElem?_eq_getElem hs.lt]
      · rw [List.getElem?_set_ne e, List.getElem?_set_self hd.lt, List.getElem?_eq_getElem hs.lt]
    · rw [List.getElem?_set_self (by rw [List.length_set]; exact hs.lt), List.getElem?_eq_getElem hd.lt]
    · intro x hx hy
      rw [List.getElem?_set_ne (fun e => hy e.symm), List.getElem?_set_ne (fun e => hx e.symm)]
  | reset d =>
    obtain ⟨h1, h2⟩ := put_slots (show st.put d none = .ok st' from he)
    refine ⟨?_, ?_⟩ <;> rw [h1]
    · rw [List.getElem?_set_self h2]
    · intro x hx
      rw [List.getElem?_set_ne (fun e => hx e.symm)]
  | run a =>
    have he : (if a ∈ st.pend then ({ st with pend := st.pend.erase a } : State).act a else .ok st) = .ok st' := he
    by_cases hm : a ∈ st.pend
    · rw [if_pos hm] at he
      unfold State.act at he
      cases a with
      | drop o =>
        dsimp only at he
        split at he
        · cases he
        split at he
        · cases he
        cases he
        rfl
      | del o =>
        dsimp only at he
        split at he
        · cases he
        cases he
        rfl
      | clear s =>
        have hl := hi.clear s hm
        dsimp only at he
        rw [List.getElem?_eq_getElem hl] at he
        cases he
        right
        refine ⟨List.getElem?_set_self hl, ?_⟩
        intro x hx
        exact List.getElem?_set_ne (fun e => hx e.symm)
    · rw [if_neg hm] at he
      cases he
      cases a with
      | drop o => rfl
      | del o => rfl
      | clear s => exact Or.inl rfl

/-! ## Cases -/

/-- Whether a program may use a pointer, computed. -/
def usable (st : State) (s : Nat) : Bool :=
  decide (s < st.slots.length) && (st.home s).all (fun h => st.slots.contains (some h))

/-- Whether a program may do something, computed. -/
def allowed (st : State) : Cmd → Bool
  | .var => true
  | .make d _ => usable st d
  | .copy d s => usable st d && usable st s
  | .move d s => usable st d && usable st s
  | .swap d s => usable st d && usable st s
  | .reset d => usable st d
  | .run _ => true

/-- What a program leads to; nothing further if it may not do something. -/
def program (st : State) : List Cmd → State
  | [] => st
  | c :: l =>
    if allowed st c then
      match st.exec c with
      | .ok st' => program st' l
      | _ => st
    else st

theorem usable_iff {st : State} {s : Nat} (h : usable st s = true) : Usable st s := by
  unfold usable at h
  rw [Bool.and_eq_true, decide_eq_true_eq] at h
  refine ⟨h.1, fun o ho => ?_⟩
  have := h.2
  rw [ho] at this
  simpa using this

theorem allowed_iff {st : State} {c : Cmd} (h : allowed st c = true) : Allowed st c := by
  cases c with
  | var => trivial
  | make d k => exact usable_iff h
  | copy d s => exact ⟨usable_iff (Bool.and_eq_true _ _ ▸ h).1, usable_iff (Bool.and_eq_true _ _ ▸ h).2⟩
  | move d s => exact ⟨usable_iff (Bool.and_eq_true _ _ ▸ h).1, usable_iff (Bool.and_eq_true _ _ ▸ h).2⟩
  | swap d s => exact ⟨usable_iff (Bool.and_eq_true _ _ ▸ h).1, usable_iff (Bool.and_eq_true _ _ ▸ h).2⟩
  | reset d => exact usable_iff h
  | run a => trivial

theorem reached_program (l : List Cmd) : ∀ {st : State}, Reached st → Reached (program st l) := by
  induction l with
  | nil => exact fun h => h
  | cons c l ih =>
    intro st h
    unfold program
    by_cases hc : allowed st c = true
    · rw [if_pos hc]
      obtain ⟨st', h1, h2⟩ := C150_defined h c (allowed_iff hc)
      rw [h1]
      exact ih h2
    · rw [if_neg hc]; exact h

theorem noVariable_of {st : State} (h : ∀ s, s < st.slots.length → st.home s = none → st.slots[s]? = some none) :
    NoVariable st := by
  intro s hs o ho
  have := h s (List.getElem?_eq_some_iff.1 ho).1 hs
  rw [ho] at this
  cases this

/-- `a = make; a->m = a; a = nullptr;`. -/
def circle : List Cmd := [.var, .make 0 1, .copy 1 0, .reset 0, .run (.drop 0)]

/-- C150: circles of objects are never deleted: after `a = make; a->m = a; a = nullptr;` the object exists
and no variable points to it. -/
theorem C150_circle : ∃ st, Reached st ∧ Settled st ∧ NoVariable st ∧ st.alive 0 = true ∧ pointers st 0 = 1 := by
  refine ⟨program .init circle, reached_program _ .init, ?_, noVariable_of ?_, ?_, ?_⟩
  · unfold Settled; decide +kernel
  · decide +kernel
  · decide +kernel
  · decide +kernel

/-- `a = make; b = make; b->m = move(a); b = nullptr;`, and what that begins. -/
def chain : List Cmd :=
  [.var, .var, .make 0 1, .make 1 1, .move 3 0, .reset 1, .run (.drop 1), .run (.del 1), .run (.clear 3),
    .run (.drop 0), .run (.del 0), .run (.clear 2)]

/-- The hypotheses of `C150_no_leak` are met: `chain` deletes both objects, first the one that points to the
other. -/
example : Reached (program .init chain) ∧ Settled (program .init chain) ∧ NoVariable (program .init chain) ∧
    (program .init chain).log = [0, 1] ∧ (program .init chain).next = 2 := by
  refine ⟨reached_program _ .init, ?_, noVariable_of ?_, ?_, ?_⟩
  · unfold Settled; decide +kernel
  · decide +kernel
  · decide +kernel
  · decide +kernel

/-- In the middle of it two things have been begun at once: `a = b = make` and two threads that reset one
each; and `use_count` counts the one that has not been counted yet. -/
example :
    let st := program .init [.var, .var, .var, .make 0 0, .copy 1 0, .copy 2 0, .reset 0, .reset 1]
    Reached st ∧ st.pend = [.drop 0, .drop 0] ∧ pointers st 0 = 1 ∧ st.cnt 0 = 3 := by
  refine ⟨reached_program _ .init, ?_, ?_, ?_⟩
  · decide +kernel
  · decide +kernel
  · decide +kernel

end Asteria.Refcnt
