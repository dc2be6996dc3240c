import Verif.Proof.Order

/-!
# C151: memory ordering of shared storages

The full statement: nothing that threads do with the storages that they share, each through references of its
own, is a data race.  It is false of the code, which has `memory_order_relaxed` in `unique()`; see
`C151_false`.
-/

namespace Asteria.Order

open Spec

/-- C151, except mutation: in whatever order threads proceed, reading, copying, dropping and handing over
references is never a data race, and no thread accesses a storage that has been destroyed: destruction happens
after everything that former owners did. -/
theorem C151_partial {st : State} {acq : Bool} (h : Reached acq st) (c : Cmd) (ha : Allowed st c)
    (hm : ¬ Mutates c) : ∃ st', st.exec acq c = .ok st' ∧ Reached acq st' := by
  obtain ⟨st', h1, _⟩ := (inv h).step acq c ha hm
  exact ⟨st', h1, .step h c ha h1⟩

/-- C151: dropping a reference destroys the storage if and only if it is the last one. -/
theorem C151_last {st : State} {acq : Bool} (h : Reached acq st) (t : Nat) (ht : t ∈ st.refs) :
    ∃ st', st.exec acq (.drop t) = .ok st' ∧ (st'.gone = true ↔ st.refs = [t]) := by
  obtain ⟨st', h1, _, h2, _⟩ := (inv h).drop acq ht
  exact ⟨st', h1, h2⟩

/-- C151: though `unique()` may read an old value, an owner is never told that it is the only one when it is
not: another value than the latest is not one.  In particular, nobody else can have a reference then. -/
theorem C151_unique {st : State} {acq : Bool} (h : Reached acq st) (t i : Nat) (ht : t ∈ st.refs)
    (hs : st.seen t ≤ i) (hi : i ≤ st.mods) (hv : st.val i = 1) : i = st.mods ∧ st.refs = [t] :=
  (inv h).sole ht hs hi hv

/-- C151: mutation is no data race if every drop of a reference by another thread happens before it. -/
theorem C151_mutate_partial {st : State} {acq : Bool} (h : Reached acq st) (t i : Nat)
    (ha : Allowed st (.mutate t i)) (hk : KnowsDrops st t) :
    ∃ st', st.exec acq (.mutate t i) = .ok st' ∧ Reached acq st' := by
  obtain ⟨st', h1⟩ := ((inv h).mutate acq t i ha).2 (Or.inr hk)
  exact ⟨st', h1, .step h _ ha h1⟩

/-- C151: nothing would be a data race if `unique()` had `memory_order_acquire`. -/
theorem C151_acquire {st : State} (h : Reached true st) (c : Cmd) (ha : Allowed st c) :
    ∃ st', st.exec true c = .ok st' ∧ Reached true st' := by
  by_cases hm : Mutates c
  · cases c with
    | mutate t i =>
      obtain ⟨st', h1⟩ := ((inv h).mutate true t i ha).2 (Or.inl rfl)
      exact ⟨st', h1, .step h _ ha h1⟩
    | _ => cases hm
  · exact C151_partial h c ha hm

theorem reached_of_alone {acq : Bool} {st : State} (h : Alone acq st) : Reached acq st := by
  induction h with
  | init => exact .init
  | step _ c _ ha he ih => exact .step ih c ha he

theorem tick_knows {st : State} {t : Nat} (h : KnowsDrops st t) : KnowsDrops (st.tick t) t :=
  fun j => Nat.le_trans (h j) (tick_le st t t j)

theorem access_knows {st st' : State} {t u : Nat} {k : Kind} (h : KnowsDrops st t) (he : st.access u k = .ok st') :
    KnowsDrops st' t := by
  rw [access_eq he]
  exact h

theorem alone_knows {acq : Bool} {st : State} (h : Alone acq st) : KnowsDrops st 0 := by
  induction h with
  | init => exact fun j => Nat.zero_le _
  | @step st st' _ c hb ha he ih =>
    cases c with
    | read t =>
      cases hb
      exact access_knows (tick_knows ih) he
    | mutate t i =>
      cases hb
      have he : (((st.tick 0).load acq 0 i).bind fun st =>
        if st.val i = 1 then (st.tick 0).access 0 .write else .ok st) = .ok st' := he
      unfold State.load at he
      cases h1 : (st.tick 0).access 0 .atomic with
      | throw => rw [h1] at he; cases he
      | ub => rw [h1] at he; cases he
      | ok s1 =>
        rw [h1, Res.ok_map, Res.ok_bind] at he
        have k1 : KnowsDrops s1 0 := access_knows (tick_knows ih) h1
        dsimp only at he
        have k2 : KnowsDrops (if acq = true then (s1.see 0 i).join 0 ((s1.see 0 i).rel i) else s1.see 0 i) 0 := by
          cases acq with
          | false => exact k1
          | true => exact fun j => Nat.le_trans (k1 j) (join_le (s1.see 0 i) 0 _ 0 j)
        revert he
        generalize (if acq = true then (s1.see 0 i).join 0 ((s1.see 0 i).rel i) else s1.see 0 i) = s2 at k2
        intro he
        by_cases hv : s2.val i = 1
        · rw [if_pos hv] at he
          exact access_knows (tick_knows k2) he
        · rw [if_neg hv] at he
          cases he
          exact k2
    | copy t =>
      cases hb
      have he : (((st.tick 0).access 0 .atomic).bind fun st =>
        if st.val st.mods < 1 then .ub
        else .ok { st.modify 0 (st.val st.mods + 1) (st.rel st.mods) with refs := 0 :: st.refs }) = .ok st' := he
      cases h1 : (st.tick 0).access 0 .atomic with
      | throw => rw [h1] at he; cases he
      | ub => rw [h1] at he; cases he
      | ok s1 =>
        rw [h1, Res.ok_bind] at he
        have k1 : KnowsDrops s1 0 := access_knows (tick_knows ih) h1
        by_cases hv : s1.val s1.mods < 1
        · rw [if_pos hv] at he; cases he
        · rw [if_neg hv] at he
          cases he
          intro j
          show (if s1.mods + 1 = s1.mods + 1 then s1.rel s1.mods else s1.rel (s1.mods + 1)) j ≤ s1.clk 0 j
          rw [if_pos rfl]
          exact k1 j
    | drop t =>
      cases hb
      have hr := reached_of_alone ‹Alone acq st›
      obtain ⟨s1, h1, h2, h3⟩ := ((inv hr).tick 0).light (k := .atomic) ha (Or.inr rfl)
      have he : (((st.tick 0).access 0 .atomic).bind fun st =>
        if st.val st.mods < 1 then .ub
        else
          let st := st.dropped 0
          if st.val st.mods = 0 then
            ((st.tick 0).access 0 .whole).map fun st => { st with gone := true }
          else .ok st) = .ok st' := he
      rw [h1, Res.ok_bind] at he
      have ht1 : 0 ∈ s1.refs := by subst h3; exact ha
      obtain ⟨g1, g2, g3, g4, g5, g6⟩ := (h2.join 0 (s1.rel s1.mods)).decrement (t := 0) ht1 (by
        intro j
        dsimp only [State.join]
        rw [if_pos rfl]
        exact Nat.le_max_right _ _) (s1.dropped 0) rfl
      rw [if_neg (show ¬ s1.val s1.mods < 1 from g1)] at he
      dsimp only at he
      revert he g4
      generalize s1.dropped 0 = s2
      intro he g4
      by_cases hz : s2.val s2.mods = 0
      · rw [if_pos hz] at he
        cases h4 : (s2.tick 0).access 0 .whole with
        | throw => rw [h4] at he; cases he
        | ub => rw [h4] at he; cases he
        | ok s3 =>
          rw [h4, Res.ok_map] at he
          cases he
          exact (access_knows (tick_knows g4) h4 : KnowsDrops s3 0)
      · rw [if_neg hz] at he
        cases he
        exact g4
    | send t u =>
      obtain ⟨e1, e2⟩ := hb
      subst e1 e2
      cases he
      exact fun j => Nat.le_trans (ih j) (join_le st 0 (st.clk 0) 0 j)
    | sync t u =>
      obtain ⟨e1, e2⟩ := hb
      subst e1 e2
      cases he
      exact fun j => Nat.le_trans (ih j) (join_le st 0 (st.clk 0) 0 j)

/-- C151: if there is one thread, nothing that it does is a data race. -/
theorem C151_alone {st : State} {acq : Bool} (h : Alone acq st) (c : Cmd) (hb : By 0 c) (ha : Allowed st c) :
    ∃ st', st.exec acq c = .ok st' ∧ Alone acq st' := by
  have hr := reached_of_alone h
  by_cases hm : Mutates c
  · cases c with
    | mutate t i =>
      cases hb
      obtain ⟨st', h1⟩ := ((inv hr).mutate acq 0 i ha).2 (Or.inr (alone_knows h))
      exact ⟨st', h1, .step h (.mutate 0 i) rfl ha h1⟩
    | _ => cases hm
  · obtain ⟨st', h1, _⟩ := C151_partial hr c ha hm
    exact ⟨st', h1, .step h c hb ha h1⟩

/-! ## Cases -/

/-- Whether a thread may do something, computed. -/
def allowed (st : State) : Cmd → Bool
  | .read t => st.refs.contains t
  | .mutate t i => st.refs.contains t && decide (st.seen t ≤ i) && decide (i ≤ st.mods)
  | .copy t => st.refs.contains t
  | .drop t => st.refs.contains t
  | .send t _ => st.refs.contains t
  | .sync _ _ => true

theorem allowed_iff {st : State} {c : Cmd} (h : allowed st c = true) : Allowed st c := by
  cases c <;> simp_all [allowed, Allowed]

/-- What threads get to, if they may do these things and they are defined. -/
def program (acq : Bool) (st : State) : List Cmd → Option State
  | [] => some st
  | c :: l =>
    if allowed st c then
      match st.exec acq c with
      | .ok st' => program acq st' l
      | _ => none
    else none

theorem reached_program {acq : Bool} (l : List Cmd) : ∀ {st st' : State}, Reached acq st →
    program acq st l = some st' → Reached acq st' := by
  induction l with
  | nil => intro st st' h he; cases he; exact h
  | cons c l ih =>
    intro st st' h he
    unfold program at he
    by_cases hc : allowed st c = true
    · rw [if_pos hc] at he
      cases hx : st.exec acq c with
      | ok s1 =>
        rw [hx] at he
        exact ih (.step h c (allowed_iff hc) hx) he
      | throw => rw [hx] at he; cases he
      | ub => rw [hx] at he; cases he
    · rw [if_neg hc] at he; cases he

/-- Whether the last of these is a data race after the others are defined, computed. -/
def races (acq : Bool) (l : List Cmd) (c : Cmd) : Bool :=
  match program acq .init l with
  | none => false
  | some st => allowed st c && match st.exec acq c with | .ub => true | _ => false

theorem races_iff {acq : Bool} {l : List Cmd} {c : Cmd} (h : races acq l c = true) :
    ∃ st, Reached acq st ∧ Allowed st c ∧ st.exec acq c = .ub := by
  unfold races at h
  cases hp : program acq .init l with
  | none => rw [hp] at h; cases h
  | some st =>
    rw [hp] at h
    dsimp only at h
    rw [Bool.and_eq_true] at h
    refine ⟨st, reached_program l .init hp, allowed_iff h.1, ?_⟩
    have := h.2
    cases hx : st.exec acq c with
    | ub => rfl
    | ok s => rw [hx] at this; cases this
    | throw => rw [hx] at this; cases this

/-- C151 is false of the code: thread 0 makes a string, hands a copy to thread 1, which reads it and drops it;
then thread 0 is told that it is the only owner, and writes.  The load in `unique()` is relaxed, so what
thread 1 read does not happen before that. -/
theorem C151_false : ∃ st, Reached false st ∧ Allowed st (.mutate 0 2) ∧ st.exec false (.mutate 0 2) = .ub :=
  races_iff (l := [.copy 0, .send 0 1, .read 1, .drop 1]) (by decide +kernel)

/-- The same is defined if thread 1 hands its reference back, or synchronizes with thread 0 afterwards, so the
hypotheses of `C151_mutate_partial` are met. -/
example : (program false .init [.copy 0, .send 0 1, .read 1, .drop 1, .sync 1 0, .mutate 0 2]).isSome = true ∧
    (program false .init [.copy 0, .send 0 1, .read 1, .send 1 0, .drop 0, .mutate 0 2]).isSome = true := by
  decide +kernel

/-- The same is defined with `memory_order_acquire`. -/
example : (program true .init [.copy 0, .send 0 1, .read 1, .drop 1, .mutate 0 2]).isSome = true := by
  decide +kernel

/-- A storage is destroyed by the thread that is last, which has not synchronized with the other by anything but
the counter. -/
example : ((program false .init [.copy 0, .send 0 1, .read 0, .read 1, .drop 0, .drop 1]).map (·.gone)) = some true := by
  decide +kernel

end Asteria.Order
