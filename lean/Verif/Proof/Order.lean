import Verif.Spec.Order

/-!
# Invariant of a shared storage
-/

namespace Asteria.Order

open Spec

/-- What happened to a storage happens before what some owner does next, or is released with the counter;
writes happen before what every owner does next; the counter counts the owners, and no owner can read a value
of one that is not the latest. -/
structure Inv (st : State) : Prop where
  val : st.gone = false → st.val st.mods = st.refs.length
  gone : st.gone = true → st.refs = []
  old : ∀ t, t ∈ st.refs → ∀ i, st.seen t ≤ i → i < st.mods → 2 ≤ st.val i
  accs : st.gone = false → ∀ a, a ∈ st.accs →
    a.time ≤ st.rel st.mods a.who ∨ ∃ k, k ∈ st.refs ∧ a.time ≤ st.clk k a.who
  writes : ∀ a, a ∈ st.accs → a.kind = .write ∨ a.kind = .whole → ∀ k, k ∈ st.refs → a.time ≤ st.clk k a.who

theorem Inv.init : Inv .init := by
  refine ⟨?_, ?_, ?_, ?_, ?_⟩
  · intro _; rfl
  · intro h; cases h
  · intro t _ i _ hi
    exact absurd hi (Nat.not_lt_zero _)
  · intro _ a ha
    cases List.mem_singleton.1 ha
    exact Or.inr ⟨0, by decide, by decide⟩
  · intro a ha _ k hk
    cases List.mem_singleton.1 ha
    cases List.mem_singleton.1 hk
    decide

theorem Inv.here {st : State} (h : Inv st) {t : Nat} (ht : t ∈ st.refs) : st.gone = false := by
  cases hg : st.gone with
  | false => rfl
  | true =>
    rw [h.gone hg] at ht
    cases ht

/-- More may happen before. -/
theorem Inv.grow {st : State} (h : Inv st) (clk : Nat → Nat → Nat) (hc : ∀ t j, st.clk t j ≤ clk t j)
    (seen : Nat → Nat) (hs : ∀ t, st.seen t ≤ seen t) : Inv { st with clk := clk, seen := seen } := by
  refine ⟨h.val, h.gone, ?_, ?_, ?_⟩
  · intro t ht i hi
    exact h.old t ht i (Nat.le_trans (hs t) hi)
  · intro hg a ha
    rcases h.accs hg a ha with h1 | ⟨k, h1, h2⟩
    · exact Or.inl h1
    · exact Or.inr ⟨k, h1, Nat.le_trans h2 (hc _ _)⟩
  · intro a ha hk k hm
    exact Nat.le_trans (h.writes a ha hk k hm) (hc _ _)

theorem tick_le (st : State) (t x j : Nat) : st.clk x j ≤ (st.tick t).clk x j := by
  unfold State.tick
  dsimp only
  split <;> omega

theorem join_le (st : State) (t : Nat) (c : Nat → Nat) (x j : Nat) : st.clk x j ≤ (st.join t c).clk x j := by
  unfold State.join
  dsimp only
  split <;> omega

theorem see_le (st : State) (t n x : Nat) : st.seen x ≤ (st.see t n).seen x := by
  unfold State.see
  dsimp only
  split <;> omega

theorem Inv.tick {st : State} (h : Inv st) (t : Nat) : Inv (st.tick t) :=
  h.grow _ (tick_le st t) _ (fun _ => Nat.le_refl _)

theorem Inv.join {st : State} (h : Inv st) (t : Nat) (c : Nat → Nat) : Inv (st.join t c) :=
  h.grow _ (join_le st t c) _ (fun _ => Nat.le_refl _)

theorem Inv.see {st : State} (h : Inv st) (t n : Nat) : Inv (st.see t n) :=
  h.grow _ (fun _ _ => Nat.le_refl _) _ (see_le st t n)

/-- An access is defined if what conflicts happens before. -/
theorem access_ok {st : State} {t : Nat} {k : Kind} (hg : st.gone = false)
    (hc : ∀ a, a ∈ st.accs → conflict a.kind k = true → a.time ≤ st.clk t a.who) :
    st.access t k = .ok { st with accs := ⟨k, t, st.clk t t⟩ :: st.accs } := by
  unfold State.access
  rw [if_neg (by simp [hg]), if_neg]
  rw [List.any_eq_true]
  rintro ⟨a, ha, h⟩
  rw [Bool.and_eq_true, decide_eq_true_eq] at h
  have := hc a ha h.1
  omega

theorem access_eq {st st' : State} {t : Nat} {k : Kind} (h : st.access t k = .ok st') :
    st' = { st with accs := ⟨k, t, st.clk t t⟩ :: st.accs } := by
  unfold State.access at h
  by_cases h1 : st.gone = true
  · rw [if_pos h1] at h; cases h
  rw [if_neg h1] at h
  by_cases h2 : st.accs.any (fun a => conflict a.kind k && decide (st.clk t a.who < a.time)) = true
  · rw [if_pos h2] at h; cases h
  rw [if_neg h2] at h
  cases h
  rfl

/-- What an access that is not a write leaves. -/
theorem Inv.record {st : State} (h : Inv st) {t : Nat} {k : Kind} (ht : t ∈ st.refs)
    (hk : (k = .write ∨ k = .whole) → ∀ u, u ∈ st.refs → st.clk t t ≤ st.clk u t) :
    Inv { st with accs := ⟨k, t, st.clk t t⟩ :: st.accs } := by
  refine ⟨h.val, h.gone, h.old, ?_, ?_⟩
  · intro hg a ha
    rcases List.mem_cons.1 ha with e | ha
    · subst e
      exact Or.inr ⟨t, ht, Nat.le_refl _⟩
    · exact h.accs hg a ha
  · intro a ha hka u hu
    rcases List.mem_cons.1 ha with e | ha
    · subst e
      exact hk hka u hu
    · exact h.writes a ha hka u hu

/-- Reading, or accessing the counter, is no data race. -/
theorem Inv.light {st : State} (h : Inv st) {t : Nat} {k : Kind} (ht : t ∈ st.refs) (hk : k = .read ∨ k = .atomic) :
    ∃ st', st.access t k = .ok st' ∧ Inv st' ∧ st' = { st with accs := ⟨k, t, st.clk t t⟩ :: st.accs } := by
  refine ⟨_, access_ok (h.here ht) ?_, h.record ht ?_, rfl⟩
  · intro a ha hc
    apply h.writes a ha _ t ht
    rcases hk with e | e <;> subst e <;> cases hka : a.kind <;> rw [hka] at hc <;> simp [conflict] at hc ⊢
  · intro e
    rcases hk with e' | e' <;> rw [e'] at e <;> simp at e

/-- An owner that reads a value of one is the only owner. -/
theorem Inv.sole {st : State} (h : Inv st) {t i : Nat} (ht : t ∈ st.refs) (hs : st.seen t ≤ i) (hi : i ≤ st.mods)
    (hv : st.val i = 1) : i = st.mods ∧ st.refs = [t] := by
  have e : i = st.mods := by
    apply Classical.byContradiction
    intro e
    have := h.old t ht i hs (by omega)
    omega
  refine ⟨e, ?_⟩
  subst e
  have hl := h.val (h.here ht)
  rw [hv] at hl
  match hr : st.refs with
  | [] => rw [hr] at hl; cases hl
  | [x] =>
    rw [hr] at ht
    rw [List.mem_singleton.1 ht]
  | x :: y :: l => rw [hr] at hl; simp at hl

theorem two_of_mem {l : List Nat} {t u : Nat} (ht : t ∈ l) (hu : u ∈ l) (hne : t ≠ u) : 2 ≤ l.length := by
  match l with
  | [] => cases ht
  | [x] =>
    rw [List.mem_singleton.1 ht, List.mem_singleton.1 hu] at hne
    exact absurd rfl hne
  | x :: y :: l => simp

theorem Inv.load {st : State} (h : Inv st) (acq : Bool) {t : Nat} (i : Nat) (ht : t ∈ st.refs) :
    ∃ st', st.load acq t i = .ok st' ∧ Inv st' ∧ st'.refs = st.refs ∧ st'.mods = st.mods ∧ st'.val = st.val ∧
      st'.rel = st.rel ∧ (∀ x j, st.clk x j ≤ st'.clk x j) ∧ (acq = true → ∀ j, st.rel i j ≤ st'.clk t j) := by
  obtain ⟨st1, h1, h2, h3⟩ := h.light (k := .atomic) ht (Or.inr rfl)
  unfold State.load
  rw [h1, Res.ok_map]
  dsimp only
  cases acq with
  | false =>
    rw [if_neg (by simp)]
    refine ⟨_, rfl, h2.see t i, ?_, ?_, ?_, ?_, ?_, ?_⟩ <;> subst h3
    · rfl
    · rfl
    · rfl
    · rfl
    · exact fun _ _ => Nat.le_refl _
    · intro e; cases e
  | true =>
    rw [if_pos rfl]
    refine ⟨_, rfl, (h2.see t i).join t _, ?_, ?_, ?_, ?_, ?_, ?_⟩ <;> subst h3
    · rfl
    · rfl
    · rfl
    · rfl
    · exact join_le _ _ _
    · intro _ j
      unfold State.join
      dsimp only
      rw [if_pos rfl]
      exact Nat.le_max_right _ _

/-- Writing is defined for the only owner that knows what has been dropped. -/
theorem Inv.write {st : State} (h : Inv st) {t : Nat} (hr : st.refs = [t]) (hd : KnowsDrops st t) :
    ∃ st', (st.tick t).access t .write = .ok st' ∧ Inv st' := by
  have ht : t ∈ st.refs := by rw [hr]; exact List.mem_singleton.2 rfl
  have h' := h.tick t
  refine ⟨_, access_ok (h'.here ht) ?_, h'.record ht ?_⟩
  · intro a ha _
    apply Nat.le_trans _ (tick_le st t t a.who)
    rcases h.accs (h.here ht) a ha with h1 | ⟨k, h1, h2⟩
    · exact Nat.le_trans h1 (hd _)
    · rw [hr] at h1
      rw [List.mem_singleton.1 h1] at h2
      exact h2
  · intro _ u hu
    have hu' : u ∈ st.refs := hu
    rw [hr] at hu'
    rw [List.mem_singleton.1 hu']
    exact Nat.le_refl _

/-- Whatever was written without undefined behaviour keeps the invariant. -/
theorem Inv.written {st st' : State} (h : Inv st) {t : Nat} (hr : st.refs = [t])
    (he : (st.tick t).access t .write = .ok st') : Inv st' := by
  rw [access_eq he]
  have ht : t ∈ st.refs := by rw [hr]; exact List.mem_singleton.2 rfl
  refine (h.tick t).record ht ?_
  intro _ u hu
  have hu' : u ∈ st.refs := hu
  rw [hr] at hu'
  rw [List.mem_singleton.1 hu']
  exact Nat.le_refl _

theorem Inv.copy {st : State} (h : Inv st) {t : Nat} (ht : t ∈ st.refs) :
    ¬ st.val st.mods < 1 ∧
      Inv { st.modify t (st.val st.mods + 1) (st.rel st.mods) with refs := t :: st.refs } := by
  have hg := h.here ht
  have hl := h.val hg
  have hpos : 0 < st.refs.length := List.length_pos_of_mem ht
  refine ⟨by omega, ?_⟩
  unfold State.modify
  refine ⟨?_, ?_, ?_, ?_, ?_⟩
  · intro _
    dsimp only
    rw [if_pos rfl, List.length_cons, hl]
  · intro e
    have e : st.gone = true := e
    rw [hg] at e
    cases e
  · intro u hu i h1 h2
    dsimp only at hu h1 h2 ⊢
    rw [if_neg (by omega)]
    by_cases e : u = t
    · rw [if_pos e] at h1
      omega
    · rw [if_neg e] at h1
      have hu : u ∈ st.refs := by
        rcases List.mem_cons.1 hu with hu | hu
        · exact absurd hu e
        · exact hu
      by_cases e2 : i = st.mods
      · subst e2
        rw [hl]
        exact two_of_mem hu ht e
      · exact h.old u hu i h1 (by omega)
  · intro _ a ha
    dsimp only at ha ⊢
    rw [if_pos rfl]
    rcases h.accs hg a ha with h1 | ⟨k, h1, h2⟩
    · exact Or.inl h1
    · exact Or.inr ⟨k, List.mem_cons_of_mem _ h1, h2⟩
  · intro a ha hk k hm
    dsimp only at ha hm ⊢
    rcases List.mem_cons.1 hm with e | hm
    · subst e; exact h.writes a ha hk k ht
    · exact h.writes a ha hk k hm

/-- Decrementing, before the storage is destroyed. -/
theorem Inv.decrement {st : State} (h : Inv st) {t : Nat} (ht : t ∈ st.refs) (hk : KnowsDrops st t) (st' : State)
    (hst : st' = { st.modify t (st.val st.mods - 1) (st.clk t) with refs := st.refs.erase t }) :
    ¬ st.val st.mods < 1 ∧ st'.val st'.mods = st.refs.length - 1 ∧ Inv st' ∧
      (∀ j, st'.rel st'.mods j ≤ st'.clk t j) ∧ st'.gone = false ∧ st'.accs = st.accs := by
  have hg := h.here ht
  have hl := h.val hg
  have hpos : 0 < st.refs.length := List.length_pos_of_mem ht
  have hle : (st.refs.erase t).length = st.refs.length - 1 := List.length_erase_of_mem ht
  subst hst
  unfold State.modify
  refine ⟨by omega, ?_, ⟨?_, ?_, ?_, ?_, ?_⟩, ?_, hg, rfl⟩
  · dsimp only
    rw [if_pos rfl, hl]
  · intro _
    dsimp only
    rw [if_pos rfl, hl, hle]
  · intro e
    have e : st.gone = true := e
    rw [hg] at e
    cases e
  · intro u hu i h1 h2
    dsimp only at hu h1 h2 ⊢
    rw [if_neg (by omega)]
    by_cases e : u = t
    · rw [if_pos e] at h1
      omega
    · rw [if_neg e] at h1
      have hu : u ∈ st.refs := List.mem_of_mem_erase hu
      by_cases e2 : i = st.mods
      · subst e2
        rw [hl]
        exact two_of_mem hu ht e
      · exact h.old u hu i h1 (by omega)
  · intro _ a ha
    have ha : a ∈ st.accs := ha
    dsimp only
    rw [if_pos rfl]
    rcases h.accs hg a ha with h1 | ⟨k, h1, h2⟩
    · left
      exact Nat.le_trans h1 (hk _)
    · by_cases e : k = t
      · left
        subst e
        exact h2
      · right
        exact ⟨k, (List.mem_erase_of_ne e).2 h1, h2⟩
  · intro a ha hka k hm
    exact h.writes a ha hka k (List.mem_of_mem_erase hm)
  · intro j
    dsimp only
    rw [if_pos rfl]
    exact Nat.le_refl _

theorem Inv.give {st : State} (h : Inv st) {t : Nat} (u : Nat) (ht : t ∈ st.refs) :
    Inv { (st.join u (st.clk t)).see u (st.seen t) with refs := u :: st.refs.erase t } := by
  have h' := (h.join u (st.clk t)).see u (st.seen t)
  have hg := h.here ht
  have hpos : 0 < st.refs.length := List.length_pos_of_mem ht
  have hle : (st.refs.erase t).length = st.refs.length - 1 := List.length_erase_of_mem ht
  have hu : ∀ j, st.clk t j ≤ ((st.join u (st.clk t)).see u (st.seen t)).clk u j := by
    intro j
    unfold State.join State.see
    dsimp only
    rw [if_pos rfl]
    exact Nat.le_max_right _ _
  refine ⟨?_, ?_, ?_, ?_, ?_⟩
  · intro _
    have := h.val hg
    dsimp only [State.see, State.join]
    rw [List.length_cons, hle, this]
    omega
  · intro e
    have e : st.gone = true := e
    rw [hg] at e
    cases e
  · intro k hk i h1 h2
    rcases List.mem_cons.1 hk with e | hk
    · subst e
      refine h.old t ht i ?_ h2
      have : st.seen t ≤ ((st.join k (st.clk t)).see k (st.seen t)).seen k := by
        unfold State.see
        dsimp only
        rw [if_pos rfl]
        exact Nat.le_max_right _ _
      exact Nat.le_trans this h1
    · exact h'.old k (List.mem_of_mem_erase hk) i h1 h2
  · intro _ a ha
    rcases h.accs hg a ha with h1 | ⟨k, h1, h2⟩
    · exact Or.inl h1
    · right
      by_cases e : k = t
      · subst e
        exact ⟨u, List.mem_cons_self, Nat.le_trans h2 (hu _)⟩
      · exact ⟨k, List.mem_cons_of_mem _ ((List.mem_erase_of_ne e).2 h1), Nat.le_trans h2 (join_le st u _ _ _)⟩
  · intro a ha hk k hm
    rcases List.mem_cons.1 hm with e | hm
    · subst e
      exact Nat.le_trans (h.writes a ha hk t ht) (hu _)
    · exact h'.writes a ha hk k (List.mem_of_mem_erase hm)

/-- Dropping is defined, whether or not it destroys the storage. -/
theorem Inv.drop {st : State} (h : Inv st) (acq : Bool) {t : Nat} (ht : t ∈ st.refs) :
    ∃ st', st.exec acq (.drop t) = .ok st' ∧ Inv st' ∧ (st'.gone = true ↔ st.refs = [t]) ∧
      st'.refs = st.refs.erase t := by
  obtain ⟨st1, h1, h2, h3⟩ := (h.tick t).light (k := .atomic) ht (Or.inr rfl)
  have hr1 : st1.refs = st.refs := by subst h3; rfl
  have ht1 : t ∈ st1.refs := by rw [hr1]; exact ht
  show ∃ st', ((st.tick t).access t .atomic).bind _ = _ ∧ _
  rw [h1, Res.ok_bind]
  obtain ⟨g1, g2, g3, g4, g5, g6⟩ := (h2.join t (st1.rel st1.mods)).decrement (t := t) ht1 (by
    intro j
    dsimp only [State.join]
    rw [if_pos rfl]
    exact Nat.le_max_right _ _) (st1.dropped t) rfl
  rw [if_neg (show ¬ st1.val st1.mods < 1 from g1)]
  dsimp only
  have g2 : (st1.dropped t).val (st1.dropped t).mods = st1.refs.length - 1 := g2
  have hlen : 0 < st1.refs.length := List.length_pos_of_mem ht1
  have hone : st1.refs.length - 1 = 0 ↔ st.refs = [t] := by
    rw [← hr1]
    constructor
    · intro e
      match hm : st1.refs with
      | [] => rw [hm] at ht1; cases ht1
      | [x] => rw [hm] at ht1; rw [List.mem_singleton.1 ht1]
      | x :: y :: l => rw [hm] at e; simp at e
    · intro e; rw [e]; rfl
  by_cases hz : st1.refs.length - 1 = 0
  · rw [if_pos (by rw [g2]; exact hz)]
    have hr := hone.1 hz
    have hnil : st1.refs.erase t = [] := by rw [hr1, hr]; simp
    rw [access_ok]
    · rw [Res.ok_map]
      refine ⟨_, rfl, ⟨?_, ?_, ?_, ?_, ?_⟩, ⟨fun _ => hr, fun _ => rfl⟩, by rw [← hr1]; rfl⟩
      · intro e; cases e
      · intro _; exact hnil
      · intro u hu
        have hu : u ∈ st1.refs.erase t := hu
        rw [hnil] at hu; cases hu
      · intro e; cases e
      · intro a _ _ k hk
        have hk : k ∈ st1.refs.erase t := hk
        rw [hnil] at hk; cases hk
    · exact g5
    · intro a ha _
      apply Nat.le_trans _ (tick_le _ t t a.who)
      rcases g3.accs g5 a ha with q | ⟨k, q, _⟩
      · exact Nat.le_trans q (g4 _)
      · have q : k ∈ st1.refs.erase t := q
        rw [hnil] at q
        cases q
  · rw [if_neg (by rw [g2]; exact hz)]
    refine ⟨_, rfl, g3, ?_, by rw [← hr1]; rfl⟩
    rw [show _ = false from g5]
    constructor
    · intro e; cases e
    · intro e; exact absurd (hone.2 e) hz

/-- Every step but a mutation is defined. -/
theorem Inv.step {st : State} (h : Inv st) (acq : Bool) (c : Cmd) (ha : Allowed st c) (hm : ¬ Mutates c) :
    ∃ st', st.exec acq c = .ok st' ∧ Inv st' := by
  cases c with
  | read t =>
    obtain ⟨st1, h1, h2, _⟩ := (h.tick t).light (k := .read) ha (Or.inl rfl)
    exact ⟨st1, h1, h2⟩
  | mutate t i => exact absurd trivial hm
  | copy t =>
    obtain ⟨st1, h1, h2, h3⟩ := (h.tick t).light (k := .atomic) ha (Or.inr rfl)
    have ht1 : t ∈ st1.refs := by subst h3; exact ha
    obtain ⟨g1, g2⟩ := h2.copy ht1
    show ∃ st', ((st.tick t).access t .atomic).bind _ = _ ∧ _
    rw [h1, Res.ok_bind, if_neg g1]
    exact ⟨_, rfl, g2⟩
  | drop t =>
    obtain ⟨st', h1, h2, _⟩ := h.drop acq ha
    exact ⟨st', h1, h2⟩
  | send t u => exact ⟨_, rfl, h.give u ha⟩
  | sync t u => exact ⟨_, rfl, (h.join u _).see u _⟩

/-- A mutation that was defined keeps the invariant; it is defined if the load gives another value than one, or
if the thread knows what has been dropped or acquires it. -/
theorem Inv.mutate {st : State} (h : Inv st) (acq : Bool) (t i : Nat) (ha : Allowed st (.mutate t i)) :
    (∀ st', st.exec acq (.mutate t i) = .ok st' → Inv st') ∧
      ((acq = true ∨ KnowsDrops st t) → ∃ st', st.exec acq (.mutate t i) = .ok st') := by
  obtain ⟨ht, hs, hi⟩ := ha
  obtain ⟨st1, h1, h2, h3, h4, h5, h6, h7, h8⟩ := (h.tick t).load acq i ht
  have e : st.exec acq (.mutate t i) = if st1.val i = 1 then (st1.tick t).access t .write else .ok st1 := by
    show ((st.tick t).load acq t i).bind _ = _
    rw [h1, Res.ok_bind]
  rw [e]
  by_cases hv : st1.val i = 1
  · rw [if_pos hv]
    have hv' : st.val i = 1 := by rw [h5] at hv; exact hv
    obtain ⟨e1, e2⟩ := h.sole ht hs hi hv'
    have e3 : st1.refs = [t] := by rw [h3]; exact e2
    refine ⟨fun st' he => h2.written e3 he, fun hk => ?_⟩
    obtain ⟨st', g1, _⟩ := h2.write e3 (by
      intro j
      rw [h6, h4]
      rcases hk with hk | hk
      · have := h8 hk j
        rw [e1] at this
        exact this
      · exact Nat.le_trans (hk j) (Nat.le_trans (tick_le st t t j) (h7 t j)))
    exact ⟨st', g1⟩
  · rw [if_neg hv]
    exact ⟨fun st' he => by cases he; exact h2, fun _ => ⟨st1, rfl⟩⟩

theorem inv {acq : Bool} {st : State} (h : Reached acq st) : Inv st := by
  induction h with
  | init => exact Inv.init
  | step _ c ha he ih =>
    by_cases hm : Mutates c
    · cases c with
      | mutate t i => exact (ih.mutate acq t i ha).1 _ he
      | _ => cases hm
    · obtain ⟨st', h1, h2⟩ := ih.step acq c ha hm
      rw [h1] at he
      cases he
      exact h2

end Asteria.Order
