import Verif.Spec.GcAuto
import Verif.Props.Gc

/-!
# Helper lemmas for C139–C143
-/

namespace Asteria.Gc

open Spec

/-! ## What a collection does with the sizes of generations -/

theorem thenDo_ok {o : Option (Res Gc)} {k : Gc → Option (Res Gc)} {g' : Gc} (h : thenDo o k = some (.ok g')) :
    ∃ g, o = some (.ok g) ∧ k g = some (.ok g') := by
  unfold thenDo at h
  split at h
  · exact ⟨_, rfl, h⟩
  · rename_i hne
    exact absurd h (hne _)

/-- The parts of the state that the first three loops leave alone. -/
def SameTrack (g g' : Gc) : Prop := g'.tracked = g.tracked ∧ g'.counts = g.counts ∧ g'.pool = g.pool

theorem phase1_same {h : Heap} {pick : Nat → Nat} : ∀ {n : Nat} {g g' : Gc}, phase1 h pick n g = some (.ok g') → SameTrack g g' := by
  intro n
  induction n with
  | zero => intro g g' e; simp [phase1] at e
  | succ n ih =>
    intro g g' e
    unfold phase1 at e
    split at e
    · cases e; exact ⟨rfl, rfl, rfl⟩
    · dsimp only at e
      split at e
      · split at e
        · cases e
        · obtain ⟨e1, e2⟩ := ih e
          exact ⟨e1, e2⟩
      · cases e

theorem phase2_same {h : Heap} {pick : Nat → Nat} : ∀ {n : Nat} {g g' : Gc}, phase2 h pick n g = some (.ok g') → SameTrack g g' := by
  intro n
  induction n with
  | zero => intro g g' e; simp [phase2] at e
  | succ n ih =>
    intro g g' e
    unfold phase2 at e
    split at e
    · cases e; exact ⟨rfl, rfl, rfl⟩
    · obtain ⟨e1, e2⟩ := ih e
      exact ⟨e1, e2⟩
    · dsimp only at e
      split at e
      · obtain ⟨e1, e2⟩ := ih e
        exact ⟨e1, e2⟩
      · cases e

theorem phase3_same {h : Heap} {pick : Nat → Nat} : ∀ {n : Nat} {g g' : Gc}, phase3 h pick n g = some (.ok g') → SameTrack g g' := by
  intro n
  induction n with
  | zero => intro g g' e; simp [phase3] at e
  | succ n ih =>
    intro g g' e
    unfold phase3 at e
    split at e
    · cases e; exact ⟨rfl, rfl, rfl⟩
    · dsimp only at e
      split at e
      · obtain ⟨e1, e2⟩ := ih e
        exact ⟨e1, e2⟩
      · obtain ⟨e1, e2⟩ := ih e
        exact ⟨e1, e2⟩

/-- The counters of other generations. -/
def SameCounts (gen : Nat) (g g' : Gc) : Prop := ∀ j, j ≠ gen → j ≠ gen + 1 → g'.counts j = g.counts j

theorem length_insertVar {v : Var} {l : List Var} : (insertVar v l).length ≤ l.length + 1 := by
  unfold insertVar
  split <;> simp

theorem promote_sizes {gen : Nat} {v : Var} {g : Gc} (s : Sizes g) :
    Sizes (promote gen v g) ∧ SameCounts gen g (promote gen v g) := by
  unfold promote
  split
  · refine ⟨⟨?_, s.pool, ?_⟩, ?_⟩
    · intro i
      dsimp only
      split
      · exact (s.nodup gen).erase v
      · split
        · exact nodup_insertVar (s.nodup _)
        · exact s.nodup i
    · intro i hi
      dsimp only
      have h0 := s.small i hi
      split
      · rename_i he
        have hne : ¬ i = gen + 1 := by omega
        rw [if_neg hne]
        subst he
        have := List.length_erase_le (a := v) (l := g.tracked i)
        omega
      · split
        · rename_i he
          subst he
          have := length_insertVar (v := v) (l := g.tracked (gen + 1))
          omega
        · exact h0
    · intro j _ hj
      dsimp only
      rw [if_neg hj]
  · exact ⟨s, fun _ _ _ => rfl⟩

theorem phase4_sizes {h : Heap} {pick : Nat → Nat} {gen : Nat} :
    ∀ {n : Nat} {g g' : Gc}, phase4 h pick gen n g = some (.ok g') → Sizes g → Sizes g' ∧ SameCounts gen g g' := by
  intro n
  induction n with
  | zero => intro g g' e; simp [phase4] at e
  | succ n ih =>
    intro g g' e s
    unfold phase4 at e
    split at e
    · cases e; exact ⟨s, fun _ _ _ => rfl⟩
    · dsimp only at e
      split at e
      · cases e
      · rename_i v rest _ _ st tm _
        have s0 : Sizes { (setRef { g with temp2 := rest, temp1 := g.temp1.erase v, unreach := g.unreach.erase v } v 0) with
            staged := st, temp2 := tm } := ⟨s.nodup, s.pool, s.small⟩
        obtain ⟨s1, k1⟩ := promote_sizes (gen := gen) (v := v) s0
        obtain ⟨s2, k2⟩ := ih e s1
        exact ⟨s2, fun j h1 h2 => (k2 j h1 h2).trans (k1 j h1 h2)⟩

theorem phase5_sizes {pick : Nat → Nat} {gen : Nat} :
    ∀ {n : Nat} {g g' : Gc}, phase5 pick gen n g = some (.ok g') → Sizes g → Sizes g' ∧ g'.counts = g.counts := by
  intro n
  induction n with
  | zero => intro g g' e; simp [phase5] at e
  | succ n ih =>
    intro g g' e s
    unfold phase5 at e
    split at e
    · cases e; exact ⟨s, rfl⟩
    · dsimp only at e
      split at e
      · split at e
        · rename_i v rest _ _ _
          obtain ⟨s2, k2⟩ := ih e (by
            refine ⟨?_, nodup_insertVar s.pool, ?_⟩
            · intro i
              dsimp only
              split
              · exact (s.nodup gen).erase v
              · exact s.nodup i
            · intro i hi
              dsimp only
              have h0 := s.small i hi
              split
              · rename_i he
                subst he
                have := List.length_erase_le (a := v) (l := g.tracked i)
                omega
              · exact h0)
          exact ⟨s2, k2⟩
        · cases e
      · obtain ⟨s2, k2⟩ := ih e ⟨s.nodup, s.pool, s.small⟩
        exact ⟨s2, k2⟩

/-- The counters and sizes after a collection. -/
theorem collect_sizes {h : Heap} {pick : Nat → Nat} {gen n : Nat} {g g' : Gc} (s : Sizes g)
    (e : collect h pick gen n g = some (.ok g')) (hy : gen < 2 → g'.tracked gen = []) :
    Sizes g' ∧ g'.counts gen = 0 ∧ SameCounts gen g g' := by
  unfold collect at e
  obtain ⟨g1, e1, e⟩ := thenDo_ok e
  obtain ⟨g2, e2, e⟩ := thenDo_ok e
  obtain ⟨g3, e3, e⟩ := thenDo_ok e
  obtain ⟨g4, e4, e⟩ := thenDo_ok e
  obtain ⟨g5, e5, e⟩ := thenDo_ok e
  cases e
  obtain ⟨a1, b1, p1⟩ := phase1_same e1
  obtain ⟨a2, b2, p2⟩ := phase2_same e2
  obtain ⟨a3, b3, p3⟩ := phase3_same e3
  dsimp only at a1 b1 p1 a2 b2 p2 a3 b3 p3 hy
  have s3 : Sizes { g3 with temp1 := [] } := by
    refine ⟨?_, by rw [p3, p2, p1]; exact s.pool, ?_⟩
    · intro i; dsimp only; rw [a3, a2, a1]; exact s.nodup i
    · intro i hi; dsimp only; rw [a3, a2, a1, b3, b2, b1]; exact s.small i hi
  obtain ⟨s4, k4⟩ := phase4_sizes e4 s3
  obtain ⟨s5, k5⟩ := phase5_sizes e5 ⟨s4.nodup, s4.pool, s4.small⟩
  refine ⟨⟨s5.nodup, s5.pool, ?_⟩, if_pos rfl, ?_⟩
  · intro i hi
    dsimp only
    split
    · rename_i he
      subst he
      rw [hy hi]
      simp
    · exact s5.small i hi
  · intro j h1 h2
    dsimp only
    rw [if_neg h1, k5]
    have := k4 j h1 h2
    dsimp only at this
    rw [this, b3, b2, b1]

/-! ## The loops over generations -/

theorem known_held {w : World} {g : Gc} (hh : Held w g) {gen : Nat} (hgen : gen ≤ 2) :
    Managed (w.heap gen) g (g.tracked gen) := by
  intro v hv
  cases hv with
  | base h => exact hh.tracked gen v hgen h
  | step _ hp =>
    obtain ⟨a, _, hc⟩ := hp
    exact hh.cells gen v a hgen hc

theorem collect_tracked {h : Heap} {m : Memory h} {gen : Nat} {g g' : Gc} (hgen : gen ≤ 2) (c : Collected h m gen g g') {i : Nat}
    (hi : i ≤ 2) {v : Var} (hv : v ∈ g'.tracked i) : ∃ j, j ≤ 2 ∧ v ∈ g.tracked j := by
  by_cases h1 : i = gen
  · subst h1
    by_cases h2 : i < 2
    · rw [c.young h2] at hv; simp at hv
    · exact ⟨i, hi, ((c.oldest (by omega) v).mp hv).1⟩
  · by_cases h2 : i = gen + 1
    · subst h2
      rcases (c.next (by omega) v).mp hv with h3 | h3
      · exact ⟨gen + 1, hi, h3⟩
      · exact ⟨gen, hgen, h3.1⟩
    · rw [c.other i hi h1 h2] at hv
      exact ⟨i, hi, hv⟩

/-- A turn of the loop. -/
structure Turned (w : World) (ms : ∀ i, Memory (w.heap i)) (due : Coll → Nat → Bool) (gen : Nat) (c c' : Coll) (k k' : Nat) : Prop where
  skip : due c gen = false → c' = c ∧ k' = k
  done : due c gen = true → Collected (w.heap gen) (ms gen) gen c.g c'.g ∧ c'.g.counts gen = 0 ∧ k' = k + c'.g.wiped.length ∧
    (∀ v, c'.init v = if v ∈ c'.g.wiped then false else c.init v)
  counts : SameCounts gen c.g c'.g
  thres : c'.thres = c.thres
  immut : c'.immut = c.immut
  sizes : Sizes c'.g
  held : Held w c'.g
  keep : ∀ v, Gc.held c.g v = 1 → Gc.held c'.g v = 1

theorem turn_spec {w : World} (ms : ∀ i, Memory (w.heap i)) {due : Coll → Nat → Bool} {n gen k : Nat} {c : Coll}
    {r : Res (Coll × Nat)} (hgen : gen ≤ 2) (s : Sizes c.g) (hh : Held w c.g) (e : turn w due n gen c k = some r) :
    ∃ c' k', r = .ok (c', k') ∧ Turned w ms due gen c c' k k' := by
  unfold turn at e
  by_cases hd : due c gen = true
  · rw [if_pos hd] at e
    have hm := known_held hh hgen
    rcases collect_cases (ms gen) (pick := w.pick gen) (n := n) hgen (s.nodup gen) hm with ⟨g', e', cc⟩ | ⟨e', _⟩
    · rw [e'] at e
      dsimp only at e
      obtain ⟨s', k0, kc⟩ := collect_sizes s e' cc.young
      obtain ⟨g'', e'', hk⟩ := C55_held (ms gen) (pick := w.pick gen) (n := n) hgen (s.nodup gen) hm e'
      cases e''
      refine ⟨_, _, (Option.some.inj e).symm, ⟨fun h => ?_, fun _ => ⟨cc, k0, rfl, fun _ => rfl⟩, kc, rfl, rfl, s', ⟨?_, ?_⟩, hk⟩⟩
      · rw [hd] at h; cases h
      · intro i v hi hv
        obtain ⟨j, hj, hv'⟩ := collect_tracked hgen cc hi hv
        exact hk v (hh.tracked j v hj hv')
      · intro i v a hi hc
        exact hk v (hh.cells i v a hi hc)
    · rw [e'] at e
      cases e
  · rw [if_neg hd] at e
    refine ⟨c, k, (Option.some.inj e).symm, ⟨fun _ => ⟨rfl, rfl⟩, fun h => absurd h hd, fun _ _ _ => rfl, rfl, rfl, s, hh, fun _ h => h⟩⟩

/-- Some turns. -/
inductive Chain (w : World) (ms : ∀ i, Memory (w.heap i)) (due : Coll → Nat → Bool) (c : Coll) : Nat → Coll → Nat → Prop
  | zero : Chain w ms due c 0 c 0
  | succ {k : Nat} {c1 c2 : Coll} {k1 k2 : Nat} : Chain w ms due c k c1 k1 → Turned w ms due k c1 c2 k1 k2 →
      Chain w ms due c (k + 1) c2 k2

theorem Chain.keeps {w : World} {ms : ∀ i, Memory (w.heap i)} {due : Coll → Nat → Bool} {c : Coll} {k : Nat} {c' : Coll} {t : Nat}
    (h : Chain w ms due c k c' t) (s : Sizes c.g) (hh : Held w c.g) :
    Sizes c'.g ∧ Held w c'.g ∧ c'.thres = c.thres ∧ c'.immut = c.immut := by
  induction h with
  | zero => exact ⟨s, hh, rfl, rfl⟩
  | succ _ t ih => exact ⟨t.sizes, t.held, t.thres.trans ih.2.2.1, t.immut.trans ih.2.2.2⟩

theorem turns_spec {w : World} (ms : ∀ i, Memory (w.heap i)) {due : Coll → Nat → Bool} {n : Nat} {c : Coll}
    (s : Sizes c.g) (hh : Held w c.g) : ∀ {k : Nat} {r : Res (Coll × Nat)}, k ≤ 3 → turns w due n k c = some r →
    ∃ c' t, r = .ok (c', t) ∧ Chain w ms due c k c' t := by
  intro k
  induction k with
  | zero =>
    intro r _ e
    exact ⟨c, 0, (Option.some.inj e).symm, .zero⟩
  | succ k ih =>
    intro r hk e
    unfold turns at e
    generalize hq : turns w due n k c = q at e
    cases q with
    | none => cases e
    | some q =>
      obtain ⟨c1, t1, rfl, ch⟩ := ih (by omega) hq
      obtain ⟨s1, hh1, _, _⟩ := ch.keeps s hh
      dsimp only at e
      obtain ⟨c2, t2, rfl, tt⟩ := turn_spec ms (by omega) s1 hh1 e
      exact ⟨c2, t2, rfl, .succ ch tt⟩

/-- The three turns. -/
theorem Chain.three {w : World} {ms : ∀ i, Memory (w.heap i)} {due : Coll → Nat → Bool} {c c3 : Coll} {t : Nat}
    (h : Chain w ms due c 3 c3 t) : ∃ c1 c2 k1 k2, Turned w ms due 0 c c1 0 k1 ∧ Turned w ms due 1 c1 c2 k1 k2 ∧
      Turned w ms due 2 c2 c3 k2 t := by
  cases h with
  | succ h t3 =>
    cases h with
    | succ h t2 =>
      cases h with
      | succ h t1 =>
        cases h with
        | zero => exact ⟨_, _, _, _, t1, t2, t3⟩

/-- What automatic collection leaves: the counter of each generation is 0 or less than the threshold. -/
theorem overdue_counts {w : World} {ms : ∀ i, Memory (w.heap i)} {c c3 : Coll} {t : Nat}
    (h : Chain w ms overdue c 3 c3 t) : ∀ i, i ≤ 2 → c3.g.counts i = 0 ∨ c3.g.counts i < c.thres i := by
  obtain ⟨c1, c2, k1, k2, t1, t2, t3⟩ := h.three
  have key : ∀ {gen : Nat} {a b : Coll} {k k' : Nat}, Turned w ms overdue gen a b k k' →
      b.g.counts gen = 0 ∨ b.g.counts gen < a.thres gen := by
    intro gen a b k k' t
    by_cases hd : overdue a gen = true
    · exact Or.inl (t.done hd).2.1
    · have hd' : overdue a gen = false := by simpa using hd
      rw [(t.skip hd').1]
      refine Or.inr ?_
      unfold overdue at hd
      simpa using hd
  intro i hi
  have h3 : i = 0 ∨ i = 1 ∨ i = 2 := by omega
  rcases h3 with rfl | rfl | rfl
  · rw [t3.counts 0 (by omega) (by omega), t2.counts 0 (by omega) (by omega)]
    exact key t1
  · rw [t3.counts 1 (by omega) (by omega), ← t1.thres]
    exact key t2
  · rw [← t1.thres, ← t2.thres]
    exact key t3

/-! ## Taking a variable -/

theorem mem_of_extract {p : Nat} {l : List Var} {v : Var} {rest : List Var} (h : extract p l = some (v, rest)) :
    v ∈ l ∧ (∀ u, u ∈ rest → u ∈ l) := by
  unfold extract at h
  split at h
  · cases h
  · rename_i x hx
    cases h
    exact ⟨List.mem_of_getElem? hx, fun u hu => List.mem_of_mem_eraseIdx hu⟩

theorem extract_rest {p : Nat} {l : List Var} {v : Var} {rest : List Var} (hn : l.Nodup) (h : extract p l = some (v, rest)) :
    rest.Nodup ∧ v ∉ rest := by
  unfold extract at h
  split at h
  · cases h
  · rename_i x hx
    cases h
    refine ⟨hn.sublist (List.eraseIdx_sublist _ _), ?_⟩
    intro hv
    rw [List.mem_eraseIdx_iff_getElem?] at hv
    obtain ⟨j, hj, e⟩ := hv
    have hl : j < l.length := (List.getElem?_eq_some_iff.mp e).1
    exact hj ((List.getElem?_inj hl hn).mp (e.trans hx.symm))

theorem takeVariable_cases (p : Nat) (a : Var) (c : Coll) :
    ((takeVariable p a c).1 ∈ c.g.pool ∧ (takeVariable p a c).2.init = c.init ∧ (takeVariable p a c).2.immut = c.immut) ∨
    ((takeVariable p a c).1 = a ∧ (takeVariable p a c).2.init a = false ∧ (takeVariable p a c).2.immut a = false) := by
  unfold takeVariable
  generalize hx : extract p c.g.pool = x
  cases x with
  | none => exact Or.inr ⟨rfl, if_pos rfl, if_pos rfl⟩
  | some x =>
    obtain ⟨v, rest⟩ := x
    exact Or.inl ⟨(mem_of_extract hx).1, rfl, rfl⟩

/-- The variable is no longer in the pool, and no other variable has come into it. -/
theorem takeVariable_pool {p : Nat} {a : Var} {c : Coll} (hn : c.g.pool.Nodup) (ha : a ∉ c.g.pool) :
    (takeVariable p a c).1 ∉ (takeVariable p a c).2.g.pool ∧ ∀ u, u ∈ (takeVariable p a c).2.g.pool → u ∈ c.g.pool := by
  unfold takeVariable
  generalize hx : extract p c.g.pool = x
  cases x with
  | none => exact ⟨ha, fun _ h => h⟩
  | some x =>
    obtain ⟨v, rest⟩ := x
    exact ⟨(extract_rest hn hx).2, (mem_of_extract hx).2⟩

theorem takeVariable_keeps (p : Nat) (a : Var) (c : Coll) :
    (takeVariable p a c).2.g.tracked = c.g.tracked ∧ (takeVariable p a c).2.g.counts = c.g.counts ∧
    (takeVariable p a c).2.thres = c.thres := by
  unfold takeVariable
  split <;> exact ⟨rfl, rfl, rfl⟩

theorem createVariable_spec {w : World} (ms : ∀ i, Memory (w.heap i)) {n p hint : Nat} {a : Var} {c : Coll}
    {r : Res (Var × Coll)} (s : Sizes c.g) (hh : Held w c.g) (e : createVariable w n p a hint c = some r) :
    ∃ c3 t, Chain w ms overdue c 3 c3 t ∧ r = .ok ((takeVariable p a c3).1, track hint (takeVariable p a c3).1 (takeVariable p a c3).2) := by
  unfold createVariable at e
  generalize hq : turns w overdue n 3 c = q at e
  cases q with
  | none => cases e
  | some q =>
    obtain ⟨c3, t, rfl, ch⟩ := turns_spec ms s hh (by omega) hq
    exact ⟨c3, t, ch, (Option.some.inj e).symm⟩

theorem track_sizes {hint : Nat} {v : Var} {c : Coll} (s : Sizes c.g) : Sizes (track hint v c).g := by
  unfold track
  refine ⟨?_, s.pool, ?_⟩
  · intro i
    dsimp only
    split
    · exact nodup_insertVar (s.nodup i)
    · exact s.nodup i
  · intro i hi
    dsimp only
    have := s.small i hi
    split
    · have := length_insertVar (v := v) (l := c.g.tracked i)
      omega
    · exact this

theorem take_sizes {p : Nat} {a : Var} {c : Coll} (s : Sizes c.g) : Sizes (takeVariable p a c).2.g := by
  obtain ⟨h1, h2, _⟩ := takeVariable_keeps p a c
  refine ⟨by rw [h1]; exact s.nodup, ?_, by rw [h1, h2]; exact s.small⟩
  unfold takeVariable
  split
  · rename_i hx
    exact (extract_rest s.pool hx).1
  · exact s.pool

theorem generation_cases (x : Int) :
    ((x < 0 ∨ 2 < x) ∧ generation x = .throw) ∨ (0 ≤ x ∧ x ≤ 2 ∧ generation x = .ok x.toNat ∧ x.toNat ≤ 2) := by
  unfold generation
  by_cases h : 0 ≤ x ∧ x ≤ 2
  · have e : max 0 (min x 2) = x := by omega
    rw [e]
    exact Or.inr ⟨h.1, h.2, by simp, by omega⟩
  · have e : max 0 (min x 2) ≠ x := by omega
    rw [if_pos e]
    exact Or.inl ⟨by omega, rfl⟩

theorem collectVariables_spec {w : World} (ms : ∀ i, Memory (w.heap i)) {n limit : Nat} {c : Coll} {r : Res (Coll × Nat)}
    (hl : limit ≤ 2) (s : Sizes c.g) (hh : Held w c.g) (e : collectVariables w n limit c = some r) :
    ∃ c1 t, Chain w ms (fun _ _ => true) c (limit + 1) c1 t ∧ r = .ok ({ c1 with g := { c1.g with pool := [] } }, t) := by
  unfold collectVariables at e
  generalize hq : turns w (fun _ _ => true) n (limit + 1) c = q at e
  cases q with
  | none => cases e
  | some q =>
    obtain ⟨c3, t, rfl, ch⟩ := turns_spec ms s hh (by omega) hq
    exact ⟨c3, t, ch, (Option.some.inj e).symm⟩

theorem stdCollect_spec {w : World} (ms : ∀ i, Memory (w.heap i)) {n : Nat} {x : Option Int} {c c' : Coll} {k : Nat}
    (s : Sizes c.g) (hh : Held w c.g) (e : stdCollect w n x c = some (.ok (c', k))) :
    ∃ limit c1, limit ≤ 2 ∧ Chain w ms (fun _ _ => true) c (limit + 1) c1 k ∧ c' = { c1 with g := { c1.g with pool := [] } } := by
  unfold stdCollect at e
  split at e
  · obtain ⟨c1, t, ch, h1⟩ := collectVariables_spec ms (by omega) s hh e
    cases h1
    exact ⟨2, c1, by omega, ch, rfl⟩
  · rename_i x
    rcases generation_cases x with ⟨_, h⟩ | ⟨_, _, h, h2⟩
    · rw [h] at e; cases e
    · rw [h] at e
      obtain ⟨c1, t, ch, h1⟩ := collectVariables_spec ms h2 s hh e
      cases h1
      exact ⟨_, c1, h2, ch, rfl⟩

theorem _root_.Asteria.Gc.Spec.Reached.sizes {c : Coll} (h : Reached c) : Sizes c.g := by
  induction h with
  | new => exact ⟨fun _ => List.nodup_nil, List.nodup_nil, fun _ _ => Nat.zero_le _⟩
  | create _ hm hh e ih =>
    obtain ⟨c3, t, ch, h1⟩ := createVariable_spec (fun i => (hm i).some) ih hh e
    cases h1
    exact track_sizes (take_sizes (ch.keeps ih hh).1)
  | collect _ hm hh e ih =>
    obtain ⟨l, c1, _, ch, rfl⟩ := stdCollect_spec (fun i => (hm i).some) ih hh e
    have := (ch.keeps ih hh).1
    exact ⟨this.nodup, List.nodup_nil, this.small⟩
  | @threshold c c' x t k _ e ih =>
    unfold stdSet at e
    rcases generation_cases x with ⟨_, h⟩ | ⟨_, _, h, h2⟩
    · rw [h] at e; cases e
    · rw [h] at e; cases e; exact ih
  | flags i m _ ih => exact ih
  | finalize _ ih => exact ⟨fun _ => List.nodup_nil, List.nodup_nil, fun _ _ => Nat.zero_le _⟩

/-! ## How many variables are tracked -/

/-- All tracked variables. -/
def allTracked (g : Gc) : List Var := g.tracked 0 ++ (g.tracked 1 ++ g.tracked 2)

theorem mem_allTracked {g : Gc} {v : Var} : v ∈ allTracked g ↔ ∃ i, i ≤ 2 ∧ v ∈ g.tracked i := by
  unfold allTracked
  simp only [List.mem_append]
  constructor
  · rintro (h | h | h)
    · exact ⟨0, by omega, h⟩
    · exact ⟨1, by omega, h⟩
    · exact ⟨2, by omega, h⟩
  · rintro ⟨i, hi, h⟩
    have h3 : i = 0 ∨ i = 1 ∨ i = 2 := by omega
    rcases h3 with rfl | rfl | rfl
    · exact Or.inl h
    · exact Or.inr (Or.inl h)
    · exact Or.inr (Or.inr h)

theorem held_one {g : Gc} {v : Var} (h : held g v = 1) :
    (v ∈ g.tracked 0 → v ∉ g.tracked 1 ∧ v ∉ g.tracked 2) ∧ (v ∈ g.tracked 1 → v ∉ g.tracked 2) ∧
    ((∃ i, i ≤ 2 ∧ v ∈ g.tracked i) → v ∉ g.pool) := by
  unfold held one at h
  refine ⟨?_, ?_, ?_⟩
  · intro h0
    rw [if_pos h0] at h
    constructor <;> intro h1 <;> rw [if_pos h1] at h <;> omega
  · intro h0 h1
    rw [if_pos h0, if_pos h1] at h
    omega
  · rintro ⟨i, hi, hv⟩ h1
    rw [if_pos h1] at h
    have h3 : i = 0 ∨ i = 1 ∨ i = 2 := by omega
    rcases h3 with rfl | rfl | rfl <;> rw [if_pos hv] at h <;> omega

theorem allTracked_nodup {w : World} {g : Gc} (s : Sizes g) (hh : Held w g) : (allTracked g).Nodup := by
  unfold allTracked
  rw [List.nodup_append, List.nodup_append]
  refine ⟨s.nodup 0, ⟨s.nodup 1, s.nodup 2, ?_⟩, ?_⟩
  · intro a ha b hb e
    subst e
    exact (held_one (hh.tracked 1 a (by omega) ha)).2.1 ha hb
  · intro a ha b hb e
    subst e
    have := (held_one (hh.tracked 0 a (by omega) ha)).1 ha
    rcases List.mem_append.mp hb with h | h
    · exact this.1 h
    · exact this.2 h

theorem collected_length {w : World} {gen : Nat} {m : Memory (w.heap gen)} {g g' : Gc} (hgen : gen ≤ 2)
    (c : Collected (w.heap gen) m gen g g') (s : Sizes g) (hh : Held w g) (s' : Sizes g') (hh' : Held w g')
    (hk : ∀ v, held g v = 1 → held g' v = 1) :
    (allTracked g).length = (allTracked g').length + g'.wiped.length := by
  rw [← List.length_append]
  apply List.Perm.length_eq
  have hw : ∀ v, v ∈ g'.wiped → v ∉ allTracked g' := by
    intro v hv hv'
    have h1 := (c.wiped v).mp hv
    have h2 := (c.pool v).mpr (Or.inr h1)
    exact (held_one (hk v (hh.tracked gen v hgen h1.1))).2.2 (mem_allTracked.mp hv') h2
  rw [List.perm_ext_iff_of_nodup (allTracked_nodup s hh)
    (List.nodup_append.mpr ⟨allTracked_nodup s' hh', c.nodup, fun a ha b hb e => hw b hb (e ▸ ha)⟩)]
  intro v
  rw [List.mem_append, mem_allTracked, mem_allTracked]
  constructor
  · rintro ⟨i, hi, hv⟩
    by_cases h1 : i = gen
    · subst h1
      by_cases hr : Reach (w.heap i) m (g.tracked i) v
      · by_cases h2 : i < 2
        · exact Or.inl ⟨i + 1, by omega, (c.next h2 v).mpr (Or.inr ⟨hv, hr⟩)⟩
        · exact Or.inl ⟨i, hi, (c.oldest (by omega) v).mpr ⟨hv, hr⟩⟩
      · exact Or.inr ((c.wiped v).mpr ⟨hv, hr⟩)
    · by_cases h2 : i = gen + 1
      · subst h2
        exact Or.inl ⟨gen + 1, hi, (c.next (by omega) v).mpr (Or.inl hv)⟩
      · exact Or.inl ⟨i, hi, by rw [c.other i hi h1 h2]; exact hv⟩
  · rintro (⟨i, hi, hv⟩ | hv)
    · exact collect_tracked hgen c hi hv
    · exact ⟨gen, hgen, ((c.wiped v).mp hv).1⟩

theorem Chain.length {w : World} {ms : ∀ i, Memory (w.heap i)} {due : Coll → Nat → Bool} {c : Coll} {k : Nat} {c' : Coll} {t : Nat}
    (h : Chain w ms due c k c' t) (hk : k ≤ 3) (s : Sizes c.g) (hh : Held w c.g) :
    (allTracked c.g).length = (allTracked c'.g).length + t := by
  induction h with
  | zero => rfl
  | @succ k c1 c2 k1 k2 ch tt ih =>
    have ih := ih (by omega)
    obtain ⟨s1, hh1, _, _⟩ := ch.keeps s hh
    by_cases hd : due c1 k = true
    · obtain ⟨cc, _, e, _⟩ := tt.done hd
      have := collected_length (w := w) (by omega) cc s1 hh1 tt.sizes tt.held tt.keep
      omega
    · obtain ⟨e1, e2⟩ := tt.skip (by simpa using hd)
      rw [e1, e2]
      exact ih

/-- Generations that have been collected are empty, except the oldest one. -/
theorem Chain.empty {w : World} {ms : ∀ i, Memory (w.heap i)} {due : Coll → Nat → Bool} {c : Coll} {k : Nat} {c' : Coll} {t : Nat}
    (h : Chain w ms due c k c' t) (hk : k ≤ 3) (hd : ∀ (c' : Coll), c'.thres = c.thres → ∀ i, i ≤ 2 → due c' i = true)
    (s : Sizes c.g) (hh : Held w c.g) : ∀ i, i < k → i < 2 → c'.g.tracked i = [] := by
  induction h with
  | zero => intro i hi; omega
  | @succ k c1 c2 k1 k2 ch tt ih =>
    intro i hi h2
    obtain ⟨_, _, et, _⟩ := ch.keeps s hh
    obtain ⟨cc, _, _, _⟩ := tt.done (hd c1 et k (by omega))
    by_cases hik : i = k
    · subst hik
      exact cc.young h2
    · rw [cc.other i (by omega) hik (by omega)]
      exact ih (by omega) i (by omega) h2

theorem Chain.of_turns {w : World} (ms : ∀ i, Memory (w.heap i)) {due : Coll → Nat → Bool} {n : Nat} {c : Coll}
    (s : Sizes c.g) (hh : Held w c.g) {k : Nat} {c' : Coll} {t : Nat} (hk : k ≤ 3) (e : turns w due n k c = some (.ok (c', t))) :
    Chain w ms due c k c' t := by
  obtain ⟨c1, t1, h1, ch⟩ := turns_spec ms s hh hk e
  cases h1
  exact ch

theorem reach_live {h : Heap} {m : Memory h} {ext : List Nat} {T : List Var} (hn : NoStray h m ext T) {v : Var}
    (hv : Reach h m T v) : Live h m ext v := by
  induction hv with
  | out ho => exact .out ho
  | cell hc hno =>
    rcases hn _ _ hc with ⟨u, hk, hi⟩ | ⟨u, hk, hi⟩ | ⟨x, hx, hi⟩
    · exact absurd hi (hno u hk)
    · exact .step hk ⟨_, hi, hc⟩
    · exact .cell hx hi hc
  | step _ _ hp ih => exact .step ih hp

theorem turns_succ {w : World} {due : Coll → Nat → Bool} {n k : Nat} {c c' : Coll} {t : Nat}
    (e : turns w due n (k + 1) c = some (.ok (c', t))) :
    ∃ c1 t1, turns w due n k c = some (.ok (c1, t1)) ∧ turn w due n k c1 t1 = some (.ok (c', t)) := by
  unfold turns at e
  split at e
  · rename_i c1 t1 h
    exact ⟨c1, t1, h, e⟩
  · rename_i hne
    exact absurd e (hne _ _)

/-- When every generation is collected, what is left is in the oldest generation and can be reached. -/
theorem turns_clean {w : World} (ms : ∀ i, Memory (w.heap i)) {due : Coll → Nat → Bool} {n : Nat} {c c' : Coll} {t : Nat}
    (hd : ∀ (c' : Coll), c'.thres = c.thres → ∀ i, i ≤ 2 → due c' i = true) (s : Sizes c.g) (hh : Held w c.g)
    (e : turns w due n 3 c = some (.ok (c', t))) :
    ∃ c2 k2, turns w due n 2 c = some (.ok (c2, k2)) ∧
      ∀ i v, i ≤ 2 → v ∈ c'.g.tracked i → Reach (w.heap 2) (ms 2) (c2.g.tracked 2) v := by
  have he := (Chain.of_turns ms s hh (by omega) e).empty (by omega) hd s hh
  obtain ⟨c1, k1, e1, e2⟩ := turns_succ e
  have ch := Chain.of_turns ms s hh (by omega) e1
  obtain ⟨s1, hh1, et, _⟩ := ch.keeps s hh
  refine ⟨c1, k1, e1, ?_⟩
  intro i v hi hv
  have h3 : i = 2 ∨ i < 2 := by omega
  rcases h3 with rfl | h3
  · obtain ⟨c3, k3, h1, tt⟩ := turn_spec ms (by omega) s1 hh1 e2
    cases h1
    obtain ⟨cc, _, _, _⟩ := tt.done (hd c1 et 2 (by omega))
    exact ((cc.oldest rfl v).mp hv).2
  · rw [he i (by omega) h3] at hv
    simp at hv

theorem createVariable_turns {w : World} (ms : ∀ i, Memory (w.heap i)) {n p hint : Nat} {a : Var} {c : Coll}
    {r : Res (Var × Coll)} (s : Sizes c.g) (hh : Held w c.g) (e : createVariable w n p a hint c = some r) :
    ∃ c3 t, turns w overdue n 3 c = some (.ok (c3, t)) ∧
      r = .ok ((takeVariable p a c3).1, track hint (takeVariable p a c3).1 (takeVariable p a c3).2) := by
  unfold createVariable at e
  generalize hq : turns w overdue n 3 c = q at e
  cases q with
  | none => cases e
  | some q =>
    obtain ⟨c3, t, rfl, ch⟩ := turns_spec ms s hh (by omega) hq
    exact ⟨c3, t, rfl, (Option.some.inj e).symm⟩

/-- Variables in the pool are not in use. -/
theorem turns_pool {w : World} (ms : ∀ i, Memory (w.heap i)) {ext : List Nat} {due : Coll → Nat → Bool} {n : Nat} {c : Coll}
    (s : Sizes c.g) (hh : Held w c.g)
    (hu : ∀ i ci k, i ≤ 2 → turns w due n i c = some (.ok (ci, k)) → Unshared (w.heap i) (ms i) ext (ci.g.tracked i))
    (hmono : ∀ i v, i ≤ 2 → Live (w.heap (i + 1)) (ms (i + 1)) ext v → Live (w.heap i) (ms i) ext v)
    (hp : ∀ v, v ∈ c.g.pool → ¬ Live (w.heap 0) (ms 0) ext v) :
    ∀ (k : Nat) (c' : Coll) (t : Nat), k ≤ 3 → turns w due n k c = some (.ok (c', t)) →
      ∀ v, v ∈ c'.g.pool → ¬ Live (w.heap k) (ms k) ext v := by
  intro k
  induction k with
  | zero =>
    intro c' t _ e v hv
    unfold turns at e
    cases e
    exact hp v hv
  | succ k ih =>
    intro c' t hk e v hv hl
    obtain ⟨c1, t1, e1, e2⟩ := turns_succ e
    obtain ⟨s1, hh1, _, _⟩ := (Chain.of_turns ms s hh (by omega) e1).keeps s hh
    obtain ⟨c3, k3, h1, tt⟩ := turn_spec ms (by omega) s1 hh1 e2
    cases h1
    have hl' := hmono k v (by omega) hl
    by_cases hd : due c1 k = true
    · obtain ⟨cc, _, _, _⟩ := tt.done hd
      rcases (cc.pool v).mp hv with h2 | ⟨_, h2⟩
      · exact ih c1 t1 (by omega) e1 v h2 hl'
      · exact h2 (Live.reach (hu k c1 t1 (by omega) e1) hl')
    · rw [(tt.skip (by simpa using hd)).1] at hv
      exact ih c1 t1 (by omega) e1 v hv hl'

/-- What is known of the flags of variables in the pool. -/
theorem turns_flags {w : World} (ms : ∀ i, Memory (w.heap i)) {due : Coll → Nat → Bool} {n : Nat} {c : Coll}
    (s : Sizes c.g) (hh : Held w c.g) (hp : ∀ v, v ∈ c.g.pool → c.init v = false) :
    ∀ (k : Nat) (c' : Coll) (t : Nat), k ≤ 3 → turns w due n k c = some (.ok (c', t)) →
      (∀ v, v ∈ c'.g.pool → c'.init v = false ∧ (v ∈ c.g.pool ∨ ∃ i, i ≤ 2 ∧ v ∈ c.g.tracked i)) ∧
      (∀ i v, i ≤ 2 → v ∈ c'.g.tracked i → ∃ j, j ≤ 2 ∧ v ∈ c.g.tracked j) := by
  intro k
  induction k with
  | zero =>
    intro c' t _ e
    unfold turns at e
    cases e
    exact ⟨fun v hv => ⟨hp v hv, Or.inl hv⟩, fun i v hi hv => ⟨i, hi, hv⟩⟩
  | succ k ih =>
    intro c' t hk e
    obtain ⟨c1, t1, e1, e2⟩ := turns_succ e
    obtain ⟨i1, i2⟩ := ih c1 t1 (by omega) e1
    obtain ⟨s1, hh1, _, _⟩ := (Chain.of_turns ms s hh (by omega) e1).keeps s hh
    obtain ⟨c3, k3, h1, tt⟩ := turn_spec ms (by omega) s1 hh1 e2
    cases h1
    by_cases hd : due c1 k = true
    · obtain ⟨cc, _, _, hi⟩ := tt.done hd
      refine ⟨?_, ?_⟩
      · intro v hv
        rw [hi v]
        rcases (cc.pool v).mp hv with h2 | h2
        · refine ⟨?_, (i1 v h2).2⟩
          split
          · rfl
          · exact (i1 v h2).1
        · refine ⟨if_pos ((cc.wiped v).mpr h2), Or.inr (i2 k v (by omega) h2.1)⟩
      · intro i v hi' hv
        obtain ⟨j, hj, hv'⟩ := collect_tracked (by omega) cc hi' hv
        exact i2 j v hj hv'
    · rw [(tt.skip (by simpa using hd)).1]
      exact ⟨i1, i2⟩

theorem held_zero {g : Gc} {v : Var} (h : held g v = 0) : (¬ ∃ i, i ≤ 2 ∧ v ∈ g.tracked i) ∧ v ∉ g.pool := by
  unfold held one at h
  refine ⟨?_, ?_⟩
  · rintro ⟨i, hi, hv⟩
    have h3 : i = 0 ∨ i = 1 ∨ i = 2 := by omega
    rcases h3 with rfl | rfl | rfl <;> rw [if_pos hv] at h <;> omega
  · intro hv
    rw [if_pos hv] at h
    omega

/-- Where the variables in the pool come from. -/
theorem turns_from {w : World} (ms : ∀ i, Memory (w.heap i)) {due : Coll → Nat → Bool} {n : Nat} {c : Coll}
    (s : Sizes c.g) (hh : Held w c.g) (k : Nat) (c' : Coll) (t : Nat) (hk : k ≤ 3)
    (e : turns w due n k c = some (.ok (c', t))) :
    ∀ v, v ∈ c'.g.pool → v ∈ c.g.pool ∨ ∃ i, i ≤ 2 ∧ v ∈ c.g.tracked i := by
  have key : ∀ (k : Nat) (c' : Coll) (t : Nat), k ≤ 3 → turns w due n k c = some (.ok (c', t)) →
      (∀ v, v ∈ c'.g.pool → v ∈ c.g.pool ∨ ∃ i, i ≤ 2 ∧ v ∈ c.g.tracked i) ∧
      (∀ i v, i ≤ 2 → v ∈ c'.g.tracked i → ∃ j, j ≤ 2 ∧ v ∈ c.g.tracked j) := by
    intro k
    induction k with
    | zero =>
      intro c' t _ e
      unfold turns at e
      cases e
      exact ⟨fun v hv => Or.inl hv, fun i v hi hv => ⟨i, hi, hv⟩⟩
    | succ k ih =>
      intro c' t hk e
      obtain ⟨c1, t1, e1, e2⟩ := turns_succ e
      obtain ⟨i1, i2⟩ := ih c1 t1 (by omega) e1
      obtain ⟨s1, hh1, _, _⟩ := (Chain.of_turns ms s hh (by omega) e1).keeps s hh
      obtain ⟨c3, k3, h1, tt⟩ := turn_spec ms (by omega) s1 hh1 e2
      cases h1
      by_cases hd : due c1 k = true
      · obtain ⟨cc, _, _, hi⟩ := tt.done hd
        refine ⟨?_, ?_⟩
        · intro v hv
          rcases (cc.pool v).mp hv with h2 | h2
          · exact i1 v h2
          · exact Or.inr (i2 k v (by omega) h2.1)
        · intro i v hi' hv
          obtain ⟨j, hj, hv'⟩ := collect_tracked (by omega) cc hi' hv
          exact i2 j v hj hv'
      · rw [(tt.skip (by simpa using hd)).1]
        exact ⟨i1, i2⟩
  exact (key k c' t hk e).1

end Asteria.Gc
