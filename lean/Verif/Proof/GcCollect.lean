import Verif.Proof.GcTerm

/-!
# Garbage collection: specification and one whole collection

The specification speaks of memory: which cells hold references to a variable, and how many references are elsewhere.
-/

namespace Asteria.Gc

namespace Spec

/-- Memory with correct reference counts: `cells v` are the cells of values that hold a reference to `v`; `out v` is the
number of other references to `v` (such as those on the stack). -/
structure Memory (h : Heap) where
  cells : Var → List Nat
  out : Var → Nat
  nodup : ∀ v, (cells v).Nodup
  mem : ∀ v a, a ∈ cells v ↔ h.cell a = .ptr v
  refs : ∀ v, h.refs v = (cells v).length + out v

/-- The variables that are looked at when the variables in `T` are collected. -/
abbrev Known (h : Heap) (T : List Var) : Var → Prop := Closure h (· ∈ T)

/-- What can be reached from outside of the known variables: from references outside of values, or from cells which are not
in the values of known variables. -/
inductive Reach (h : Heap) (m : Memory h) (T : List Var) : Var → Prop
  | out {v : Var} : 0 < m.out v → Reach h m T v
  | cell {v : Var} {a : Nat} : h.cell a = .ptr v → (∀ u, Known h T u → ¬ Inside h (h.root u) a) → Reach h m T v
  | step {u v : Var} : Known h T u → Reach h m T u → Points h u v → Reach h m T v

/-- What a program can still get at: it has references, and values (in `ext`, such as the arguments of a function call and the
function being called), and follows references in values. -/
inductive Live (h : Heap) (m : Memory h) (ext : List Nat) : Var → Prop
  | out {v : Var} : 0 < m.out v → Live h m ext v
  | cell {v : Var} {r a : Nat} : r ∈ ext → Inside h r a → h.cell a = .ptr v → Live h m ext v
  | step {u v : Var} : Live h m ext u → Points h u v → Live h m ext v

/-- References in values of known variables are in no value that the program holds, and in no live variable other than
a known one.  (Functions and containers are shared when they are copied, so this does not always hold.) -/
def Unshared (h : Heap) (m : Memory h) (ext : List Nat) (T : List Var) : Prop :=
  ∀ u a v, Known h T u → Inside h (h.root u) a → h.cell a = .ptr v →
    (∀ r ∈ ext, ¬ Inside h r a) ∧ (∀ w, Live h m ext w → Inside h (h.root w) a → Known h T w)

/-- Every known variable is held by exactly one of the maps of the collector. -/
def Managed (h : Heap) (g : Gc) (T : List Var) : Prop :=
  ∀ v, Known h T v → held g v = 1

end Spec

open Spec

theorem cnt_eq {h : Heap} (m : Memory h) {s : List (Nat × Option Var)} (hs : StagedOk h s) (v : Var) :
    cnt s v = ((m.cells v).filter (fun a => a ∈ keys s)).length := by
  unfold cnt
  rw [List.countP_eq_length_filter, ← List.length_map (f := Prod.fst)]
  apply List.Perm.length_eq
  rw [List.perm_ext_iff_of_nodup]
  · intro a
    simp only [List.mem_map, List.mem_filter, decide_eq_true_eq, m.mem]
    constructor
    · rintro ⟨e, ⟨he, h2⟩, rfl⟩
      refine ⟨?_, e, he, rfl⟩
      rw [hs.entry e he] at h2
      exact target_some.mp h2
    · rintro ⟨hc, e, he, rfl⟩
      refine ⟨e, ⟨he, ?_⟩, rfl⟩
      rw [hs.entry e he, hc]
      rfl
  · exact (List.Sublist.map _ List.filter_sublist).nodup hs.nodup
  · exact (m.nodup v).filter _

theorem length_filter_lt {α : Type} {l : List α} {p : α → Bool} : (l.filter p).length ≠ l.length ↔ ∃ a ∈ l, p a = false := by
  have := List.length_filter_lt_length_iff_exists (p := p) (l := l)
  have h2 := List.length_filter_le p l
  constructor
  · intro h
    obtain ⟨a, ha, hp⟩ := this.mp (by omega)
    exact ⟨a, ha, by simpa using hp⟩
  · rintro ⟨a, ha, hp⟩
    have := this.mpr ⟨a, ha, by simp [hp]⟩
    omega

theorem length_mergeInto_le {s d : List Var} : (mergeInto s d).length ≤ s.length + d.length := by
  unfold mergeInto
  induction s generalizing d with
  | nil => simp
  | cons a s ih =>
    have := ih (d := insertVar a d)
    have := length_insertVar_le (v := a) (l := d)
    simp only [List.foldl_cons, List.length_cons]
    omega

/-- Everything about one collection. -/
structure Collected (h : Heap) (m : Memory h) (gen : Nat) (g g' : Gc) : Prop where
  wiped : ∀ v, v ∈ g'.wiped ↔ v ∈ g.tracked gen ∧ ¬ Reach h m (g.tracked gen) v
  nodup : g'.wiped.Nodup
  young : gen < 2 → g'.tracked gen = []
  next : gen < 2 → ∀ v, v ∈ g'.tracked (gen + 1) ↔
    v ∈ g.tracked (gen + 1) ∨ (v ∈ g.tracked gen ∧ Reach h m (g.tracked gen) v)
  oldest : gen = 2 → ∀ v, v ∈ g'.tracked gen ↔ v ∈ g.tracked gen ∧ Reach h m (g.tracked gen) v
  other : ∀ j, j ≤ 2 → j ≠ gen → j ≠ gen + 1 → g'.tracked j = g.tracked j
  pool : ∀ v, v ∈ g'.pool ↔ v ∈ g.pool ∨ (v ∈ g.tracked gen ∧ ¬ Reach h m (g.tracked gen) v)

theorem collect_cases {h : Heap} (m : Memory h) {pick : Nat → Nat} {gen n : Nat} {g : Gc} (hgen : gen ≤ 2)
    (hn : (g.tracked gen).Nodup) (hm : Managed h g (g.tracked gen)) :
    (∃ g', collect h pick gen n g = some (.ok g') ∧ Collected h m gen g g') ∨
    (collect h pick gen n g = none ∧ ∀ L : List Nat, L.Nodup →
      (∀ u a, Known h (g.tracked gen) u → Inside h (h.root u) a → a ∈ L) → n < bound h (g.tracked gen) L) := by
  generalize hr : collect h pick gen n g = r
  unfold collect at hr
  generalize hT : g.tracked gen = T at *
  -- first loop
  generalize hga : ({ g with staged := [], temp1 := mergeInto T [], temp2 := [], unreach := [], wiped := [] } : Gc) = ga at hr
  have hTa : ga.tracked gen = T := by rw [← hga]; exact hT
  have ia : Inv1 h (ga.tracked gen) ga := by
    rw [hTa, ← hga]
    refine ⟨⟨by simp, by simp⟩, by simp [Closed], nodup_mergeInto (by simp), ?_, ?_, by simp⟩
    · rintro v (hv | ⟨a, ha, _⟩)
      · exact Or.inl (mem_mergeInto.mpr (Or.inl hv))
      · simp at ha
    · intro v hv
      rcases mem_mergeInto.mp hv with h' | h'
      · exact Or.inl h'
      · simp at h'
  cases h1 : phase1 h pick n ga with
  | none =>
    rw [h1] at hr; simp [thenDo] at hr
    refine Or.inr ⟨hr.symm, fun L hL hin => ?_⟩
    by_contra hlt
    unfold bound at hlt
    have e1 : ga.temp1 = mergeInto T [] := by rw [← hga]
    have e2 := length_mergeInto_le (s := T) (d := [])
    have e3 := todo_le (L := L) ga.staged
    rw [← e1] at e2
    simp only [List.length_nil] at e2
    refine phase1_some hL hin (by rwa [hTa] at ia) (by omega) h1
  | some r1 =>
  obtain ⟨g1, rfl, i1, t1, s1, e12, e1u⟩ := phase1_spec hgen h1 ia
  rw [h1] at hr
  simp only [thenDo] at hr
  rw [hTa] at i1
  have d1 := i1.done t1
  have hT1 : g1.tracked = g.tracked := by rw [s1.tracked, ← hga]
  have hP1 : g1.pool = g.pool := by rw [s1.pool, ← hga]
  have hH1 : ∀ v, held g1 v = held g v := by intro v; unfold held; rw [hT1, hP1]
  have hw1 : g1.wiped = [] := by rw [s1.wiped, ← hga]
  have h12 : g1.temp2 = [] := by rw [e12, ← hga]
  have h1u : g1.unreach = [] := by rw [e1u, ← hga]
  -- second loop
  have hkc : ∀ v, cnt g1.staged v = ((m.cells v).filter (fun a => a ∈ keys g1.staged)).length := cnt_eq m d1.ok
  have hkle : ∀ v, cnt g1.staged v ≤ h.refs v := by
    intro v
    rw [hkc, m.refs]
    have := List.length_filter_le (fun a => decide (a ∈ keys g1.staged)) (m.cells v)
    omega
  have hkpos : ∀ v, 0 < cnt g1.staged v ↔ ∃ a ∈ keys g1.staged, h.cell a = .ptr v := by
    intro v
    rw [hkc, List.length_pos_iff_exists_mem]
    constructor
    · rintro ⟨a, ha⟩
      rw [List.mem_filter, m.mem] at ha
      exact ⟨a, by simpa using ha.2, ha.1⟩
    · rintro ⟨a, ha, hc⟩
      exact ⟨a, by rw [List.mem_filter, m.mem]; exact ⟨hc, by simpa using ha⟩⟩
  have hkn : ∀ v, 0 < cnt g1.staged v → Known h T v := fun v hv => (d1.vars v).mpr (Or.inr ((hkpos v).mp hv))
  have i2 : Inv2 h (cnt g1.staged) ({ g1 with temp1 := [] } : Gc) := by
    refine ⟨by simp, ?_, fun v => Nat.le_refl _, fun v => by simp⟩
    intro v hv
    have := d1.refs v (hkn v hv)
    simp only
    omega
  cases h2 : phase2 h pick n { g1 with temp1 := [] } with
  | none =>
    rw [h2] at hr; simp at hr
    refine Or.inr ⟨hr.symm, fun L hL hin => ?_⟩
    by_contra hlt
    unfold bound at hlt
    refine phase2_some (h := h) ?_ h2
    have := (List.subperm_of_subset d1.ok.nodup (l₂ := L) (fun a ha => by
      obtain ⟨u, hu, hi⟩ := (d1.keys a).mp ha
      exact hin u a hu hi)).length_le
    rw [List.length_map] at this
    simp only
    omega
  | some r2 =>
  obtain ⟨g2, rfl, i2', t2, s2, e22, e2u, e2r⟩ := phase2_spec h2 i2 (by
    intro v hv
    have := hkle v
    have := hm v (hkn v hv)
    have e : held ({ g1 with temp1 := [] } : Gc) v = held g1 v := rfl
    rw [e, hH1]
    omega)
  rw [h2] at hr
  simp only at hr
  have hT2 : g2.tracked = g.tracked := by rw [s2.tracked]; exact hT1
  have hP2 : g2.pool = g.pool := by rw [s2.pool]; exact hP1
  have hH2 : ∀ v, held g2 v = held g v := by intro v; unfold held; rw [hT2, hP2]
  have hw2 : g2.wiped = [] := by rw [s2.wiped]; exact hw1
  have h22 : g2.temp2 = [] := by rw [e22]; exact h12
  have h2u : g2.unreach = [] := by rw [e2u]; exact h1u
  have href : ∀ v, Known h T v → g2.gcRef v = 1 + cnt g1.staged v := by
    intro v hv
    by_cases h0 : 0 < cnt g1.staged v
    · have := i2'.ref v h0
      rw [t2] at this
      simpa [cnt] using this
    · have e0 : cnt g1.staged v = 0 := by omega
      have := e2r v e0
      rw [this, e0]
      exact d1.refs v hv
  have hmem2 : ∀ v, v ∈ mergeInto (g2.tracked gen) g2.temp1 ↔ Known h T v := by
    intro v
    rw [mem_mergeInto, i2'.temp v, t2, hT2, hT, show Known h T v ↔ _ from d1.vars v, ← hkpos v]
    simp [cnt]
  -- third loop
  generalize hgc : ({ g2 with staged := [], temp1 := mergeInto (g2.tracked gen) g2.temp1 } : Gc) = gc at hr
  have i3 : Inv3 h (mergeInto (g2.tracked gen) g2.temp1) gc := by
    rw [← hgc]
    refine ⟨rfl, ?_, ?_, ?_⟩
    · simp only [h22, h2u, List.append_nil]
      exact nodup_mergeInto i2'.nodup
    · intro v; simp [h22, h2u]
    · intro v; simp [h22, h2u]
  cases h3 : phase3 h pick n gc with
  | none =>
    rw [h3] at hr; simp at hr
    refine Or.inr ⟨hr.symm, fun L hL hin => ?_⟩
    by_contra hlt
    unfold bound at hlt
    refine phase3_some (h := h) ?_ h3
    have e : gc.temp1 = mergeInto (g2.tracked gen) g2.temp1 := by rw [← hgc]
    rw [e]
    have := length_le_of_known hin (nodup_mergeInto i2'.nodup) (fun v hv => (hmem2 v).mp hv)
    omega
  | some r3 =>
  obtain ⟨g3, rfl, i3', t3, s3, e3⟩ := phase3_spec h3 i3
  rw [h3] at hr
  simp only at hr
  have hT3 : g3.tracked = g.tracked := by rw [s3.tracked, ← hgc]; exact hT2
  have hP3 : g3.pool = g.pool := by rw [s3.pool, ← hgc]; exact hP2
  have hH3 : ∀ v, held g3 v = held g v := by intro v; unfold held; rw [hT3, hP3]
  have hw3 : g3.wiped = [] := by rw [s3.wiped, ← hgc]; exact hw2
  have hr3 : ∀ v, Known h T v → g3.gcRef v = 1 + cnt g1.staged v := by
    intro v hv; rw [e3, ← hgc]; exact href v hv
  have hall : ∀ v, Known h T v ↔ v ∈ g3.temp2 ∨ v ∈ g3.unreach := by
    intro v
    rw [← hmem2 v, i3'.all v, t3]
    simp
  have hM : ∀ v, v ∈ g3.temp2 ↔ Known h T v ∧ cnt g1.staged v ≠ h.refs v := by
    intro v
    constructor
    · intro hv
      have hk := (hall v).mpr (Or.inl hv)
      have := (i3'.cls v).2 hv
      rw [hr3 v hk, hH3, hm v hk] at this
      exact ⟨hk, by omega⟩
    · rintro ⟨hk, hne⟩
      rcases (hall v).mp hk with h' | h'
      · exact h'
      · have := (i3'.cls v).1 h'
        rw [hr3 v hk, hH3, hm v hk] at this
        omega
  have hsub : ∀ v, Closure h (· ∈ g3.temp2) v → Known h T v := by
    intro v hv
    induction hv with
    | base hv => exact ((hM _).mp hv).1
    | step _ p ih => exact .step ih p
  have hreach : ∀ v, Known h T v → (Reach h m T v ↔ Closure h (· ∈ g3.temp2) v) := by
    have base : ∀ v, Known h T v → (0 < m.out v ∨ ∃ a, h.cell a = .ptr v ∧ ∀ u, Known h T u → ¬ Inside h (h.root u) a) →
        v ∈ g3.temp2 := by
      rintro v hk hb
      rw [hM]
      refine ⟨hk, ?_⟩
      rw [m.refs, hkc]
      have := List.length_filter_le (fun a => decide (a ∈ keys g1.staged)) (m.cells v)
      rcases hb with hb | ⟨a, ha, hb⟩
      · omega
      · have := (length_filter_lt (l := m.cells v) (p := fun a => decide (a ∈ keys g1.staged))).mpr
          ⟨a, (m.mem v a).mpr ha, by
            rw [decide_eq_false_iff_not, d1.keys]
            rintro ⟨u, hu, hi⟩
            exact hb u hu hi⟩
        omega
    intro v hk
    constructor
    · intro hv
      induction hv with
      | out ho => exact .base (base _ hk (Or.inl ho))
      | cell hc hb => exact .base (base _ hk (Or.inr ⟨_, hc, hb⟩))
      | step hu _ hp ih => exact .step (ih hu) hp
    · intro hv
      induction hv with
      | @base w hv =>
        have := ((hM w).mp hv).2
        rw [m.refs, hkc] at this
        by_cases ho : 0 < m.out w
        · exact .out ho
        · obtain ⟨a, ha, hb⟩ := (length_filter_lt (l := m.cells w) (p := fun a => decide (a ∈ keys g1.staged))).mp (by omega)
          refine .cell ((m.mem _ a).mp ha) ?_
          intro u hu hi
          rw [decide_eq_false_iff_not, d1.keys] at hb
          exact hb ⟨u, hu, hi⟩
      | step hc hp ih => exact .step (hsub _ hc) (ih (hsub _ hc)) hp
  -- fourth loop
  generalize hgd : ({ g3 with temp1 := [] } : Gc) = gd at hr
  have hnd3 := i3'.nodup
  rw [t3] at hnd3
  simp only [List.nil_append] at hnd3
  rw [List.nodup_append] at hnd3
  have i4 : Inv4 h gen g3.temp2 g3.unreach gd gd := by
    have hst : gd.staged = [] := by rw [← hgd]; exact i3'.staged
    have hu4 : gd.unreach = g3.unreach := by rw [← hgd]
    have ht4 : gd.temp2 = g3.temp2 := by rw [← hgd]
    have htr : gd.tracked = g.tracked := by rw [← hgd]; exact hT3
    refine
      { ok := by rw [hst]; exact ⟨by simp, by simp⟩
        closed := by rw [hst]; simp [Closed]
        nodup := by rw [hu4]; exact hnd3.2.1
        todo := ?_
        sub := fun v hv => Or.inl (by rw [ht4] at hv; exact hv)
        clo := by rw [hst]; simp
        un := fun v hv => by rw [hu4] at hv; exact hv
        un' := fun v hv hn => by rw [hu4] at hn; exact absurd hv hn
        refs := fun _ _ => rfl
        trk := fun _ _ => Iff.rfl
        trk' := fun _ h => h
        tnd := by rw [htr, hT]; exact hn
        oth := fun _ _ _ => rfl
        nxt := fun v => by tauto
        old := fun _ => rfl
        prom := ?_
        pool := rfl
        wiped := rfl }
    · rintro v (hv | ⟨a, ha, _⟩)
      · rw [ht4]; exact Or.inl hv
      · rw [hst] at ha; simp at ha
    · rintro _ v (hv | ⟨a, ha, _⟩)
      · rw [ht4]; exact Or.inl hv
      · rw [hst] at ha; simp at ha
  cases h4 : phase4 h pick gen n gd with
  | none =>
    rw [h4] at hr; simp at hr
    refine Or.inr ⟨hr.symm, fun L hL hin => ?_⟩
    by_contra hlt
    unfold bound at hlt
    have e1 : gd.temp2 = g3.temp2 := by rw [← hgd]
    have e2 : gd.staged = [] := by rw [← hgd]; exact i3'.staged
    have := length_le_of_known hin hnd3.1 (fun v hv => (hall v).mpr (Or.inl hv))
    have e3 := todo_le (L := L) gd.staged
    refine phase4_some hL (K := Known h T) hin (fun u v hu hp => .step hu hp) ?_ ?_ ?_ ?_ ?_ h4
    · rw [e2]; exact ⟨by simp, by simp⟩
    · rw [e2]; simp [Closed]
    · rw [e1]; exact fun v hv => (hall v).mpr (Or.inl hv)
    · rw [e2]; simp
    · rw [e1]; omega
  | some r4 =>
  obtain ⟨g4, rfl, i4', t4⟩ := phase4_spec h4 i4
  rw [h4] at hr
  simp only at hr
  obtain ⟨d4, p4⟩ := i4'.done t4
  have hTd : gd.tracked = g.tracked := by rw [← hgd]; exact hT3
  have hwd : gd.wiped = [] := by rw [← hgd]; exact hw3
  have hPd : gd.pool = g.pool := by rw [← hgd]; exact hP3
  have htk : ∀ v, v ∈ T → Known h T v := fun v hv => .base hv
  have hg4 : ∀ v, v ∈ g4.unreach ∧ v ∈ g4.tracked gen ↔ v ∈ T ∧ ¬ Reach h m T v := by
    intro v
    constructor
    · rintro ⟨hv, ht⟩
      have ht' := i4'.trk' v ht
      rw [hTd, hT] at ht'
      exact ⟨ht', fun hre => ((d4 v).mp hv).2 ((hreach v (htk v ht')).mp hre)⟩
    · rintro ⟨ht, hre⟩
      have hnc : ¬ Closure h (· ∈ g3.temp2) v := fun hc => hre ((hreach v (htk v ht)).mpr hc)
      refine ⟨(d4 v).mpr ⟨?_, hnc⟩, (i4'.trk v hnc).mpr (by rw [hTd, hT]; exact ht)⟩
      rcases (hall v).mp (htk v ht) with h' | h'
      · exact absurd (.base h') hnc
      · exact h'
  -- last loop
  generalize hge : ({ g4 with temp2 := [] } : Gc) = ge at hr
  have eu : ge.unreach = g4.unreach := by rw [← hge]
  have et : ge.tracked = g4.tracked := by rw [← hge]
  have ew : ge.wiped = [] := by rw [← hge]; exact i4'.wiped.trans hwd
  have ep : ge.pool = g.pool := by rw [← hge]; exact i4'.pool.trans hPd
  cases h5 : phase5 pick gen n ge with
  | none =>
    rw [h5] at hr; simp at hr
    refine Or.inr ⟨hr.symm, fun L hL hin => ?_⟩
    by_contra hlt
    unfold bound at hlt
    refine phase5_some ?_ h5
    rw [eu]
    have := length_le_of_known hin i4'.nodup (fun v hv => (hall v).mpr (Or.inr ((d4 v).mp hv).1))
    omega
  | some r5 =>
  obtain ⟨g5, rfl, a1, a2, a3, a4, a5, a6, a7⟩ := phase5_spec h5 (by rw [eu]; exact i4'.nodup)
    (by rw [et]; exact i4'.tnd) (by
      intro v hv _
      rw [eu, d4] at hv
      have e1 : ge.gcRef v = g4.gcRef v := by rw [← hge]
      have e2 : gd.gcRef v = g3.gcRef v := by rw [← hgd]
      rw [e1, i4'.refs v hv.2, e2, hr3 v ((hall v).mpr (Or.inr hv.1))]
      omega)
  rw [h5] at hr
  simp only at hr
  refine Or.inl ⟨_, hr.symm, ?_⟩
  rw [et] at a1 a2 a4
  rw [eu] at a1 a2 a4
  rw [ew] at a1
  rw [ep] at a4
  rw [← hT] at *
  have trkT : ∀ v, v ∈ g4.tracked gen → v ∈ g.tracked gen := fun v hv => by
    have := i4'.trk' v hv; rwa [hTd] at this
  refine ⟨?_, a5 (by rw [ew]; simp) (by rw [ew]; simp), ?_, ?_, ?_, ?_, ?_⟩
  · intro v
    show v ∈ g5.wiped ↔ _
    rw [a1, hg4]
    simp
  · intro h2
    show g5.tracked gen = []
    rw [List.eq_nil_iff_forall_not_mem]
    intro v hv
    rw [a2] at hv
    have ht := trkT v hv.1
    have : v ∈ g4.unreach := by
      have hnc : ¬ Closure h (· ∈ g3.temp2) v := fun hc => p4 h2 v hc hv.1
      exact (hg4 v).mpr ⟨ht, fun hre => hnc ((hreach v (htk v ht)).mp hre)⟩ |>.1
    exact hv.2 this
  · intro h2 v
    show v ∈ g5.tracked (gen + 1) ↔ _
    rw [a3 _ (by omega), et, i4'.nxt v, hTd]
    constructor
    · rintro (h' | ⟨h', h''⟩)
      · exact Or.inl h'
      · refine Or.inr ⟨h', ?_⟩
        by_contra hre
        exact h'' ((hg4 v).mpr ⟨h', hre⟩).2
    · rintro (h' | ⟨h', hre⟩)
      · exact Or.inl h'
      · exact Or.inr ⟨h', p4 h2 v ((hreach v (htk v h')).mp hre)⟩
  · intro h2 v
    show v ∈ g5.tracked gen ↔ _
    rw [a2]
    have e := i4'.old h2
    rw [hTd] at e
    rw [e]
    constructor
    · rintro ⟨h', h''⟩
      refine ⟨h', ?_⟩
      by_contra hre
      exact h'' ((hg4 v).mpr ⟨h', hre⟩).1
    · rintro ⟨h', hre⟩
      exact ⟨h', fun hu => ((hg4 v).mp ⟨hu, by rw [e]; exact h'⟩).2 hre⟩
  · intro j _ h1 h2
    show g5.tracked j = _
    rw [a3 j h1, et, i4'.oth j h1 h2, hTd]
  · intro v
    show v ∈ g5.pool ↔ _
    rw [a4, hg4]

end Asteria.Gc
