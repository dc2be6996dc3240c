import Verif.Model.Gc
import Mathlib.Data.List.Perm.Basic
import Mathlib.Data.List.Nodup
import Mathlib.Tactic.Tauto

/-! # Lemmas about the collector -/

namespace Asteria.Gc

namespace Spec

/-- Cell `c` is a part of the value in cell `a`. -/
inductive Inside (h : Heap) : Nat → Nat → Prop
  | refl (a : Nat) : Inside h a a
  | kid {a b c : Nat} {kids : List Nat} : h.cell a = .value kids → b ∈ kids → Inside h b c → Inside h a c

/-- The value of variable `u` contains a reference to variable `v`. -/
def Points (h : Heap) (u v : Var) : Prop := ∃ a, Inside h (h.root u) a ∧ h.cell a = .ptr v

/-- What can be reached from the variables in `S` through the values of variables. -/
inductive Closure (h : Heap) (S : Var → Prop) : Var → Prop
  | base {v : Var} : S v → Closure h S v
  | step {u v : Var} : Closure h S u → Points h u v → Closure h S v

end Spec

open Spec

theorem Closure.sub {h : Heap} {S S' : Var → Prop} (hs : ∀ v, S v → Closure h S' v) : ∀ v, Closure h S v → Closure h S' v := by
  intro v hv
  induction hv with
  | base h => exact hs _ h
  | step _ p ih => exact .step ih p

theorem mem_insertVar {u v : Var} {l : List Var} : u ∈ insertVar v l ↔ u = v ∨ u ∈ l := by
  unfold insertVar
  split
  · constructor
    · exact Or.inr
    · rintro (rfl | h) <;> assumption
  · simp; tauto

theorem nodup_insertVar {v : Var} {l : List Var} (h : l.Nodup) : (insertVar v l).Nodup := by
  unfold insertVar
  split
  · exact h
  · rw [List.nodup_append]
    refine ⟨h, by simp, ?_⟩
    intro a ha b hb
    simp at hb
    subst hb
    rintro rfl
    contradiction

theorem mem_mergeInto {v : Var} {s d : List Var} : v ∈ mergeInto s d ↔ v ∈ s ∨ v ∈ d := by
  unfold mergeInto
  induction s generalizing d with
  | nil => simp
  | cons a s ih => simp only [List.foldl_cons, ih, mem_insertVar, List.mem_cons]; tauto

theorem nodup_mergeInto {s d : List Var} (h : d.Nodup) : (mergeInto s d).Nodup := by
  unfold mergeInto
  induction s generalizing d with
  | nil => exact h
  | cons a s ih => exact ih (nodup_insertVar h)

theorem extract_none {α : Type} {i : Nat} {l : List α} (h : extract i l = none) : l = [] := by
  cases l with
  | nil => rfl
  | cons a l =>
    exfalso
    have : i % (a :: l).length < (a :: l).length := Nat.mod_lt _ (by simp)
    unfold extract at h
    rw [List.getElem?_eq_getElem this] at h
    simp at h

theorem extract_some {α : Type} {i : Nat} {l l' : List α} {x : α} (h : extract i l = some (x, l')) : l.Perm (x :: l') := by
  unfold extract at h
  generalize i % l.length = j at h
  cases hx : l[j]? with
  | none => rw [hx] at h; simp at h
  | some y =>
    rw [hx] at h
    simp at h
    obtain ⟨rfl, rfl⟩ := h
    obtain ⟨hj, rfl⟩ := List.getElem?_eq_some_iff.mp hx
    exact (List.getElem_cons_eraseIdx_perm hj).symm

/-- What the maps of the collector say of a cell. -/
def target : Cell → Option Var
  | .ptr v => some v
  | .value _ => none

theorem target_some {c : Cell} {v : Var} : target c = some v ↔ c = .ptr v := by
  cases c <;> simp [target]

abbrev keys (s : List (Nat × Option Var)) : List Nat := s.map Prod.fst

structure StagedOk (h : Heap) (s : List (Nat × Option Var)) : Prop where
  nodup : (keys s).Nodup
  entry : ∀ e ∈ s, e.2 = target (h.cell e.1)

def Closed (h : Heap) (s : List (Nat × Option Var)) (work : List Nat) : Prop :=
  ∀ a ∈ keys s, ∀ kids, h.cell a = .value kids → ∀ b ∈ kids, b ∈ keys s ∨ b ∈ work

theorem StagedOk.snoc {h : Heap} {s : List (Nat × Option Var)} {a : Nat} {o : Option Var} (hs : StagedOk h s)
    (ha : a ∉ keys s) (ho : o = target (h.cell a)) : StagedOk h (s ++ [(a, o)]) := by
  refine ⟨?_, ?_⟩
  · simp only [keys, List.map_append, List.map_cons, List.map_nil, List.nodup_append]
    refine ⟨hs.nodup, by simp, ?_⟩
    intro x hx y hy
    simp at hy
    subst hy
    rintro rfl
    exact ha hx
  · intro e he
    rw [List.mem_append] at he
    rcases he with he | he
    · exact hs.entry e he
    · simp at he; subst he; exact ho

structure Visited (h : Heap) (work : List Nat) (s : List (Nat × Option Var)) (t : List Var)
    (s' : List (Nat × Option Var)) (t' : List Var) : Prop where
  ok : StagedOk h s'
  closed : Closed h s' []
  keep : ∀ a ∈ keys s, a ∈ keys s'
  done : ∀ a ∈ work, a ∈ keys s'
  only : ∀ a ∈ keys s', a ∈ keys s ∨ ∃ w ∈ work, Inside h w a
  nodup : t.Nodup → t'.Nodup
  keepT : ∀ v ∈ t, v ∈ t'
  newT : ∀ a ∈ keys s', a ∉ keys s → ∀ v, h.cell a = .ptr v → v ∈ t'
  onlyT : ∀ v ∈ t', v ∈ t ∨ ∃ a ∈ keys s', h.cell a = .ptr v

theorem mem_keys_snoc {s : List (Nat × Option Var)} {a b : Nat} {o : Option Var} :
    b ∈ keys (s ++ [(a, o)]) ↔ b ∈ keys s ∨ b = a := by
  simp [keys]

theorem visit_spec {h : Heap} {n : Nat} {work : List Nat} {s s' : List (Nat × Option Var)} {t t' : List Var}
    (hv : visit h n work s t = some (s', t')) (hs : StagedOk h s) (hc : Closed h s work) : Visited h work s t s' t' := by
  induction n generalizing work s t with
  | zero => simp [visit] at hv
  | succ n ih =>
    cases work with
    | nil =>
      simp only [visit, Option.some.injEq, Prod.mk.injEq] at hv
      obtain ⟨rfl, rfl⟩ := hv
      exact ⟨hs, hc, fun _ h => h, by simp, fun _ h => Or.inl h, fun h => h, fun _ h => h, fun _ h h' => absurd h h',
        fun _ h => Or.inl h⟩
    | cons a work =>
      simp only [visit] at hv
      split at hv
      · rename_i ha
        have v := ih hv hs (by
          intro x hx kids hk b hb
          rcases hc x hx kids hk b hb with h' | h'
          · exact Or.inl h'
          · rcases List.mem_cons.mp h' with rfl | h'
            · exact Or.inl ha
            · exact Or.inr h')
        refine ⟨v.ok, v.closed, v.keep, ?_, ?_, v.nodup, v.keepT, v.newT, v.onlyT⟩
        · intro x hx
          rcases List.mem_cons.mp hx with rfl | hx
          · exact v.keep _ ha
          · exact v.done _ hx
        · intro x hx
          rcases v.only x hx with h' | ⟨w, hw, hi⟩
          · exact Or.inl h'
          · exact Or.inr ⟨w, List.mem_cons_of_mem _ hw, hi⟩
      · rename_i ha
        cases hcell : h.cell a with
        | value kids =>
          rw [hcell] at hv
          simp only at hv
          have v := ih hv (hs.snoc ha (by rw [hcell]; rfl)) (by
            intro x hx ks hk b hb
            rw [mem_keys_snoc] at hx ⊢
            rcases hx with hx | rfl
            · rcases hc x hx ks hk b hb with h' | h'
              · exact Or.inl (Or.inl h')
              · rcases List.mem_cons.mp h' with rfl | h'
                · exact Or.inl (Or.inr rfl)
                · exact Or.inr (List.mem_append_right _ h')
            · rw [hcell] at hk
              cases hk
              exact Or.inr (List.mem_append_left _ hb))
          refine ⟨v.ok, v.closed, fun x hx => v.keep x (mem_keys_snoc.mpr (Or.inl hx)), ?_, ?_, v.nodup, v.keepT, ?_, v.onlyT⟩
          · intro x hx
            rcases List.mem_cons.mp hx with rfl | hx
            · exact v.keep _ (mem_keys_snoc.mpr (Or.inr rfl))
            · exact v.done _ (List.mem_append_right _ hx)
          · intro x hx
            rcases v.only x hx with h' | ⟨w, hw, hi⟩
            · rcases mem_keys_snoc.mp h' with h' | rfl
              · exact Or.inl h'
              · exact Or.inr ⟨x, by simp, .refl _⟩
            · rcases List.mem_append.mp hw with hw | hw
              · exact Or.inr ⟨a, by simp, .kid hcell hw hi⟩
              · exact Or.inr ⟨w, List.mem_cons_of_mem _ hw, hi⟩
          · intro x hx hn u hu
            by_cases e : x = a
            · subst e; rw [hcell] at hu; cases hu
            · exact v.newT x hx (by rw [mem_keys_snoc]; tauto) u hu
        | ptr u =>
          rw [hcell] at hv
          simp only at hv
          have v := ih hv (hs.snoc ha (by rw [hcell]; rfl)) (by
            intro x hx ks hk b hb
            rw [mem_keys_snoc] at hx ⊢
            rcases hx with hx | rfl
            · rcases hc x hx ks hk b hb with h' | h'
              · exact Or.inl (Or.inl h')
              · rcases List.mem_cons.mp h' with rfl | h'
                · exact Or.inl (Or.inr rfl)
                · exact Or.inr h'
            · rw [hcell] at hk; cases hk)
          refine ⟨v.ok, v.closed, fun x hx => v.keep x (mem_keys_snoc.mpr (Or.inl hx)), ?_, ?_,
            fun h => v.nodup (nodup_insertVar h), fun w hw => v.keepT w (mem_insertVar.mpr (Or.inr hw)), ?_, ?_⟩
          · intro x hx
            rcases List.mem_cons.mp hx with rfl | hx
            · exact v.keep _ (mem_keys_snoc.mpr (Or.inr rfl))
            · exact v.done _ hx
          · intro x hx
            rcases v.only x hx with h' | ⟨w, hw, hi⟩
            · rcases mem_keys_snoc.mp h' with h' | rfl
              · exact Or.inl h'
              · exact Or.inr ⟨x, by simp, .refl _⟩
            · exact Or.inr ⟨w, List.mem_cons_of_mem _ hw, hi⟩
          · intro x hx hn w hw
            by_cases e : x = a
            · subst e
              rw [hcell] at hw
              cases hw
              exact v.keepT _ (mem_insertVar.mpr (Or.inl rfl))
            · exact v.newT x hx (by rw [mem_keys_snoc]; tauto) w hw
          · intro w hw
            rcases v.onlyT w hw with h' | h'
            · rcases mem_insertVar.mp h' with rfl | h'
              · exact Or.inr ⟨a, v.keep _ (mem_keys_snoc.mpr (Or.inr rfl)), hcell⟩
              · exact Or.inl h'
            · exact Or.inr h'

/-- A closed set that holds a cell holds its parts. -/
theorem Closed.inside {h : Heap} {s : List (Nat × Option Var)} (hc : Closed h s []) {a b : Nat} (hi : Inside h a b)
    (ha : a ∈ keys s) : b ∈ keys s := by
  induction hi with
  | refl _ => exact ha
  | kid hcell hb _ ih =>
    rcases hc _ ha _ hcell _ hb with h' | h'
    · exact ih h'
    · simp at h'

theorem one_le {p : Prop} [Decidable p] (hp : p) : one p = 1 := by simp [one, hp]

theorem one_zero {p : Prop} [Decidable p] (hp : ¬ p) : one p = 0 := by simp [one, hp]

theorem one_le_held {g : Gc} {gen : Nat} (hg : gen ≤ 2) {v : Var} (hv : v ∈ g.tracked gen) : 1 ≤ held g v := by
  unfold held
  have : gen = 0 ∨ gen = 1 ∨ gen = 2 := by omega
  rcases this with rfl | rfl | rfl
  · rw [one_le hv]; omega
  · have := one_le hv; omega
  · have := one_le hv; omega

theorem count_pos {h : Heap} {s : List (Nat × Option Var)} (hs : StagedOk h s) {a : Nat} (ha : a ∈ keys s) {v : Var}
    (hv : h.cell a = .ptr v) : 1 ≤ s.countP (fun e => e.2 = some v) := by
  obtain ⟨e, he, rfl⟩ := List.mem_map.mp ha
  have := hs.entry e he
  rw [hv] at this
  exact List.countP_pos_iff.mpr ⟨e, he, by simp [this, target]⟩

/-! ## The first loop -/

structure Inv1 (h : Heap) (T : List Var) (g : Gc) : Prop where
  ok : StagedOk h g.staged
  closed : Closed h g.staged []
  nodup : g.temp1.Nodup
  todo : ∀ v, (v ∈ T ∨ ∃ a ∈ keys g.staged, h.cell a = .ptr v) →
    v ∈ g.temp1 ∨ (h.root v ∈ keys g.staged ∧ g.gcRef v = 1)
  sub : ∀ v ∈ g.temp1, v ∈ T ∨ ∃ a ∈ keys g.staged, h.cell a = .ptr v
  clo : ∀ a ∈ keys g.staged, ∃ u, Closure h (· ∈ T) u ∧ Inside h (h.root u) a

/-- The parts that do not change in the first three loops. -/
structure Same (g g' : Gc) : Prop where
  tracked : g'.tracked = g.tracked
  pool : g'.pool = g.pool
  counts : g'.counts = g.counts
  wiped : g'.wiped = g.wiped

theorem Same.rfl' {g : Gc} : Same g g := ⟨rfl, rfl, rfl, rfl⟩

theorem Same.trans {a b c : Gc} (h1 : Same a b) (h2 : Same b c) : Same a c :=
  ⟨h2.1.trans h1.1, h2.2.trans h1.2, h2.3.trans h1.3, h2.4.trans h1.4⟩

theorem Same.held {g g' : Gc} (hs : Same g g') (v : Var) : held g' v = held g v := by
  unfold Gc.held
  rw [hs.tracked, hs.pool]

theorem Inv1.mem_clo {h : Heap} {T : List Var} {g : Gc} (i : Inv1 h T g) {v : Var}
    (hv : v ∈ T ∨ ∃ a ∈ keys g.staged, h.cell a = .ptr v) : Closure h (· ∈ T) v := by
  rcases hv with hv | ⟨a, ha, hp⟩
  · exact .base hv
  · obtain ⟨u, hu, hi⟩ := i.clo a ha
    exact .step hu ⟨a, hi, hp⟩

theorem phase1_spec {h : Heap} {pick : Nat → Nat} {gen n : Nat} (hgen : gen ≤ 2) {g : Gc} {r : Res Gc}
    (hr : phase1 h pick n g = some r) (i : Inv1 h (g.tracked gen) g) :
    ∃ g', r = .ok g' ∧ Inv1 h (g.tracked gen) g' ∧ g'.temp1 = [] ∧ Same g g' ∧ g'.temp2 = g.temp2 ∧
      g'.unreach = g.unreach := by
  induction n generalizing g with
  | zero => simp [phase1] at hr
  | succ n ih =>
    simp only [phase1] at hr
    cases he : extract (pick n) g.temp1 with
    | none =>
      rw [he] at hr
      simp at hr
      subst hr
      exact ⟨g, rfl, i, extract_none he, .rfl', rfl, rfl⟩
    | some p =>
      obtain ⟨v, rest⟩ := p
      rw [he] at hr
      simp only at hr
      have hperm := extract_some he
      have hvmem : v ∈ g.temp1 := hperm.mem_iff.mpr (by simp)
      have hnd : (v :: rest).Nodup := hperm.nodup_iff.mp i.nodup
      have hsub := i.sub v hvmem
      have huse : (setRef { g with temp1 := rest } v 1).gcRef v ≤ useCount1 h (setRef { g with temp1 := rest } v 1) v := by
        have : (setRef { g with temp1 := rest } v 1).gcRef v = 1 := by simp [setRef]
        rw [this]
        unfold useCount1
        rcases hsub with hT | ⟨a, ha, hp⟩
        · have := one_le_held (g := setRef { g with temp1 := rest } v 1) hgen (v := v) hT
          omega
        · have := count_pos i.ok ha hp
          have e : (setRef { g with temp1 := rest } v 1).staged = g.staged := rfl
          rw [e]
          omega
      rw [if_pos huse] at hr
      cases hvis : visit h n [h.root v] (setRef { g with temp1 := rest } v 1).staged (setRef { g with temp1 := rest } v 1).temp1 with
      | none => rw [hvis] at hr; simp at hr
      | some q =>
        obtain ⟨s, t⟩ := q
        rw [hvis] at hr
        simp only at hr
        have V := visit_spec hvis i.ok (by
          intro a ha kids hk b hb
          rcases i.closed a ha kids hk b hb with h' | h'
          · exact Or.inl h'
          · simp at h')
        have hmem : ∀ u, u ∈ rest → u ∈ t := fun u hu => V.keepT u hu
        have inv : Inv1 h (g.tracked gen) ({ setRef { g with temp1 := rest } v 1 with staged := s, temp1 := t } : Gc) := by
          refine ⟨V.ok, V.closed, V.nodup (List.nodup_cons.mp hnd).2, ?_, ?_, ?_⟩
          · intro u hu
            by_cases huv : u = v
            · subst huv
              exact Or.inr ⟨V.done _ (by simp), by simp [setRef]⟩
            · have old : u ∈ g.temp1 ∨ (h.root u ∈ keys g.staged ∧ g.gcRef u = 1) → 
                  u ∈ t ∨ (h.root u ∈ keys s ∧ (if u = v then 1 else g.gcRef u) = 1) := by
                rintro (h' | ⟨h1, h2⟩)
                · rcases List.mem_cons.mp (hperm.mem_iff.mp h') with e | h'
                  · exact absurd e huv
                  · exact Or.inl (hmem u h')
                · exact Or.inr ⟨V.keep _ h1, by rw [if_neg huv]; exact h2⟩
              rcases hu with hu | ⟨a, ha, hp⟩
              · exact old (i.todo u (Or.inl hu))
              · by_cases hold : a ∈ keys g.staged
                · exact old (i.todo u (Or.inr ⟨a, hold, hp⟩))
                · exact Or.inl (V.newT a ha hold u hp)
          · intro u hu
            rcases V.onlyT u hu with h' | h'
            · rcases i.sub u (hperm.mem_iff.mpr (List.mem_cons_of_mem _ h')) with h'' | ⟨a, ha, hp⟩
              · exact Or.inl h''
              · exact Or.inr ⟨a, V.keep a ha, hp⟩
            · exact Or.inr h'
          · intro a ha
            rcases V.only a ha with h' | ⟨w, hw, hi⟩
            · exact i.clo a h'
            · simp at hw
              subst hw
              exact ⟨v, i.mem_clo hsub, hi⟩
        obtain ⟨g', e, inv', ht, hsame, h2, hu⟩ := ih hr inv
        exact ⟨g', e, inv', ht, ⟨hsame.1, hsame.2, hsame.3, hsame.4⟩, h2, hu⟩

/-- At the end of the first loop. -/
structure Done1 (h : Heap) (T : List Var) (g : Gc) : Prop where
  ok : StagedOk h g.staged
  keys : ∀ a, a ∈ keys g.staged ↔ ∃ u, Closure h (· ∈ T) u ∧ Inside h (h.root u) a
  refs : ∀ v, Closure h (· ∈ T) v → g.gcRef v = 1
  vars : ∀ v, Closure h (· ∈ T) v ↔ (v ∈ T ∨ ∃ a ∈ Gc.keys g.staged, h.cell a = .ptr v)

theorem Inv1.done {h : Heap} {T : List Var} {g : Gc} (i : Inv1 h T g) (ht : g.temp1 = []) : Done1 h T g := by
  have todo : ∀ v, (v ∈ T ∨ ∃ a ∈ keys g.staged, h.cell a = .ptr v) → h.root v ∈ keys g.staged ∧ g.gcRef v = 1 := by
    intro v hv
    rcases i.todo v hv with h' | h'
    · rw [ht] at h'; simp at h'
    · exact h'
  have vars : ∀ v, Closure h (· ∈ T) v → (v ∈ T ∨ ∃ a ∈ keys g.staged, h.cell a = .ptr v) := by
    intro v hv
    induction hv with
    | base hv => exact Or.inl hv
    | step _ hp ih =>
      obtain ⟨a, ha, hc⟩ := hp
      exact Or.inr ⟨a, i.closed.inside ha (todo _ ih).1, hc⟩
  refine ⟨i.ok, fun a => ⟨i.clo a, ?_⟩, fun v hv => (todo v (vars v hv)).2, fun v => ⟨vars v, i.mem_clo⟩⟩
  rintro ⟨u, hu, hi⟩
  exact i.closed.inside hi (todo u (vars u hu)).1

/-! ## The second loop -/

/-- The number of entries for a variable. -/
def cnt (s : List (Nat × Option Var)) (v : Var) : Nat := s.countP (fun e => e.2 = some v)

theorem cnt_cons_none {s s' : List (Nat × Option Var)} {a : Nat} (hp : s.Perm ((a, none) :: s')) (v : Var) :
    cnt s v = cnt s' v := by
  unfold cnt
  rw [hp.countP_eq]
  simp

theorem cnt_cons_self {s s' : List (Nat × Option Var)} {a : Nat} {v : Var} (hp : s.Perm ((a, some v) :: s')) :
    cnt s v = cnt s' v + 1 := by
  unfold cnt
  rw [hp.countP_eq]
  simp

theorem cnt_cons_ne {s s' : List (Nat × Option Var)} {a : Nat} {v u : Var} (hp : s.Perm ((a, some v) :: s')) (hu : u ≠ v) :
    cnt s u = cnt s' u := by
  unfold cnt
  rw [hp.countP_eq, List.countP_cons_of_neg]
  simp
  exact fun e => hu e.symm

structure Inv2 (h : Heap) (k : Var → Nat) (g : Gc) : Prop where
  nodup : g.temp1.Nodup
  ref : ∀ v, (0 < k v) → g.gcRef v + cnt g.staged v = 1 + k v
  le : ∀ v, cnt g.staged v ≤ k v
  temp : ∀ v, v ∈ g.temp1 ↔ cnt g.staged v < k v

theorem phase2_spec {h : Heap} {pick : Nat → Nat} {n : Nat} {k : Var → Nat} {g : Gc} {r : Res Gc}
    (hr : phase2 h pick n g = some r) (i : Inv2 h k g) (hk : ∀ v, 0 < k v → k v + 1 ≤ h.refs v + held g v) :
    ∃ g', r = .ok g' ∧ Inv2 h k g' ∧ g'.staged = [] ∧ Same g g' ∧ g'.temp2 = g.temp2 ∧ g'.unreach = g.unreach ∧
      (∀ v, k v = 0 → g'.gcRef v = g.gcRef v) := by
  induction n generalizing g with
  | zero => simp [phase2] at hr
  | succ n ih =>
    simp only [phase2] at hr
    cases he : extract (pick n) g.staged with
    | none =>
      rw [he] at hr
      simp at hr
      subst hr
      exact ⟨g, rfl, i, extract_none he, .rfl', rfl, rfl, fun _ _ => rfl⟩
    | some p =>
      obtain ⟨⟨a, o⟩, rest⟩ := p
      rw [he] at hr
      have hperm := extract_some he
      cases o with
      | none =>
        simp only at hr
        have e := fun v => cnt_cons_none hperm v
        obtain ⟨g', e1, inv', ht, hsame, h2, hu, h3⟩ := ih hr (g := { g with staged := rest })
          ⟨i.nodup, fun v hv => by rw [← e]; exact i.ref v hv, fun v => by rw [← e]; exact i.le v,
            fun v => by rw [← e]; exact i.temp v⟩ hk
        exact ⟨g', e1, inv', ht, ⟨hsame.1, hsame.2, hsame.3, hsame.4⟩, h2, hu, h3⟩
      | some v =>
        simp only at hr
        have e1 := cnt_cons_self hperm
        have e2 := fun u hu => cnt_cons_ne (u := u) hperm hu
        have hkv : 0 < k v := by have := i.le v; omega
        have href := i.ref v hkv
        have huse : (setRef { g with staged := rest } v (g.gcRef v + 1)).gcRef v ≤
            useCount1 h (setRef { g with staged := rest } v (g.gcRef v + 1)) v := by
          have e3 : (setRef { g with staged := rest } v (g.gcRef v + 1)).gcRef v = g.gcRef v + 1 := by simp [setRef]
          rw [e3]
          have := hk v hkv
          have e4 : held (setRef { g with staged := rest } v (g.gcRef v + 1)) v = held g v := rfl
          have e5 : (setRef { g with staged := rest } v (g.gcRef v + 1)).staged = rest := rfl
          unfold useCount1
          rw [e4, e5]
          have e6 : rest.countP (fun e => e.2 = some v) = cnt rest v := rfl
          omega
        rw [if_pos huse] at hr
        have inv : Inv2 h k ({ setRef { g with staged := rest } v (g.gcRef v + 1) with
            temp1 := insertVar v (setRef { g with staged := rest } v (g.gcRef v + 1)).temp1 } : Gc) := by
          refine ⟨nodup_insertVar i.nodup, ?_, ?_, ?_⟩
          · intro u hu
            by_cases huv : u = v
            · subst huv
              show (if u = u then g.gcRef u + 1 else g.gcRef u) + cnt rest u = _
              rw [if_pos rfl]
              omega
            · show (if u = v then g.gcRef v + 1 else g.gcRef u) + cnt rest u = _
              rw [if_neg huv, ← e2 u huv]
              exact i.ref u hu
          · intro u
            show cnt rest u ≤ k u
            by_cases huv : u = v
            · subst huv; have := i.le u; omega
            · rw [← e2 u huv]; exact i.le u
          · intro u
            show u ∈ insertVar v g.temp1 ↔ cnt rest u < k u
            rw [mem_insertVar]
            by_cases huv : u = v
            · subst huv
              have := i.le u
              constructor
              · intro _; omega
              · intro _; exact Or.inl rfl
            · rw [← e2 u huv, ← i.temp u]
              tauto
        obtain ⟨g', e1', inv', ht, hsame, h2, hu, h3⟩ := ih hr inv hk
        refine ⟨g', e1', inv', ht, ⟨hsame.1, hsame.2, hsame.3, hsame.4⟩, h2, hu, ?_⟩
        intro u hu0
        rw [h3 u hu0]
        show (if u = v then g.gcRef v + 1 else g.gcRef u) = _
        rw [if_neg]
        rintro rfl
        omega

/-! ## The third loop -/

structure Inv3 (h : Heap) (W : List Var) (g : Gc) : Prop where
  staged : g.staged = []
  nodup : (g.temp1 ++ g.temp2 ++ g.unreach).Nodup
  all : ∀ v, v ∈ W ↔ (v ∈ g.temp1 ∨ v ∈ g.temp2 ∨ v ∈ g.unreach)
  cls : ∀ v, (v ∈ g.unreach → g.gcRef v = h.refs v + held g v) ∧ (v ∈ g.temp2 → g.gcRef v ≠ h.refs v + held g v)

theorem insertVar_of_not_mem {v : Var} {l : List Var} (h : v ∉ l) : insertVar v l = l ++ [v] := by
  unfold insertVar; rw [if_neg h]

theorem phase3_spec {h : Heap} {pick : Nat → Nat} {n : Nat} {W : List Var} {g : Gc} {r : Res Gc}
    (hr : phase3 h pick n g = some r) (i : Inv3 h W g) :
    ∃ g', r = .ok g' ∧ Inv3 h W g' ∧ g'.temp1 = [] ∧ Same g g' ∧ g'.gcRef = g.gcRef := by
  induction n generalizing g with
  | zero => simp [phase3] at hr
  | succ n ih =>
    simp only [phase3] at hr
    cases he : extract (pick n) g.temp1 with
    | none =>
      rw [he] at hr
      simp at hr
      subst hr
      exact ⟨g, rfl, i, extract_none he, .rfl', rfl⟩
    | some p =>
      obtain ⟨v, rest⟩ := p
      rw [he] at hr
      simp only at hr
      have hperm := extract_some he
      have hnd : ((v :: rest) ++ g.temp2 ++ g.unreach).Nodup :=
        ((hperm.append_right g.temp2).append_right g.unreach).nodup_iff.mp i.nodup
      have hnd' : v ∉ rest ∧ v ∉ g.temp2 ∧ v ∉ g.unreach := by
        simp only [List.cons_append, List.nodup_cons, List.mem_append, not_or] at hnd
        exact ⟨hnd.1.1.1, hnd.1.1.2, hnd.1.2⟩
      obtain ⟨n1, n2, n3⟩ := hnd'
      have huse : useCount1 h { g with temp1 := rest } v = h.refs v + held g v := by
        have e4 : held ({ g with temp1 := rest } : Gc) v = held g v := rfl
        unfold useCount1
        rw [e4]
        simp only [i.staged, one_zero n1, one_zero n2, one_zero n3, List.countP_nil, Nat.add_zero]
      have hall : ∀ u, u ∈ W ↔ (u = v ∨ u ∈ rest) ∨ u ∈ g.temp2 ∨ u ∈ g.unreach := by
        intro u
        rw [i.all u, hperm.mem_iff, List.mem_cons]
      rw [huse] at hr
      split at hr
      · rename_i heq
        rw [insertVar_of_not_mem n3] at hr
        obtain ⟨g', e1, inv', ht, hsame, h2⟩ := ih hr ⟨i.staged, by
            show (rest ++ g.temp2 ++ (g.unreach ++ [v])).Nodup
            refine List.Perm.nodup ?_ hnd
            rw [← List.append_assoc]
            simp only [List.cons_append]
            exact (List.perm_append_singleton _ _).symm, by
            intro u
            show _ ↔ u ∈ rest ∨ u ∈ g.temp2 ∨ u ∈ g.unreach ++ [v]
            rw [hall u]
            simp
            tauto, by
            intro u
            refine ⟨fun hu => ?_, (i.cls u).2⟩
            rcases List.mem_append.mp hu with hu | hu
            · exact (i.cls u).1 hu
            · simp at hu; subst hu; exact heq⟩
        exact ⟨g', e1, inv', ht, ⟨hsame.1, hsame.2, hsame.3, hsame.4⟩, h2⟩
      · rename_i hne
        rw [insertVar_of_not_mem n2] at hr
        obtain ⟨g', e1, inv', ht, hsame, h2⟩ := ih hr ⟨i.staged, by
            show (rest ++ (g.temp2 ++ [v]) ++ g.unreach).Nodup
            refine List.Perm.nodup ?_ hnd
            rw [← List.append_assoc]
            simp only [List.cons_append]
            exact ((List.perm_append_singleton v (rest ++ g.temp2)).symm.append_right g.unreach), by
            intro u
            show _ ↔ u ∈ rest ∨ u ∈ g.temp2 ++ [v] ∨ u ∈ g.unreach
            rw [hall u]
            simp
            tauto, by
            intro u
            refine ⟨(i.cls u).1, fun hu => ?_⟩
            rcases List.mem_append.mp hu with hu | hu
            · exact (i.cls u).2 hu
            · simp at hu; subst hu; exact hne⟩
        exact ⟨g', e1, inv', ht, ⟨hsame.1, hsame.2, hsame.3, hsame.4⟩, h2⟩

/-! ## The fourth loop -/

/-- `M` is the set of variables that the loop starts with, `U` the tentatively unreachable ones. -/
structure Inv4 (h : Heap) (gen : Nat) (M U : List Var) (g0 g : Gc) : Prop where
  ok : StagedOk h g.staged
  closed : Closed h g.staged []
  nodup : g.unreach.Nodup
  todo : ∀ v, (v ∈ M ∨ ∃ a ∈ keys g.staged, h.cell a = .ptr v) →
    v ∈ g.temp2 ∨ (h.root v ∈ keys g.staged ∧ v ∉ g.unreach)
  sub : ∀ v ∈ g.temp2, v ∈ M ∨ ∃ a ∈ keys g.staged, h.cell a = .ptr v
  clo : ∀ a ∈ keys g.staged, ∃ u, Closure h (· ∈ M) u ∧ Inside h (h.root u) a
  un : ∀ v, v ∈ g.unreach → v ∈ U
  un' : ∀ v, v ∈ U → v ∉ g.unreach → Closure h (· ∈ M) v
  refs : ∀ v, ¬ Closure h (· ∈ M) v → g.gcRef v = g0.gcRef v
  trk : ∀ v, ¬ Closure h (· ∈ M) v → (v ∈ g.tracked gen ↔ v ∈ g0.tracked gen)
  trk' : ∀ v, v ∈ g.tracked gen → v ∈ g0.tracked gen
  tnd : (g.tracked gen).Nodup
  oth : ∀ j, j ≠ gen → j ≠ gen + 1 → g.tracked j = g0.tracked j
  nxt : ∀ v, v ∈ g.tracked (gen + 1) ↔ v ∈ g0.tracked (gen + 1) ∨ (v ∈ g0.tracked gen ∧ v ∉ g.tracked gen)
  old : gen = 2 → g.tracked = g0.tracked
  prom : gen < 2 → ∀ v, v ∈ M ∨ (∃ a ∈ keys g.staged, h.cell a = .ptr v) → v ∈ g.temp2 ∨ v ∉ g.tracked gen
  pool : g.pool = g0.pool
  wiped : g.wiped = g0.wiped

theorem Inv4.mem_clo {h : Heap} {gen : Nat} {M U : List Var} {g0 g : Gc} (i : Inv4 h gen M U g0 g) {v : Var}
    (hv : v ∈ M ∨ ∃ a ∈ keys g.staged, h.cell a = .ptr v) : Closure h (· ∈ M) v := by
  rcases hv with hv | ⟨a, ha, hp⟩
  · exact .base hv
  · obtain ⟨u, hu, hi⟩ := i.clo a ha
    exact .step hu ⟨a, hi, hp⟩

theorem promote_fields (gen : Nat) (v : Var) (g : Gc) :
    (promote gen v g).gcRef = g.gcRef ∧ (promote gen v g).staged = g.staged ∧ (promote gen v g).temp1 = g.temp1 ∧
    (promote gen v g).temp2 = g.temp2 ∧ (promote gen v g).unreach = g.unreach ∧ (promote gen v g).pool = g.pool ∧
    (promote gen v g).wiped = g.wiped := by
  unfold promote
  split <;> simp

theorem promote_tracked (gen : Nat) (v : Var) (g : Gc) :
    (promote gen v g).tracked gen = if gen < 2 then (g.tracked gen).erase v else g.tracked gen := by
  unfold promote
  by_cases h2 : gen < 2
  · by_cases hv : v ∈ g.tracked gen
    · simp [h2, hv]
    · simp [h2, hv, List.erase_of_not_mem]
  · simp [h2]

theorem promote_next (gen : Nat) (v u : Var) (g : Gc) :
    u ∈ (promote gen v g).tracked (gen + 1) ↔
      u ∈ g.tracked (gen + 1) ∨ (gen < 2 ∧ u = v ∧ v ∈ g.tracked gen) := by
  unfold promote
  by_cases h2 : gen < 2
  · by_cases hv : v ∈ g.tracked gen
    · simp [h2, hv, mem_insertVar]; tauto
    · simp [h2, hv]
  · simp [h2]

theorem promote_other (gen : Nat) (v : Var) (g : Gc) {j : Nat} (h1 : j ≠ gen) (h2 : j ≠ gen + 1) :
    (promote gen v g).tracked j = g.tracked j := by
  unfold promote
  split
  · simp [h1, h2]
  · rfl

set_option maxHeartbeats 1600000 in
theorem phase4_spec {h : Heap} {pick : Nat → Nat} {gen n : Nat} {M U : List Var} {g0 g : Gc}
    {r : Res Gc} (hr : phase4 h pick gen n g = some r) (i : Inv4 h gen M U g0 g) :
    ∃ g', r = .ok g' ∧ Inv4 h gen M U g0 g' ∧ g'.temp2 = [] := by
  induction n generalizing g with
  | zero => simp [phase4] at hr
  | succ n ih =>
    simp only [phase4] at hr
    cases he : extract (pick n) g.temp2 with
    | none =>
      rw [he] at hr
      simp at hr
      subst hr
      exact ⟨g, rfl, i, extract_none he⟩
    | some p =>
      obtain ⟨v, rest⟩ := p
      rw [he] at hr
      simp only at hr
      have hperm := extract_some he
      have hvmem : v ∈ g.temp2 := hperm.mem_iff.mpr (by simp)
      have hsub := i.sub v hvmem
      have hvclo := i.mem_clo hsub
      generalize hg1 : setRef { g with temp2 := rest, temp1 := g.temp1.erase v, unreach := g.unreach.erase v } v 0 = g1 at hr
      have e_staged : g1.staged = g.staged := by rw [← hg1]; rfl
      have e_temp2 : g1.temp2 = rest := by rw [← hg1]; rfl
      have e_unreach : g1.unreach = g.unreach.erase v := by rw [← hg1]; rfl
      have e_tracked : g1.tracked = g.tracked := by rw [← hg1]; rfl
      have e_pool : g1.pool = g.pool := by rw [← hg1]; rfl
      have e_wiped : g1.wiped = g.wiped := by rw [← hg1]; rfl
      have e_ref : ∀ u, g1.gcRef u = if u = v then 0 else g.gcRef u := by intro u; rw [← hg1]; rfl
      cases hvis : visit h n [h.root v] g1.staged g1.temp2 with
      | none => rw [hvis] at hr; simp at hr
      | some q =>
        obtain ⟨s, t⟩ := q
        rw [hvis] at hr
        simp only at hr
        rw [e_staged, e_temp2] at hvis
        have V := visit_spec hvis i.ok (by
          intro a ha kids hk b hb
          rcases i.closed a ha kids hk b hb with h' | h'
          · exact Or.inl h'
          · simp at h')
        obtain ⟨f1, f2, f3, f4, f5, f6, f7⟩ := promote_fields gen v ({ g1 with staged := s, temp2 := t } : Gc)
        have ft := promote_tracked gen v ({ g1 with staged := s, temp2 := t } : Gc)
        have fn := fun u => promote_next gen v u ({ g1 with staged := s, temp2 := t } : Gc)
        have fo := fun j h1 h2 => promote_other gen v ({ g1 with staged := s, temp2 := t } : Gc) (j := j) h1 h2
        have fold : gen = 2 → (promote gen v ({ g1 with staged := s, temp2 := t } : Gc)).tracked = g.tracked := by
          rintro rfl
          simp [promote, e_tracked]
        generalize promote gen v ({ g1 with staged := s, temp2 := t } : Gc) = g2 at hr f1 f2 f3 f4 f5 f6 f7 ft fn fo fold
        simp only at f1 f2 f4 f5 f6 f7
        simp only [e_tracked] at ft fn fo
        have hmem_erase : ∀ u, u ∈ g.unreach.erase v ↔ u ≠ v ∧ u ∈ g.unreach := fun u => i.nodup.mem_erase_iff
        have htr : ∀ u, u ∈ g2.tracked gen ↔ (u ∈ g.tracked gen ∧ (gen < 2 → u ≠ v)) := by
          intro u
          rw [ft]
          by_cases h2 : gen < 2
          · rw [if_pos h2, i.tnd.mem_erase_iff]; tauto
          · rw [if_neg h2]; tauto
        refine ih hr ?_
        refine
          { ok := by rw [f2]; exact V.ok
            closed := by rw [f2]; exact V.closed
            nodup := by rw [f5, e_unreach]; exact i.nodup.erase _
            todo := ?_
            sub := ?_
            clo := ?_
            un := ?_
            un' := ?_
            refs := ?_
            trk := ?_
            trk' := fun u hu => i.trk' u ((htr u).mp hu).1
            tnd := by rw [ft]; split; exact i.tnd.erase _; exact i.tnd
            oth := fun j h1 h2 => by rw [fo j h1 h2]; exact i.oth j h1 h2
            nxt := ?_
            old := fun e => (fold e).trans (i.old e)
            prom := ?_
            pool := by rw [f6, e_pool]; exact i.pool
            wiped := by rw [f7, e_wiped]; exact i.wiped }
        · intro u hu
          rw [f2] at hu ⊢
          rw [f4, f5, e_unreach, hmem_erase]
          by_cases huv : u = v
          · subst huv
            exact Or.inr ⟨V.done _ (by simp), by simp⟩
          · have old : u ∈ g.temp2 ∨ (h.root u ∈ keys g.staged ∧ u ∉ g.unreach) →
                u ∈ t ∨ (h.root u ∈ keys s ∧ ¬ (u ≠ v ∧ u ∈ g.unreach)) := by
              rintro (h' | ⟨h1, h2⟩)
              · rcases List.mem_cons.mp (hperm.mem_iff.mp h') with e | h'
                · exact absurd e huv
                · exact Or.inl (V.keepT u h')
              · exact Or.inr ⟨V.keep _ h1, fun h' => h2 h'.2⟩
            rcases hu with hu | ⟨a, ha, hp⟩
            · exact old (i.todo u (Or.inl hu))
            · by_cases hold : a ∈ keys g.staged
              · exact old (i.todo u (Or.inr ⟨a, hold, hp⟩))
              · exact Or.inl (V.newT a ha hold u hp)
        · intro u hu
          rw [f4] at hu
          rw [f2]
          rcases V.onlyT u hu with h' | h'
          · rcases i.sub u (hperm.mem_iff.mpr (List.mem_cons_of_mem _ h')) with h'' | ⟨a, ha, hp⟩
            · exact Or.inl h''
            · exact Or.inr ⟨a, V.keep a ha, hp⟩
          · exact Or.inr h'
        · intro a ha
          rw [f2] at ha
          rcases V.only a ha with h' | ⟨w, hw, hi⟩
          · exact i.clo a h'
          · simp at hw
            subst hw
            exact ⟨v, hvclo, hi⟩
        · intro u hu
          rw [f5, e_unreach, hmem_erase] at hu
          exact i.un u hu.2
        · intro u hu hn
          rw [f5, e_unreach, hmem_erase] at hn
          by_cases huv : u = v
          · subst huv; exact hvclo
          · exact i.un' u hu (fun h' => hn ⟨huv, h'⟩)
        · intro u hu
          rw [f1, e_ref, if_neg (by rintro rfl; exact hu hvclo)]
          exact i.refs u hu
        · intro u hu
          rw [htr, ← i.trk u hu]
          have : u ≠ v := by rintro rfl; exact hu hvclo
          tauto
        · intro u
          rw [fn u, i.nxt u, htr]
          have itrk' := i.trk' u
          clear ih hr i fn htr fo fold V f1 f2 f3 f4 f5 f6 f7 ft hmem_erase hsub hvclo hperm e_ref hvis
          by_cases huv : u = v
          · subst huv
            by_cases h2 : gen < 2
            · by_cases hu : u ∈ g.tracked gen
              · have := itrk' hu; tauto
              · tauto
            · tauto
          · tauto
        · intro h2 u hu
          rw [f2] at hu
          rw [f4, htr]
          by_cases huv : u = v
          · subst huv; exact Or.inr (fun h' => h'.2 h2 rfl)
          · have old : u ∈ g.temp2 ∨ u ∉ g.tracked gen → u ∈ t ∨ ¬ (u ∈ g.tracked gen ∧ (gen < 2 → u ≠ v)) := by
              rintro (h' | h')
              · rcases List.mem_cons.mp (hperm.mem_iff.mp h') with e | h'
                · exact absurd e huv
                · exact Or.inl (V.keepT u h')
              · exact Or.inr (fun h'' => h' h''.1)
            rcases hu with hu | ⟨a, ha, hp⟩
            · exact old (i.prom h2 u (Or.inl hu))
            · by_cases hold : a ∈ keys g.staged
              · exact old (i.prom h2 u (Or.inr ⟨a, hold, hp⟩))
              · exact Or.inl (V.newT a ha hold u hp)

/-- At the end of the fourth loop. -/
theorem Inv4.done {h : Heap} {gen : Nat} {M U : List Var} {g0 g : Gc} (i : Inv4 h gen M U g0 g) (ht : g.temp2 = []) :
    (∀ v, v ∈ g.unreach ↔ v ∈ U ∧ ¬ Closure h (· ∈ M) v) ∧ (gen < 2 → ∀ v, Closure h (· ∈ M) v → v ∉ g.tracked gen) := by
  have todo : ∀ v, (v ∈ M ∨ ∃ a ∈ keys g.staged, h.cell a = .ptr v) → h.root v ∈ keys g.staged ∧ v ∉ g.unreach := by
    intro v hv
    rcases i.todo v hv with h' | h'
    · rw [ht] at h'; simp at h'
    · exact h'
  have vars : ∀ v, Closure h (· ∈ M) v → (v ∈ M ∨ ∃ a ∈ keys g.staged, h.cell a = .ptr v) := by
    intro v hv
    induction hv with
    | base hv => exact Or.inl hv
    | step _ hp ih =>
      obtain ⟨a, ha, hc⟩ := hp
      exact Or.inr ⟨a, i.closed.inside ha (todo _ ih).1, hc⟩
  refine ⟨fun v => ⟨fun hv => ⟨i.un v hv, fun hc => (todo v (vars v hc)).2 hv⟩, ?_⟩, ?_⟩
  · rintro ⟨hU, hn⟩
    by_contra h'
    exact hn (i.un' v hU h')
  · intro h2 v hv
    rcases i.prom h2 v (vars v hv) with h' | h'
    · rw [ht] at h'; simp at h'
    · exact h'

/-! ## The last loop -/

theorem phase5_spec {pick : Nat → Nat} {gen n : Nat} {g : Gc} {r : Res Gc} (hr : phase5 pick gen n g = some r)
    (hnd : g.unreach.Nodup) (htn : (g.tracked gen).Nodup)
    (href : ∀ v ∈ g.unreach, v ∈ g.tracked gen → g.gcRef v ≠ 0) :
    ∃ g', r = .ok g' ∧ (∀ v, v ∈ g'.wiped ↔ v ∈ g.wiped ∨ (v ∈ g.unreach ∧ v ∈ g.tracked gen)) ∧
      (∀ v, v ∈ g'.tracked gen ↔ v ∈ g.tracked gen ∧ v ∉ g.unreach) ∧
      (∀ j, j ≠ gen → g'.tracked j = g.tracked j) ∧
      (∀ v, v ∈ g'.pool ↔ v ∈ g.pool ∨ (v ∈ g.unreach ∧ v ∈ g.tracked gen)) ∧
      (g.wiped.Nodup → (∀ v ∈ g.unreach, v ∉ g.wiped) → g'.wiped.Nodup) ∧ (g'.tracked gen).Nodup ∧
      g'.counts = g.counts := by
  induction n generalizing g with
  | zero => simp [phase5] at hr
  | succ n ih =>
    simp only [phase5] at hr
    cases he : extract (pick n) g.unreach with
    | none =>
      rw [he] at hr
      simp at hr
      subst hr
      have := extract_none he
      exact ⟨g, rfl, by simp [this], by simp [this], by simp, by simp [this], fun h _ => h, htn, rfl⟩
    | some p =>
      obtain ⟨v, rest⟩ := p
      rw [he] at hr
      simp only at hr
      have hperm := extract_some he
      have hnd' : (v :: rest).Nodup := hperm.nodup_iff.mp hnd
      rw [List.nodup_cons] at hnd'
      have hm : ∀ u, u ∈ g.unreach ↔ u = v ∨ u ∈ rest := fun u => by rw [hperm.mem_iff, List.mem_cons]
      by_cases hv : v ∈ g.tracked gen
      · rw [if_pos hv, if_pos (href v ((hm v).mpr (Or.inl rfl)) hv)] at hr
        have he' : ∀ u, u ∈ (g.tracked gen).erase v ↔ u ≠ v ∧ u ∈ g.tracked gen := fun u => htn.mem_erase_iff
        obtain ⟨g', e, a1, a2, a3, a4, a5, a6, a7⟩ := ih hr hnd'.2 (by simpa using htn.erase v) (by
          intro u hu ht
          simp only [if_true] at ht
          rw [he'] at ht
          exact href u ((hm u).mpr (Or.inr hu)) ht.2)
        simp only [if_true] at a1 a2 a4
        refine ⟨g', e, ?_, ?_, ?_, ?_, ?_, a6, a7⟩
        · intro u
          rw [a1, he', hm]
          simp only [List.mem_append, List.mem_singleton]
          by_cases huv : u = v
          · subst huv; tauto
          · tauto
        · intro u
          rw [a2, he', hm]
          tauto
        · intro j hj
          rw [a3 j hj]
          simp [hj]
        · intro u
          rw [a4, he', hm, mem_insertVar]
          by_cases huv : u = v
          · subst huv; tauto
          · tauto
        · intro h1 h2
          apply a5
          · rw [List.nodup_append]
            refine ⟨h1, by simp, ?_⟩
            intro x hx y hy
            simp at hy
            subst hy
            rintro rfl
            exact h2 _ ((hm _).mpr (Or.inl rfl)) hx
          · intro u hu
            simp only [List.mem_append, List.mem_singleton, not_or]
            refine ⟨h2 u ((hm u).mpr (Or.inr hu)), ?_⟩
            rintro rfl
            exact hnd'.1 hu
      · rw [if_neg hv] at hr
        obtain ⟨g', e, a1, a2, a3, a4, a5, a6, a7⟩ := ih hr hnd'.2 htn (fun u hu ht => href u ((hm u).mpr (Or.inr hu)) ht)
        simp only at a1 a2 a3 a4 a5
        refine ⟨g', e, ?_, ?_, a3, ?_, fun h1 h2 => a5 h1 (fun u hu => h2 u ((hm u).mpr (Or.inr hu))), a6, a7⟩
        · intro u
          rw [a1, hm]
          by_cases huv : u = v
          · subst huv; tauto
          · tauto
        · intro u
          rw [a2, hm]
          by_cases huv : u = v
          · subst huv; tauto
          · tauto
        · intro u
          rw [a4, hm]
          by_cases huv : u = v
          · subst huv; tauto
          · tauto

end Asteria.Gc
