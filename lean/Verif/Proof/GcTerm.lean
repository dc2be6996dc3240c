import Verif.Proof.Gc
import Mathlib.Algebra.BigOperators.Group.List.Basic
import Mathlib.Data.List.Dedup
import Mathlib.Data.List.Perm.Subperm

/-! # The loops of the collector come to an end -/

namespace Asteria.Gc

open Spec

/-- One more than the number of parts of a cell. -/
def weight (h : Heap) (a : Nat) : Nat :=
  match h.cell a with
  | .value kids => 1 + kids.length
  | .ptr _ => 1

/-- Total weight of the cells in `L` that have not been visited. -/
def rest (h : Heap) (L : List Nat) (s : List (Nat × Option Var)) : Nat :=
  ((L.filter (fun a => a ∉ keys s)).map (weight h)).sum

/-- Number of cells in `L` that have not been visited. -/
def todo (L : List Nat) (s : List (Nat × Option Var)) : Nat := (L.filter (fun a => a ∉ keys s)).length

theorem filter_snoc {L : List Nat} (hL : L.Nodup) {s : List (Nat × Option Var)} {a : Nat} {o : Option Var} (ha : a ∈ L)
    (hn : a ∉ keys s) :
    (L.filter (fun b => b ∉ keys s)).Perm (a :: L.filter (fun b => b ∉ keys (s ++ [(a, o)]))) := by
  rw [List.perm_ext_iff_of_nodup (hL.filter _)]
  · intro b
    simp only [List.mem_filter, List.mem_cons, mem_keys_snoc, decide_eq_true_eq, not_or]
    by_cases hb : b = a
    · subst hb; tauto
    · tauto
  · rw [List.nodup_cons]
    refine ⟨?_, hL.filter _⟩
    simp only [List.mem_filter, mem_keys_snoc, decide_eq_true_eq]
    tauto

theorem rest_snoc {h : Heap} {L : List Nat} (hL : L.Nodup) {s : List (Nat × Option Var)} {a : Nat} {o : Option Var}
    (ha : a ∈ L) (hn : a ∉ keys s) : rest h L s = weight h a + rest h L (s ++ [(a, o)]) := by
  unfold rest
  rw [((filter_snoc hL ha hn (o := o)).map (weight h)).sum_eq]
  simp

theorem todo_snoc {L : List Nat} (hL : L.Nodup) {s : List (Nat × Option Var)} {a : Nat} {o : Option Var}
    (ha : a ∈ L) (hn : a ∉ keys s) : todo L s = todo L (s ++ [(a, o)]) + 1 := by
  unfold todo
  rw [(filter_snoc hL ha hn (o := o)).length_eq]
  simp

theorem rest_le {h : Heap} {L : List Nat} (s : List (Nat × Option Var)) : rest h L s ≤ rest h L [] := by
  unfold rest
  induction L with
  | nil => simp
  | cons a L ih =>
    simp only [List.filter_cons]
    split
    · simpa using ih
    · simp only [keys, List.map_nil, List.not_mem_nil, not_false_eq_true, decide_true, if_true, List.map_cons, List.sum_cons]
      simp only [keys, List.map_nil, List.not_mem_nil, not_false_eq_true, decide_true] at ih
      omega

theorem todo_le {L : List Nat} (s : List (Nat × Option Var)) : todo L s ≤ L.length := List.length_filter_le _ _

theorem length_insertVar_le {v : Var} {l : List Var} : (insertVar v l).length ≤ l.length + 1 := by
  unfold insertVar; split <;> simp

theorem visit_some {h : Heap} {L : List Nat} (hL : L.Nodup) {n : Nat} {work : List Nat} {s : List (Nat × Option Var)}
    {t : List Var} (hw : ∀ w ∈ work, ∀ a, Inside h w a → a ∈ L) (hn : work.length + rest h L s < n) :
    ∃ s' t', visit h n work s t = some (s', t') ∧ t'.length + todo L s' ≤ t.length + todo L s := by
  induction n generalizing work s t with
  | zero => omega
  | succ n ih =>
    cases work with
    | nil => exact ⟨s, t, rfl, Nat.le_refl _⟩
    | cons a work =>
      simp only [visit]
      by_cases ha : a ∈ keys s
      · rw [if_pos ha]
        simp only [List.length_cons] at hn
        exact ih (fun w hw' => hw w (List.mem_cons_of_mem _ hw')) (by omega)
      · rw [if_neg ha]
        have haL : a ∈ L := hw a (by simp) a (.refl a)
        simp only [List.length_cons] at hn
        cases hc : h.cell a with
        | value kids =>
          simp only
          have e := rest_snoc (h := h) hL (o := none) haL ha
          have ew : weight h a = 1 + kids.length := by simp [weight, hc]
          obtain ⟨s', t', e1, e2⟩ := ih (work := kids ++ work) (s := s ++ [(a, none)]) (t := t) (by
            intro w hw' b hb
            rcases List.mem_append.mp hw' with h' | h'
            · exact hw a (by simp) b (.kid hc h' hb)
            · exact hw w (List.mem_cons_of_mem _ h') b hb) (by simp only [List.length_append]; omega)
          have := todo_snoc hL (o := none) haL ha
          exact ⟨s', t', e1, by omega⟩
        | ptr v =>
          simp only
          have e := rest_snoc (h := h) hL (o := some v) haL ha
          have ew : weight h a = 1 := by simp [weight, hc]
          obtain ⟨s', t', e1, e2⟩ := ih (work := work) (s := s ++ [(a, some v)]) (t := insertVar v t)
            (fun w hw' => hw w (List.mem_cons_of_mem _ hw')) (by omega)
          have := todo_snoc hL (o := some v) haL ha
          have := length_insertVar_le (v := v) (l := t)
          exact ⟨s', t', e1, by omega⟩

theorem extract_length {α : Type} {i : Nat} {l l' : List α} {x : α} (h : extract i l = some (x, l')) :
    l.length = l'.length + 1 := by rw [(extract_some h).length_eq]; simp

theorem phase1_some {h : Heap} {L : List Nat} (hL : L.Nodup) {pick : Nat → Nat} {n : Nat} {T : List Var}
    (hin : ∀ u a, Closure h (· ∈ T) u → Inside h (h.root u) a → a ∈ L) {g : Gc} (i : Inv1 h T g)
    (hn : g.temp1.length + todo L g.staged + rest h L [] + 1 < n) :
    phase1 h pick n g ≠ none := by
  induction n generalizing g with
  | zero => omega
  | succ n ih =>
    simp only [phase1]
    cases he : extract (pick n) g.temp1 with
    | none => simp
    | some p =>
      obtain ⟨v, rst⟩ := p
      simp only
      have hlen := extract_length he
      have hperm := extract_some he
      have hvmem : v ∈ g.temp1 := hperm.mem_iff.mpr (by simp)
      have hnd : (v :: rst).Nodup := hperm.nodup_iff.mp i.nodup
      have hsub := i.sub v hvmem
      have hk := i.mem_clo hsub
      split
      · obtain ⟨s', t', e1, e2⟩ := visit_some hL (n := n) (work := [h.root v])
          (s := (setRef { g with temp1 := rst } v 1).staged) (t := (setRef { g with temp1 := rst } v 1).temp1)
          (by intro w hw a hi; simp at hw; subst hw; exact hin v a hk hi)
          (by
            have := rest_le (h := h) (L := L) (setRef { g with temp1 := rst } v 1).staged
            simp only [List.length_cons, List.length_nil]
            omega)
        rw [e1]
        simp only
        have V := visit_spec e1 i.ok (by
          intro a ha kids hk b hb
          rcases i.closed a ha kids hk b hb with h' | h'
          · exact Or.inl h'
          · simp at h')
        have e2' : t'.length + todo L s' ≤ rst.length + todo L g.staged := e2
        apply ih
        · refine ⟨V.ok, V.closed, V.nodup (List.nodup_cons.mp hnd).2, ?_, ?_, ?_⟩
          · intro u hu
            by_cases huv : u = v
            · subst huv
              exact Or.inr ⟨V.done _ (by simp), by simp [setRef]⟩
            · have old : u ∈ g.temp1 ∨ (h.root u ∈ keys g.staged ∧ g.gcRef u = 1) → 
                  u ∈ t' ∨ (h.root u ∈ keys s' ∧ (if u = v then 1 else g.gcRef u) = 1) := by
                rintro (h' | ⟨h1, h2⟩)
                · rcases List.mem_cons.mp (hperm.mem_iff.mp h') with e | h'
                  · exact absurd e huv
                  · exact Or.inl (V.keepT u h')
                · exact Or.inr ⟨V.keep _ h1, by rw [if_neg huv]; exact h2⟩
              rcases hu with hu | ⟨a, ha, hp⟩
              · exact old (i.todo u (Or.inl hu))
              · by_cases hold : a ∈ keys g.staged
                · exact old (i.todo u (Or.inr ⟨a, hold, hp⟩))
                · exact Or.inl (V.newT a ha hold u hp)
          · intro u hu
            rcases V.onlyT u hu with h' | h'
            · rcases i.sub u (hperm.mem_iff.mpr (List.mem_cons_of_mem _ h')) with h'' | ⟨a, ha, hp⟩
              · exact Or.inl h''
              · exact Or.inr ⟨a, V.keep a ha, hp⟩
            · exact Or.inr h'
          · intro a ha
            rcases V.only a ha with h' | ⟨w, hw, hi⟩
            · exact i.clo a h'
            · simp at hw
              subst hw
              exact ⟨v, hk, hi⟩
        · simp only
          omega
      · simp

theorem phase2_some {h : Heap} {pick : Nat → Nat} {n : Nat} {g : Gc} (hn : g.staged.length < n) :
    phase2 h pick n g ≠ none := by
  induction n generalizing g with
  | zero => omega
  | succ n ih =>
    simp only [phase2]
    cases he : extract (pick n) g.staged with
    | none => simp
    | some p =>
      obtain ⟨⟨a, o⟩, rst⟩ := p
      have hlen := extract_length he
      cases o with
      | none => simp only; exact ih (by simp only; omega)
      | some v =>
        simp only
        split
        · exact ih (by simp only [setRef]; omega)
        · simp

theorem phase3_some {h : Heap} {pick : Nat → Nat} {n : Nat} {g : Gc} (hn : g.temp1.length < n) :
    phase3 h pick n g ≠ none := by
  induction n generalizing g with
  | zero => omega
  | succ n ih =>
    simp only [phase3]
    cases he : extract (pick n) g.temp1 with
    | none => simp
    | some p =>
      obtain ⟨v, rst⟩ := p
      have hlen := extract_length he
      simp only
      split <;> exact ih (by simp only; omega)

theorem phase5_some {pick : Nat → Nat} {gen n : Nat} {g : Gc} (hn : g.unreach.length < n) :
    phase5 pick gen n g ≠ none := by
  induction n generalizing g with
  | zero => omega
  | succ n ih =>
    simp only [phase5]
    cases he : extract (pick n) g.unreach with
    | none => simp
    | some p =>
      obtain ⟨v, rst⟩ := p
      have hlen := extract_length he
      simp only
      split
      · split
        · exact ih (by simp only; omega)
        · simp
      · exact ih (by simp only; omega)

theorem phase4_some {h : Heap} {L : List Nat} (hL : L.Nodup) {pick : Nat → Nat} {gen n : Nat}
    {K : Var → Prop} (hin : ∀ u a, K u → Inside h (h.root u) a → a ∈ L) (hK : ∀ u v, K u → Points h u v → K v) {g : Gc}
    (hs : StagedOk h g.staged) (hc : Closed h g.staged []) (hk : ∀ v ∈ g.temp2, K v)
    (hk' : ∀ a ∈ keys g.staged, ∀ v, h.cell a = .ptr v → K v)
    (hn : g.temp2.length + todo L g.staged + rest h L [] + 1 < n) :
    phase4 h pick gen n g ≠ none := by
  induction n generalizing g with
  | zero => omega
  | succ n ih =>
    simp only [phase4]
    cases he : extract (pick n) g.temp2 with
    | none => simp
    | some p =>
      obtain ⟨v, rst⟩ := p
      simp only
      have hlen := extract_length he
      have hperm := extract_some he
      have hkv : K v := hk v (hperm.mem_iff.mpr (by simp))
      generalize hg1 : setRef { g with temp2 := rst, temp1 := g.temp1.erase v, unreach := g.unreach.erase v } v 0 = g1
      have e_staged : g1.staged = g.staged := by rw [← hg1]; rfl
      have e_temp2 : g1.temp2 = rst := by rw [← hg1]; rfl
      obtain ⟨s', t', e1, e2⟩ := visit_some hL (n := n) (work := [h.root v]) (s := g1.staged) (t := g1.temp2)
        (by intro w hw a hi; simp at hw; subst hw; exact hin v a hkv hi)
        (by
          have := rest_le (h := h) (L := L) g1.staged
          simp only [List.length_cons, List.length_nil]
          omega)
      rw [e1]
      simp only
      rw [e_staged, e_temp2] at e1 e2
      have V := visit_spec e1 hs (by
        intro a ha kids hk b hb
        rcases hc a ha kids hk b hb with h' | h'
        · exact Or.inl h'
        · simp at h')
      obtain ⟨f1, f2, f3, f4, f5, f6, f7⟩ := promote_fields gen v ({ g1 with staged := s', temp2 := t' } : Gc)
      have hk2 : ∀ a ∈ keys s', ∀ w, h.cell a = .ptr w → K w := by
        intro a ha w hw
        rcases V.only a ha with h' | ⟨x, hx, hi⟩
        · exact hk' a h' w hw
        · simp at hx
          subst hx
          exact hK v w hkv ⟨a, hi, hw⟩
      apply ih
      · rw [f2]; exact V.ok
      · rw [f2]; exact V.closed
      · rw [f4]
        intro u hu
        rcases V.onlyT u hu with h' | ⟨a, ha, hp⟩
        · exact hk u (hperm.mem_iff.mpr (List.mem_cons_of_mem _ h'))
        · exact hk2 a ha u hp
      · rw [f2]; exact hk2
      · rw [f4, f2]
        simp only
        omega

/-- A bound for the number of turns. -/
def bound (h : Heap) (T : List Var) (L : List Nat) : Nat := T.length + 2 * L.length + rest h L [] + 2

theorem length_le_of_known {h : Heap} {T : List Var} {L : List Nat}
    (hin : ∀ u a, Closure h (· ∈ T) u → Inside h (h.root u) a → a ∈ L) {l : List Var} (hl : l.Nodup)
    (hk : ∀ v ∈ l, Closure h (· ∈ T) v) : l.length ≤ T.length + L.length := by
  have hsub : l ⊆ T ++ L.filterMap (fun a => target (h.cell a)) := by
    intro v hv
    rw [List.mem_append, List.mem_filterMap]
    cases hk v hv with
    | base h' => exact Or.inl h'
    | step hu hp =>
      obtain ⟨a, hi, hc⟩ := hp
      exact Or.inr ⟨a, hin _ a hu hi, target_some.mpr hc⟩
  have := (List.subperm_of_subset hl hsub).length_le
  have h2 := List.length_filterMap_le (fun a => target (h.cell a)) L
  rw [List.length_append] at this
  omega

end Asteria.Gc
