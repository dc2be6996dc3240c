import Verif.Spec.Defer
import Mathlib.Algebra.BigOperators.Group.List.Basic

/-! Facts about the machine `Spec.Todo` alone. -/

namespace Asteria.Exec.Spec

/-- How often `id` is still to be run; the tail calls with numbers below `N` are counted. -/
def Todo.left (c : Todo) (N id : Nat) : Nat :=
  (c.scopes.flatMap Prod.snd).count id + ((List.range N).map fun p => (c.parked p).count id).sum

theorem sum_update (f g : Nat → Nat) (p N : Nat) (hp : p < N) (h : ∀ q, q ≠ p → g q = f q) :
    ((List.range N).map g).sum + f p = ((List.range N).map f).sum + g p := by
  induction N with
  | zero => omega
  | succ N ih =>
    rw [List.range_succ]
    simp only [List.map_append, List.map_cons, List.map_nil, List.sum_append, List.sum_cons, List.sum_nil]
    by_cases hpn : p < N
    · have := ih hpn
      have := h N (by omega)
      omega
    · have : p = N := by omega
      subst this
      have : (List.range p).map g = (List.range p).map f := by
        apply List.map_congr_left
        intro q hq
        exact h q (by have := List.mem_range.1 hq; omega)
      rw [this]
      omega

/-- The tail calls that an event is about have numbers below `N`. -/
def Below (N : Nat) : Event → Prop
  | .handoff p => p < N
  | .resume p => p < N
  | _ => True

theorem event_left {c c' : Todo} {e : Event} (h : c.event e = some c') {N : Nat} (hN : Below N e) (id : Nat) :
    [e].count (.register id) + c.left N id = [e].count (.run id) + c'.left N id := by
  cases e with
  | enter => cases h; simp [Todo.left]
  | done =>
    simp only [Todo.event] at h
    split at h
    · rename_i l hl
      cases h
      simp [Todo.left, hl]
    · cases h
  | leave =>
    simp only [Todo.event] at h
    split at h
    · rename_i l hl
      cases h
      simp [Todo.left, hl]
    · cases h
  | register i =>
    simp only [Todo.event] at h
    split at h
    · rename_i a l hl
      cases h
      simp only [Todo.left, hl, List.flatMap_cons, List.cons_append, List.count_cons]
      simp
      by_cases hi : i = id
      · simp [hi]; omega
      · simp [hi]
    · cases h
  | run i =>
    simp only [Todo.event] at h
    split at h
    · rename_i j a l hl
      split at h
      · rename_i hj
        cases h
        subst hj
        simp only [Todo.left, hl, List.flatMap_cons, List.cons_append, List.count_cons]
        simp
        by_cases hi : j = id
        · simp [hi]; omega
        · simp [hi]
      · cases h
    · cases h
  | handoff p =>
    simp only [Todo.event] at h
    split at h
    · rename_i a l hl
      cases h
      simp only [Todo.left, hl, List.flatMap_cons, List.count_append]
      have := sum_update (fun q => (c.parked q).count id)
        (fun q => ((if q = p then a ++ c.parked p else c.parked q) : List Nat).count id) p N hN (by intro q hq; simp [hq])
      simp at this ⊢
      omega
    · cases h
  | resume p =>
    simp only [Todo.event] at h
    cases h
    simp only [Todo.left, List.flatMap_cons, List.count_append]
    have := sum_update (fun q => (c.parked q).count id)
      (fun q => ((if q = p then [] else c.parked q) : List Nat).count id) p N hN (by intro q hq; simp [hq])
    simp at this ⊢
    omega

theorem events_left {c c' : Todo} {es : List Event} (h : c.events es = some c') {N : Nat} (hN : ∀ e ∈ es, Below N e)
    (id : Nat) : es.count (.register id) + c.left N id = es.count (.run id) + c'.left N id := by
  induction es generalizing c with
  | nil => cases h; rfl
  | cons e es ih =>
    simp only [Todo.events] at h
    cases hc : c.event e with
    | none => rw [hc] at h; cases h
    | some c1 =>
      rw [hc] at h
      have h1 := event_left hc (hN e (by simp)) id
      have h2 := ih h (fun e he => hN e (by simp [he]))
      have h3 : ∀ x : Event, (e :: es).count x = [e].count x + es.count x := by
        intro x
        rw [← List.singleton_append, List.count_append]
      rw [h3, h3]
      omega

theorem exists_below (es : List Event) : ∃ N, ∀ e ∈ es, Below N e := by
  induction es with
  | nil => exact ⟨0, by simp⟩
  | cons e es ih =>
    obtain ⟨N, hN⟩ := ih
    refine ⟨N + (match e with | .handoff p => p + 1 | .resume p => p + 1 | _ => 0), ?_⟩
    intro x hx
    rcases List.mem_cons.1 hx with rfl | hx
    · cases x <;> simp [Below] <;> omega
    · have := hN x hx
      cases x <;> simp only [Below] at this ⊢ <;> omega

/-- A part of an accepted record is accepted. -/
theorem events_prefix {c c' : Todo} {es es' : List Event} (h : c.events (es ++ es') = some c') :
    ∃ d, c.events es = some d ∧ d.events es' = some c' := by
  induction es generalizing c with
  | nil => exact ⟨c, rfl, h⟩
  | cons e es ih =>
    simp only [List.cons_append, Todo.events] at h ⊢
    cases hc : c.event e with
    | none => rw [hc] at h; cases h
    | some c1 => rw [hc] at h; exact ih h

/-- Without tail calls nothing is parked. -/
theorem events_parked {c c' : Todo} {es : List Event} (h : c.events es = some c') (h0 : ∀ p, c.parked p = [])
    (hn : ∀ p, Event.handoff p ∉ es) : ∀ p, c'.parked p = [] := by
  induction es generalizing c with
  | nil => cases h; exact h0
  | cons e es ih =>
    simp only [Todo.events] at h
    cases hc : c.event e with
    | none => rw [hc] at h; cases h
    | some c1 =>
      rw [hc] at h
      refine ih h ?_ (fun p hp => hn p (by simp [hp]))
      cases e with
      | enter => cases hc; exact h0
      | done =>
        simp only [Todo.event] at hc
        split at hc <;> cases hc
        exact h0
      | leave =>
        simp only [Todo.event] at hc
        split at hc <;> cases hc
        exact h0
      | register i =>
        simp only [Todo.event] at hc
        split at hc <;> cases hc
        exact h0
      | run i =>
        simp only [Todo.event] at hc
        split at hc
        · split at hc <;> cases hc
          exact h0
        · cases hc
      | handoff p => exact absurd (by simp) (hn p)
      | resume p =>
        cases hc
        intro q
        simp only
        split
        · rfl
        · exact h0 q

end Asteria.Exec.Spec
