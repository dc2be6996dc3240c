import Verif.Spec.Remove

/-!
# Lemmas about removing directories
-/

namespace Asteria.Remove

/-! ### Trees -/

theorem lookup_append (n : Node) (p r : Path) : lookup n (p ++ r) = (lookup n p).bind (lookup · r) := by
  induction p generalizing n with
  | nil => cases n <;> rfl
  | cons x p ih =>
    cases n with
    | file => rfl
    | link t => rfl
    | dir es =>
      rw [List.cons_append, lookup, lookup]
      cases es.lookup x with
      | none => rfl
      | some m => exact ih m

theorem lookup_one (es : List (Name × Node)) (x : Name) : lookup (.dir es) [x] = es.lookup x := by
  rw [lookup]
  cases es.lookup x with
  | none => rfl
  | some n => cases n <;> rfl

theorem lookup_nil (n : Node) : lookup n [] = some n := by cases n <;> rfl

theorem assoc_map (es : List (Name × Node)) (x y : Name) (g : Node → Node) :
    (es.map fun e => if e.1 = x then (e.1, g e.2) else e).lookup y = if y = x then (es.lookup y).map g else es.lookup y := by
  induction es with
  | nil => simp
  | cons e es ih =>
    obtain ⟨k, n⟩ := e
    rw [List.map_cons]
    by_cases hk : k = x
    · subst hk
      simp only [if_true, List.lookup_cons]
      by_cases hy : y = k
      · subst hy; simp
      · simp only [hy, if_false] at ih ⊢
        rw [show (y == k) = false by simpa using hy]
        exact ih
    · simp only [hk, if_false, List.lookup_cons]
      by_cases hy : y = k
      · subst hy; simp [hk]
      · rw [show (y == k) = false by simpa using hy]
        exact ih

theorem assoc_filter (es : List (Name × Node)) (x y : Name) :
    (es.filter fun e => e.1 ≠ x).lookup y = if y = x then none else es.lookup y := by
  induction es with
  | nil => simp
  | cons e es ih =>
    obtain ⟨k, n⟩ := e
    rw [List.filter_cons]
    by_cases hk : k = x
    · subst hk
      simp only [ne_eq, not_true_eq_false, decide_false, Bool.false_eq_true, if_false, List.lookup_cons]
      rw [ih]
      by_cases hy : y = k
      · simp [hy]
      · rw [show (y == k) = false by simpa using hy]
    · simp only [ne_eq, hk, not_false_eq_true, decide_true, if_true, List.lookup_cons]
      by_cases hy : y = k
      · subst hy; simp [hk]
      · rw [show (y == k) = false by simpa using hy]
        exact ih

theorem modify_append (n : Node) (p r : Path) (f : Node → Node) : modify n (p ++ r) f = modify n p fun m => modify m r f := by
  induction p generalizing n with
  | nil => cases n <;> rfl
  | cons x p ih =>
    cases n with
    | file => rfl
    | link t => rfl
    | dir es => simp only [List.cons_append, modify, ih]

theorem modify_modify (n : Node) (p : Path) (f g : Node → Node) : modify (modify n p f) p g = modify n p fun m => g (f m) := by
  induction p generalizing n with
  | nil => cases n <;> rfl
  | cons x p ih =>
    cases n with
    | file => rfl
    | link t => rfl
    | dir es =>
      simp only [modify, List.map_map]
      congr 1
      apply List.map_congr_left
      intro e _
      simp only [Function.comp_apply]
      by_cases h : e.1 = x
      · simp only [h, if_true, ih]
      · simp only [h, if_false]

theorem lookup_modify (n : Node) (p : Path) (f : Node → Node) : lookup (modify n p f) p = (lookup n p).map f := by
  induction p generalizing n with
  | nil => cases n <;> simp [modify, lookup_nil]
  | cons x p ih =>
    cases n with
    | file => rfl
    | link t => rfl
    | dir es =>
      rw [modify, lookup, assoc_map es x x fun m => modify m p f, if_pos rfl, lookup]
      cases es.lookup x with
      | none => rfl
      | some m => exact ih m

theorem kind_modify (n : Node) (p : Path) (f : Node → Node) (hf : ∀ m, (f m).kind = m.kind) : (modify n p f).kind = n.kind := by
  cases p with
  | nil => cases n <;> exact hf _
  | cons x p => cases n <;> rfl

theorem kind_without (x : Name) (n : Node) : (without x n).kind = n.kind := by cases n <;> rfl

/-- What is at a path after the node at `q ++ [x]` has been removed. -/
theorem kindAt_modify (n : Node) (q : Path) (x : Name) (p : Path) :
    kindAt (modify n q (without x)) p = if q ++ [x] <+: p then none else kindAt n p := by
  unfold kindAt
  induction q generalizing n p with
  | nil =>
    cases n with
    | file => cases p <;> simp [modify, without, lookup]
    | link t => cases p <;> simp [modify, without, lookup]
    | dir es =>
      cases p with
      | nil => simp [modify, without, lookup, Node.kind]
      | cons y p =>
        simp only [modify, without, lookup, List.nil_append, List.cons_prefix_cons, List.nil_prefix, and_true]
        rw [assoc_filter]
        by_cases h : y = x
        · subst h; simp
        · rw [if_neg h, if_neg (fun e => h e.symm)]
  | cons z q ih =>
    cases n with
    | file => cases p <;> simp [modify, lookup]
    | link t => cases p <;> simp [modify, lookup]
    | dir es =>
      cases p with
      | nil => simp [modify, lookup, Node.kind]
      | cons y p =>
        simp only [modify, lookup, List.cons_append, List.cons_prefix_cons]
        rw [assoc_map es z y fun m => modify m q (without x)]
        by_cases h : y = z
        · subst h
          simp only [if_true, true_and]
          cases es.lookup y with
          | none => simp
          | some m => exact ih m p
        · rw [if_neg h, if_neg (fun e => h e.1.symm)]

theorem remove_snoc (n : Node) (q : Path) (x : Name) : remove n (q ++ [x]) = modify n q (without x) := by
  unfold remove
  simp

theorem kindAt_remove (n : Node) (q p : Path) (hq : q ≠ []) : kindAt (remove n q) p = if q <+: p then none else kindAt n p := by
  obtain ⟨q', x, rfl⟩ : ∃ q' x, q = q' ++ [x] := ⟨q.dropLast, q.getLast hq, (List.dropLast_concat_getLast hq).symm⟩
  rw [remove_snoc, kindAt_modify]

theorem remove_gone (n : Node) (q : Path) (hq : q ≠ []) : Gone n (remove n q) q := by
  intro p
  rw [kindAt_remove n q p hq]
  exact ⟨fun h => if_pos h, fun h => if_neg h⟩

theorem Pruned.refl (n : Node) (q : Path) : Pruned n n q := fun _ => .inl rfl

theorem pruned_remove {n m : Node} {q r : Path} (hq : q ≠ []) (h : Pruned n m q) : Pruned n (remove m (q ++ r)) q := by
  intro p
  rw [kindAt_remove m _ p (by simp [hq])]
  by_cases hp : q ++ r <+: p
  · rw [if_pos hp]
    exact .inr ⟨(List.prefix_append ..).trans hp, rfl⟩
  · rw [if_neg hp]
    exact h p

theorem gone_pruned {n m k : Node} {q : Path} (h : Pruned n m q) (h' : Gone m k q) : Gone n k q := by
  intro p
  refine ⟨(h' p).1, fun hp => ?_⟩
  rw [(h' p).2 hp]
  rcases h p with e | e
  · exact e
  · exact absurd e.1 hp

/-! ### Paths -/

theorem walk_true {root : Node} : ∀ {p done : Path}, (∀ q es, walk root false done p = .place q → lookup root q = some (.dir es) → walk root true done p = .place q) ∧
    (∀ t rest, walk root false done p = .jump t rest → walk root true done p = .jump t rest) := by
  intro p
  induction p with
  | nil => intro done; exact ⟨fun _ _ h _ => h, fun _ _ h => h⟩
  | cons x p ih =>
    intro done
    simp only [walk]
    cases hl : lookup root (done ++ [x]) with
    | none => exact ⟨fun _ _ h _ => h, fun _ _ h => h⟩
    | some n =>
      cases n with
      | file => exact ⟨fun _ _ h _ => h, fun _ _ h => h⟩
      | dir es => exact ih
      | link t =>
        dsimp only
        rw [if_neg (show ¬ (p = [] ∧ true = false) by simp)]
        constructor
        · intro q es h hq
          split at h
          · cases h
            rw [hl] at hq
            cases hq
          · cases h
        · intro t' rest h
          split at h
          · cases h
          · exact h

theorem resolve_true {root : Node} {q : Path} {es : List (Name × Node)} (hq : lookup root q = some (.dir es)) : ∀ {links : Nat} {p : Path},
    resolve root false links p = .ok q → resolve root true links p = .ok q := by
  intro links
  induction links with
  | zero =>
    intro p h
    unfold resolve at h ⊢
    cases hw : walk root false [] p with
    | place s => rw [hw] at h; cases h; rw [walk_true.1 _ _ hw hq]
    | jump t rest => rw [hw] at h; cases h
    | absent => rw [hw] at h; cases h
    | notdir => rw [hw] at h; cases h
  | succ links ih =>
    intro p h
    unfold resolve at h ⊢
    cases hw : walk root false [] p with
    | place s => rw [hw] at h; cases h; rw [walk_true.1 _ _ hw hq]
    | jump t rest => rw [hw] at h; rw [walk_true.2 _ _ hw]; exact ih h
    | absent => rw [hw] at h; cases h
    | notdir => rw [hw] at h; cases h

theorem walk_append {root : Node} {b : Bool} {r : Path} (hr : r ≠ []) : ∀ {p done : Path},
    (∀ q es, walk root true done p = .place q → lookup root q = some (.dir es) → walk root b done (p ++ r) = walk root b q r) ∧
    (∀ t rest, walk root true done p = .jump t rest → walk root b done (p ++ r) = .jump t (rest ++ r)) := by
  intro p
  induction p with
  | nil => intro done; exact ⟨fun _ _ h _ => by cases h; rfl, fun _ _ h => by cases h⟩
  | cons x p ih =>
    intro done
    simp only [walk, List.cons_append]
    cases hl : lookup root (done ++ [x]) with
    | none =>
      dsimp only
      constructor
      · intro q es h hq
        split at h
        · cases h; rw [hl] at hq; cases hq
        · cases h
      · intro t rest h
        split at h <;> cases h
    | some n =>
      cases n with
      | file =>
        dsimp only
        constructor
        · intro q es h hq
          split at h
          · cases h; rw [hl] at hq; cases hq
          · cases h
        · intro t rest h
          split at h <;> cases h
      | dir es => exact ih
      | link t =>
        dsimp only
        rw [if_neg (show ¬ (p = [] ∧ true = false) by simp), if_neg (by simp [hr])]
        exact ⟨fun _ _ h => (by cases h), fun _ _ h => (by cases h; rfl)⟩

theorem resolve_append {root : Node} {b : Bool} {q r s : Path} {es : List (Name × Node)} (hq : lookup root q = some (.dir es)) (hr : r ≠ [])
    (hw : walk root b q r = .place s) : ∀ {links : Nat} {p : Path},
    resolve root true links p = .ok q → resolve root b links (p ++ r) = .ok s := by
  intro links
  induction links with
  | zero =>
    intro p h
    unfold resolve at h ⊢
    cases hw' : walk root true [] p with
    | place s => rw [hw'] at h; cases h; rw [(walk_append hr).1 _ _ hw' hq, hw]
    | jump t rest => rw [hw'] at h; cases h
    | absent => rw [hw'] at h; cases h
    | notdir => rw [hw'] at h; cases h
  | succ links ih =>
    intro p h
    unfold resolve at h ⊢
    cases hw' : walk root true [] p with
    | place s => rw [hw'] at h; cases h; rw [(walk_append hr).1 _ _ hw' hq, hw]
    | jump t rest =>
      rw [hw'] at h
      rw [(walk_append hr).2 _ _ hw']
      dsimp only at h ⊢
      rw [← List.append_assoc]
      exact ih h
    | absent => rw [hw'] at h; cases h
    | notdir => rw [hw'] at h; cases h

theorem walk_down {root : Node} {b : Bool} {n : Node} (hb : b = false ∨ ∀ t, n ≠ .link t) : ∀ {r q : Path},
    lookup root (q ++ r) = some n → walk root b q r = .place (q ++ r) := by
  intro r
  induction r with
  | nil => intro q _; simp [walk]
  | cons x r ih =>
    intro q h
    rw [walk]
    have h' : lookup root ((q ++ [x]) ++ r) = some n := by simpa using h
    have h2 := h'
    rw [lookup_append] at h2
    cases hl : lookup root (q ++ [x]) with
    | none => rw [hl] at h2; cases h2
    | some m =>
      rw [hl] at h2
      change lookup m r = some n at h2
      cases m with
      | dir es =>
        dsimp only
        rw [ih h']
        simp
      | file =>
        cases r with
        | nil => simp
        | cons y r => cases h2
      | link t =>
        cases r with
        | nil =>
          dsimp only
          rcases hb with hb | hb
          · simp [hb]
          · exact absurd (Option.some.inj h2).symm (hb t)
        | cons y r => cases h2

/-- The path of something below `q`. -/
theorem resolve_below {root n : Node} {path q r : Path} {es : List (Name × Node)} {b : Bool} (hq : lookup root q = some (.dir es))
    (hs : resolve root false maxLinks path = .ok q) (hn : lookup root (q ++ r) = some n) (hb : b = false ∨ ∀ t, n ≠ .link t) :
    resolve root b maxLinks (path ++ r) = .ok (q ++ r) := by
  by_cases hr : r = []
  · subst hr
    simp only [List.append_nil]
    cases b with
    | false => exact hs
    | true => exact resolve_true hq hs
  · exact resolve_append hq hr (walk_down hb hn) (resolve_true hq hs)

end Asteria.Remove
