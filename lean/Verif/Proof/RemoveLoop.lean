import Verif.Proof.Remove

/-!
# What the loop of `remove_recursive` does when nobody else changes the files
-/

namespace Asteria.Remove

/-- A tree in the course of removing what is at `q`. -/
structure Good (orig : Node) (q : Path) (root : Node) : Prop where
  pruned : Pruned orig root q
  dir : ∃ es, lookup root q = some (.dir es)

theorem kindAt_dir {root : Node} {p : Path} : kindAt root p = some .dir ↔ ∃ es, lookup root p = some (.dir es) := by
  unfold kindAt
  cases lookup root p with
  | none => simp
  | some n => cases n <;> simp [Node.kind]

theorem good_remove {orig root : Node} {q r : Path} (hq : q ≠ []) (hr : r ≠ []) (h : Good orig q root) : Good orig q (remove root (q ++ r)) := by
  refine ⟨pruned_remove hq h.pruned, kindAt_dir.1 ?_⟩
  rw [kindAt_remove _ _ _ (by simp [hq]), if_neg, kindAt_dir]
  · exact h.dir
  · intro hp
    have := hp.length_le
    rw [List.length_append] at this
    exact hr (List.length_eq_zero_iff.1 (by omega))

section

variable {orig root n : Node} {path q r : Path}

theorem below (hs : Steady orig path q) (h : Good orig q root) {b : Bool} (hn : lookup root (q ++ r) = some n) (hb : b = false ∨ ∀ t, n ≠ .link t) :
    resolve root b maxLinks (path ++ r) = .ok (q ++ r) := by
  obtain ⟨es, hes⟩ := h.dir
  exact resolve_below hes (hs root h.pruned (by rw [hes]; simp)) hn hb

theorem unlink_below (hs : Steady orig path q) (h : Good orig q root) (hn : lookup root (q ++ r) = some n) (hd : isDir n = false) :
    unlink root (path ++ r) = .ok (remove root (q ++ r)) := by
  unfold unlink
  rw [below hs h hn (.inl rfl)]
  dsimp only
  rw [hn]
  cases n with
  | dir es => cases hd
  | file => rfl
  | link t => rfl

theorem rmdir_below (hs : Steady orig path q) (hq : q ≠ []) (h : Good orig q root) (hn : lookup root (q ++ r) = some (.dir [])) :
    rmdir root (path ++ r) = .ok (remove root (q ++ r)) := by
  unfold rmdir
  rw [below hs h hn (.inl rfl)]
  dsimp only
  rw [hn]
  dsimp only
  rw [if_neg (by simp [hq])]

theorem list_below {es : List (Name × Node)} (hs : Steady orig path q) (h : Good orig q root) (hn : lookup root (q ++ r) = some (.dir es)) :
    list root (path ++ r) = some es := by
  unfold list
  rw [below hs h hn (.inr nofun)]
  dsimp only
  rw [hn]

theorem lstat_below (hs : Steady orig path q) (h : Good orig q root) (hn : lookup root (q ++ r) = some n) :
    lstat root (path ++ r) = some (isDir n) := by
  unfold lstat
  rw [below hs h hn (.inl rfl)]
  dsimp only
  rw [hn]
  rfl

end

/-- What is pushed for an entry. -/
def elem (p : Path) (e : Name × Node) : Disp × Path := (if isDir e.2 then .expand else .unlink, p ++ [e.1])

theorem push_spec {W : World} (hW : ∀ i n, W.change i n = n) {orig : Node} {path q r : Path} (hs : Steady orig path q) :
    ∀ (es : List (Name × Node)) (S : State), Good orig q S.root → (∀ e ∈ es, lookup S.root (q ++ (r ++ [e.1])) = some e.2) →
    (∃ c, push W (path ++ r) es S = .ok { S with calls := c, stack := (es.map (elem (path ++ r))).reverse ++ S.stack }) ∨
    (push W (path ++ r) es S = .error S.root ∧ ∃ j, W.fails j = true) := by
  intro es
  induction es with
  | nil => intro S _ _; exact .inl ⟨S.calls, rfl⟩
  | cons e es ih =>
    intro S hg hl
    obtain ⟨x, n⟩ := e
    have hn : lookup S.root (q ++ (r ++ [x])) = some n := hl (x, n) (by simp)
    have hl' := fun e he => hl e (List.mem_cons_of_mem _ he)
    rw [push]
    dsimp only
    by_cases ht : W.typed (path ++ r ++ [x]) = true
    · rw [if_pos ht]
      rcases ih { S with stack := (if isDir n = true then .expand else .unlink, path ++ r ++ [x]) :: S.stack } hg hl' with ⟨c, h⟩ | h
      · left
        refine ⟨c, ?_⟩
        rw [h]
        simp [elem]
      · exact .inr h
    · rw [if_neg ht, hW]
      by_cases hf : W.fails S.calls = true
      · rw [if_pos hf]; exact .inr ⟨rfl, _, hf⟩
      rw [if_neg hf, List.append_assoc, lstat_below hs hg hn]
      dsimp only
      rcases ih { S with calls := S.calls + 1, stack := (if isDir n = true then .expand else .unlink, path ++ (r ++ [x])) :: S.stack } hg hl' with
        ⟨c, h⟩ | h
      · left
        refine ⟨c, ?_⟩
        rw [h]
        simp [elem]
      · exact .inr h

/-- From `S`, the loop comes to the given stack, number and tree, unless a call fails. -/
def Ends (W : World) (orig : Node) (q : Path) (S : State) (rest : List (Disp × Path)) (count : Nat) (root : Node) : Prop :=
  (∃ k c, ∀ fuel, loop W (fuel + k) S = loop W fuel ⟨root, c, rest, count⟩) ∨
  (∃ k root', (∀ fuel, loop W (fuel + k) S = some (.throw, root')) ∧ Good orig q root' ∧ ∃ j, W.fails j = true)

theorem Ends.trans {W : World} {orig root1 root2 : Node} {q : Path} {S : State} {rest1 rest2 : List (Disp × Path)} {count1 count2 : Nat}
    (h : Ends W orig q S rest1 count1 root1) (h' : ∀ c, Ends W orig q ⟨root1, c, rest1, count1⟩ rest2 count2 root2) : Ends W orig q S rest2 count2 root2 := by
  rcases h with ⟨k, c, h⟩ | h
  · rcases h' c with ⟨k', c', h2⟩ | ⟨k', root', h2, h3⟩
    · exact .inl ⟨k' + k, c', fun fuel => by rw [← Nat.add_assoc, h, h2]⟩
    · exact .inr ⟨k' + k, root', fun fuel => by rw [← Nat.add_assoc, h, h2], h3⟩
  · exact .inr h

/-- Removes the entries with given names. -/
def clear (es : List (Name × Node)) (n : Node) : Node := es.foldr (fun e n => without e.1 n) n

theorem clear_dir (es l : List (Name × Node)) : clear es (.dir l) = .dir (l.filter fun e => decide (e.1 ∉ es.map Prod.fst)) := by
  induction es with
  | nil => simp [clear, List.filter_eq_self.2]
  | cons e es ih =>
    have : clear (e :: es) (.dir l) = without e.1 (clear es (.dir l)) := rfl
    rw [this, ih, without, List.filter_filter]
    congr 1
    apply List.filter_congr
    intro x _
    by_cases h1 : x.1 = e.1 <;> by_cases h2 : x.1 ∈ es.map Prod.fst <;> simp [h1, h2]

theorem clear_self (es : List (Name × Node)) : clear es (.dir es) = .dir [] := by
  rw [clear_dir]
  congr 1
  rw [List.filter_eq_nil_iff]
  intro e he
  have := List.mem_map_of_mem (f := Prod.fst) he
  simp [this]

theorem modify_id (n : Node) (p : Path) : modify n p (fun m => m) = n := by
  induction p generalizing n with
  | nil => cases n <;> rfl
  | cons x p ih =>
    cases n with
    | file => rfl
    | link t => rfl
    | dir es =>
      rw [modify]
      congr 1
      rw [List.map_congr_left (g := id), List.map_id]
      intro e _
      dsimp only [id]
      split
      · rw [ih]
      · rfl

theorem without_modify (n : Node) (x : Name) (g : Node → Node) : without x (modify n [x] g) = without x n := by
  cases n with
  | file => rfl
  | link t => rfl
  | dir es =>
    simp only [modify, without]
    congr 1
    induction es with
    | nil => rfl
    | cons e es ih =>
      rw [List.map_cons, List.filter_cons, List.filter_cons, ih]
      by_cases h : e.1 = x <;> simp [h]

theorem remove_modify (n : Node) (p : Path) (hp : p ≠ []) (g : Node → Node) : remove (modify n p g) p = remove n p := by
  obtain ⟨p', x, rfl⟩ : ∃ q' x, p = q' ++ [x] := ⟨p.dropLast, p.getLast hp, (List.dropLast_concat_getLast hp).symm⟩
  rw [remove_snoc, remove_snoc, modify_append, modify_modify]
  congr 1
  funext m
  exact without_modify m x g

theorem lookup_mem {es : List (Name × Node)} (h : (es.map Prod.fst).Nodup) {e : Name × Node} (he : e ∈ es) : es.lookup e.1 = some e.2 := by
  induction es with
  | nil => cases he
  | cons a es ih =>
    rw [List.map_cons, List.nodup_cons] at h
    obtain ⟨k, n⟩ := a
    rcases List.mem_cons.1 he with rfl | hm
    · simp
    · have hk : e.1 ≠ k := by
        intro hk
        have h1 := h.1
        dsimp only at h1
        rw [← hk] at h1
        exact h1 (List.mem_map_of_mem (f := Prod.fst) hm)
      rw [List.lookup_cons, show (e.1 == k) = false by simpa using hk]
      exact ih h.2 hm

theorem sizes_append (a b : List (Name × Node)) : sizes (a ++ b) = sizes a + sizes b := by
  induction a with
  | nil => simp [sizes]
  | cons e a ih => obtain ⟨k, n⟩ := e; rw [List.cons_append, sizes, sizes, ih]; omega

theorem distincts_mem {es : List (Name × Node)} (h : Distincts es) {e : Name × Node} (he : e ∈ es) : Distinct e.2 := by
  induction es with
  | nil => cases he
  | cons a es ih =>
    obtain ⟨k, n⟩ := a
    rw [Distincts] at h
    rcases List.mem_cons.1 he with rfl | he
    · exact h.1
    · exact ih h.2 he

theorem size_mem {es : List (Name × Node)} {e : Name × Node} (he : e ∈ es) : size e.2 ≤ sizes es := by
  induction es with
  | nil => cases he
  | cons a es ih =>
    obtain ⟨k, n⟩ := a
    rw [sizes]
    rcases List.mem_cons.1 he with rfl | he
    · exact Nat.le_add_right ..
    · exact Nat.le_trans (ih he) (Nat.le_add_left ..)

/-- What removing one node does. -/
def Removes (W : World) (orig : Node) (path q : Path) (n : Node) : Prop :=
  ∀ (r : Path) (root : Node) (c : Nat) (rest : List (Disp × Path)) (count : Nat), Good orig q root → lookup root (q ++ r) = some n → Distinct n →
    Ends W orig q ⟨root, c, (if isDir n then .expand else .unlink, path ++ r) :: rest, count⟩ rest (count + size n) (remove root (q ++ r))

theorem children {W : World} {orig : Node} {path q : Path} (hq : q ≠ []) (r : Path) : ∀ (es : List (Name × Node)), (∀ e ∈ es, Removes W orig path q e.2) →
    ∀ (root : Node) (c : Nat) (rest : List (Disp × Path)) (count : Nat), Good orig q root → lookup root (q ++ r) = some (.dir es) →
      (es.map Prod.fst).Nodup → (∀ e ∈ es, Distinct e.2) →
      Good orig q (modify root (q ++ r) (clear es)) ∧
      Ends W orig q ⟨root, c, (es.map (elem (path ++ r))).reverse ++ rest, count⟩ rest (count + sizes es) (modify root (q ++ r) (clear es)) := by
  intro es
  generalize hlen : es.length = len
  induction len generalizing es with
  | zero =>
    have := List.length_eq_zero_iff.1 hlen
    subst this
    intro _ root c rest count hg hl _ _
    have : modify root (q ++ r) (clear []) = root := modify_id ..
    rw [this]
    exact ⟨hg, .inl ⟨0, c, fun fuel => rfl⟩⟩
  | succ len ih =>
    have hne : es ≠ [] := by rintro rfl; cases hlen
    obtain ⟨es', e, rfl⟩ : ∃ es' e, es = es' ++ [e] := ⟨es.dropLast, es.getLast hne, (List.dropLast_concat_getLast hne).symm⟩
    intro hr root c rest count hg hl hnd hdi
    have hmem : e ∈ es' ++ [e] := by simp
    have hle : lookup root (q ++ (r ++ [e.1])) = some e.2 := by
      rw [← List.append_assoc, lookup_append, hl]
      change lookup (.dir (es' ++ [e])) [e.1] = _
      rw [lookup_one]
      exact lookup_mem hnd hmem
    have h1 := hr e hmem (r ++ [e.1]) root c ((es'.map (elem (path ++ r))).reverse ++ rest) count hg hle (hdi e hmem)
    rw [← List.append_assoc, ← List.append_assoc, remove_snoc] at h1
    have hg' : Good orig q (modify root (q ++ r) (without e.1)) := by
      have := good_remove (r := r ++ [e.1]) hq (by simp) hg
      rwa [← List.append_assoc, remove_snoc] at this
    have hfil : (es' ++ [e]).filter (fun a => decide (a.1 ≠ e.1)) = es' := by
      rw [List.filter_append, List.filter_eq_self.2]
      · simp
      · intro a ha
        rw [List.map_append, List.nodup_append] at hnd
        have := hnd.2.2 a.1 (List.mem_map_of_mem ha) e.1 (by simp)
        simpa using this
    have hl' : lookup (modify root (q ++ r) (without e.1)) (q ++ r) = some (.dir es') := by
      rw [lookup_modify, hl, Option.map_some, without, hfil]
    have hcl : modify (modify root (q ++ r) (without e.1)) (q ++ r) (clear es') = modify root (q ++ r) (clear (es' ++ [e])) := by
      rw [modify_modify]
      congr 1
      funext m
      simp [clear, List.foldr_append]
    have h2 := fun c' => ih es' (by simpa using hlen) (fun a ha => hr a (by simp [ha])) _ c' rest (count + size e.2) hg' hl'
      (by rw [List.map_append, List.nodup_append] at hnd; exact hnd.1) (fun a ha => hdi a (by simp [ha]))
    rw [hcl] at h2
    refine ⟨(h2 0).1, ?_⟩
    have hst : ((es' ++ [e]).map (elem (path ++ r))).reverse ++ rest = elem (path ++ r) e :: ((es'.map (elem (path ++ r))).reverse ++ rest) := by simp
    rw [hst]
    have hsz : count + size e.2 + sizes es' = count + sizes (es' ++ [e]) := by
      rw [sizes_append]
      have : sizes [e] = size e.2 := by obtain ⟨k, n⟩ := e; simp [sizes]
      omega
    rw [← hsz]
    exact h1.trans fun c' => (h2 c').2

theorem removes {W : World} (hW : ∀ i n, W.change i n = n) {orig : Node} {path q : Path} (hq : q ≠ []) (hs : Steady orig path q) :
    ∀ (k : Nat) (n : Node), size n ≤ k → Removes W orig path q n := by
  intro k
  induction k with
  | zero => intro n h; cases n <;> simp [size] at h
  | succ k ih =>
    intro n hk r root c rest count hg hl hd
    by_cases hf : W.fails c = true
    · refine .inr ⟨1, root, fun fuel => ?_, hg, c, hf⟩
      simp only [loop, round, hW, hf, if_true]
    cases hdir : isDir n with
    | false =>
      refine .inl ⟨1, c + 1, fun fuel => ?_⟩
      have hsz : size n = 1 := by cases n <;> first | rfl | cases hdir
      simp only [loop, round, hW, hf, Bool.false_eq_true, if_false, unlink_below hs hg hl hdir, hsz]
    | true =>
      cases n with
      | file => cases hdir
      | link t => cases hdir
      | dir es =>
        rw [Distinct] at hd
        rw [size] at hk
        have hle : ∀ e ∈ es, lookup root (q ++ (r ++ [e.1])) = some e.2 := by
          intro e he
          rw [← List.append_assoc, lookup_append, hl]
          change lookup (.dir es) [e.1] = _
          rw [lookup_one]
          exact lookup_mem hd.1 he
        rcases push_spec (r := r) hW hs es ⟨root, c + 1, (.rmdir, path ++ r) :: rest, count⟩ hg hle with ⟨c', hp⟩ | ⟨hp, hj⟩
        · have h1 : Ends W orig q ⟨root, c, (.expand, path ++ r) :: rest, count⟩
              ((es.map (elem (path ++ r))).reverse ++ (.rmdir, path ++ r) :: rest) count root := by
            refine .inl ⟨1, c', fun fuel => ?_⟩
            simp only [loop, round, hW, hf, Bool.false_eq_true, if_false, list_below hs hg hl, hp]
          have h2 := fun c => children hq r es (fun e he => ih e.2 (by have := size_mem he; omega)) root c ((.rmdir, path ++ r) :: rest) count hg hl
            hd.1 (fun e he => distincts_mem hd.2 he)
          have hg' := (h2 0).1
          have hl' : lookup (modify root (q ++ r) (clear es)) (q ++ r) = some (.dir []) := by
            rw [lookup_modify, hl, Option.map_some, clear_self]
          simp only [if_true]
          refine h1.trans fun c => (h2 c).2.trans fun c => ?_
          by_cases hf' : W.fails c = true
          · refine .inr ⟨1, _, fun fuel => ?_, hg', c, hf'⟩
            simp only [loop, round, hW, hf', if_true]
          · refine .inl ⟨1, c + 1, fun fuel => ?_⟩
            simp only [loop, round, hW, hf', Bool.false_eq_true, if_false, rmdir_below hs hq hg' hl']
            rw [remove_modify _ _ (by simp [hq]), size, show count + (1 + sizes es) = count + sizes es + 1 by omega]
        · refine .inr ⟨1, root, fun fuel => ?_, hg, hj⟩
          simp only [loop, round, hW, hf, Bool.false_eq_true, if_false, list_below hs hg hl, hp, if_true]

end Asteria.Remove
