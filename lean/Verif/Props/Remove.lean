import Verif.Proof.RemoveLoop

/-!
# C125 and C126: `std.filesystem.remove_recursive`
-/

namespace Asteria.Remove

/-- A path without links leads to where it says. -/
theorem steady_self (root : Node) (q : Path) : Steady root q q := by
  intro root' _ h
  cases hl : lookup root' q with
  | none => exact absurd hl h
  | some n =>
    unfold resolve
    rw [walk_down (n := n) (.inl rfl) (by simpa using hl)]
    rfl

theorem kind_some {root root' : Node} {q : Path} {n : Node} (h : Good root q root') (hn : lookup root q = some n) :
    kindAt root' q = kindAt root q := by
  rcases h.pruned q with e | e
  · exact e
  · obtain ⟨es, hes⟩ := h.dir
    have := kindAt_dir.2 ⟨es, hes⟩
    rw [e.2] at this
    cases this

theorem remove_gen (W : World) (hW : ∀ i n, W.change i n = n) (root : Node) (path q : Path) (n : Node) (hq : q ≠ []) (hn : lookup root q = some n)
    (hd : Distinct n) (hs : Steady root path q) :
    ∃ k, (∃ root', (∀ fuel, removeRecursive W (fuel + k) root path = some (.ok (size n), root')) ∧ Gone root root' q) ∨
      (∃ root', (∀ fuel, removeRecursive W (fuel + k) root path = some (.throw, root')) ∧ Pruned root root' q ∧
        kindAt root' q = kindAt root q ∧ ∃ j, W.fails j = true) := by
  have hr : resolve root false maxLinks path = .ok q := hs root (Pruned.refl _ _) (by rw [hn]; simp)
  unfold removeRecursive
  simp only [hW]
  by_cases h0 : W.fails 0 = true
  · exact ⟨0, .inr ⟨root, fun _ => by rw [if_pos h0], Pruned.refl _ _, rfl, 0, h0⟩⟩
  simp only [h0, Bool.false_eq_true, if_false]
  cases hdir : isDir n with
  | false =>
    have hu : unlink root path = .ok (remove root q) := by
      unfold unlink
      rw [hr]
      dsimp only
      rw [hn]
      cases n with
      | dir es => cases hdir
      | file => rfl
      | link t => rfl
    have hsz : size n = 1 := by cases n <;> first | rfl | cases hdir
    refine ⟨0, .inl ⟨remove root q, fun _ => ?_, remove_gone root q hq⟩⟩
    rw [hu, hsz]
  | true =>
    cases n with
    | file => cases hdir
    | link t => cases hdir
    | dir es =>
      have hu : unlink root path = .error .eisdir := by
        unfold unlink
        rw [hr]
        dsimp only
        rw [hn]
      rw [hu]
      dsimp only
      have hg : Good root q root := ⟨Pruned.refl _ _, es, hn⟩
      have hl := removes hW hq hs _ (.dir es) (Nat.le_refl _) [] root 2 [] 0 hg (by simpa using hn) hd
      simp only [List.append_nil, Nat.zero_add, isDir, if_true] at hl
      have hloop : ∃ k, (∃ root', (∀ fuel, loop W (fuel + k) ⟨root, 2, [(.expand, path)], 0⟩ = some (.ok (size (.dir es)), root')) ∧ Gone root root' q) ∨
          (∃ root', (∀ fuel, loop W (fuel + k) ⟨root, 2, [(.expand, path)], 0⟩ = some (.throw, root')) ∧ Pruned root root' q ∧
          kindAt root' q = kindAt root q ∧ ∃ j, W.fails j = true) := by
        rcases hl with ⟨k, c, h⟩ | ⟨k, root', h, h2, h3⟩
        · refine ⟨k + 1, .inl ⟨remove root q, fun fuel => ?_, remove_gone root q hq⟩⟩
          rw [show fuel + (k + 1) = fuel + 1 + k by omega, h]
          rfl
        · exact ⟨k, .inr ⟨root', h, h2.pruned, kind_some h2 hn, h3⟩⟩
      by_cases h1 : W.fails 1 = true
      · simp only [h1, if_true]
        exact hloop
      simp only [h1, Bool.false_eq_true, if_false]
      cases es with
      | nil =>
        have hrm : rmdir root path = .ok (remove root q) := by
          have := rmdir_below (r := []) hs hq hg (by simpa using hn)
          simpa using this
        refine ⟨0, .inl ⟨remove root q, fun _ => ?_, remove_gone root q hq⟩⟩
        rw [hrm]
        rfl
      | cons e es =>
        have hrm : rmdir root path = .error .other := by
          unfold rmdir
          rw [hr]
          dsimp only
          rw [hn]
        rw [hrm]
        exact hloop

/-! ### C125: what is removed -/

/-- **C125, as documented.** When no other process changes the files and no call fails, `std.filesystem.remove_recursive(path)` removes the
file or directory that `path` leads to with everything below it, and nothing else, and returns how many files and directories this
has been. -/
def C125_claim : Prop := ∀ (W : World), (∀ i n, W.change i n = n) → (∀ i, W.fails i = false) →
  ∀ (root : Node) (path q : Path) (n : Node), Distinct root → q ≠ [] → resolve root false maxLinks path = .ok q → lookup root q = some n →
    ∀ fuel r root', removeRecursive W fuel root path = some (r, root') → r = .ok (size n) ∧ Gone root root' q

/-- A world in which nothing else happens. -/
def quiet : World := ⟨fun _ => false, fun _ n => n, fun p => p.length % 2 = 0⟩

/-- `/d/l` is a symbolic link to `/`. -/
def looped : Node := .dir [([100], .dir [([108], .link [])])]

/-- Whether there is something at a path after a call, and the result. -/
def result (r : Option (Res Nat × Node)) (p : Path) : Option (Res Nat × Option Kind) := r.map fun r => (r.1, kindAt r.2 p)

/-- **C125 is false**: if the path goes through a link below the directory that it leads to, then removing the link makes the path
unusable; the function takes that for a concurrent removal, and returns although the directory is still there. -/
theorem C125_false : ¬ C125_claim := by
  intro h
  have e : result (removeRecursive quiet 9 looped [[100], [108], [100]]) [[100]] = some (.ok 1, some .dir) := by decide +kernel
  unfold result at e
  cases hr : removeRecursive quiet 9 looped [[100], [108], [100]] with
  | none => rw [hr] at e; cases e
  | some r =>
    rw [hr, Option.map_some] at e
    have h1 : resolve looped false maxLinks [[100], [108], [100]] = .ok [[100]] := by rfl
    have := (h quiet (fun _ _ => rfl) (fun _ => rfl) looped [[100], [108], [100]] [[100]] (.dir [([108], .link [])])
      (by simp [looped, Distinct, Distincts]) (by simp) h1 rfl 9 r.1 r.2 hr).1
    have h2 := congrArg Prod.fst (Option.some.inj e)
    rw [this] at h2
    simp [size, sizes] at h2

/-- **C125 (partial).** When no other process changes the files, and the path keeps leading to `q` while files below `q` are removed,
`remove_recursive` ends; it removes what is at `q` and everything below it and nothing else, and returns the number of files and
directories; unless a call has failed: then there is an exception, some files or directories below `q` may have been removed and
nothing else, and `q` is still there.  It does not matter whether `readdir()` tells types.  What is missing: paths that go through
links below the directory itself, see `C125_false`. -/
theorem C125_partial (W : World) (hW : ∀ i n, W.change i n = n) (root : Node) (path q : Path) (n : Node) (hq : q ≠ [])
    (hn : lookup root q = some n) (hd : Distinct n) (hs : Steady root path q) :
    ∃ k r root', (∀ fuel, k ≤ fuel → removeRecursive W fuel root path = some (r, root')) ∧
      ((r = .ok (size n) ∧ Gone root root' q) ∨
       (r = .throw ∧ Pruned root root' q ∧ kindAt root' q = kindAt root q ∧ ∃ j, W.fails j = true)) := by
  obtain ⟨k, ⟨root', h, h2⟩ | ⟨root', h, h2⟩⟩ := remove_gen W hW root path q n hq hn hd hs
  · exact ⟨k, _, root', fun fuel hf => by rw [← Nat.sub_add_cancel hf]; exact h _, .inl ⟨rfl, h2⟩⟩
  · exact ⟨k, _, root', fun fuel hf => by rw [← Nat.sub_add_cancel hf]; exact h _, .inr ⟨rfl, h2⟩⟩

/-- **C125 (paths without links).** For these nothing else needs to be assumed about the path. -/
theorem C125_direct_partial (W : World) (hW : ∀ i n, W.change i n = n) (root : Node) (q : Path) (n : Node) (hq : q ≠ [])
    (hn : lookup root q = some n) (hd : Distinct n) :
    ∃ k r root', (∀ fuel, k ≤ fuel → removeRecursive W fuel root q = some (r, root')) ∧
      ((r = .ok (size n) ∧ Gone root root' q) ∨
       (r = .throw ∧ Pruned root root' q ∧ kindAt root' q = kindAt root q ∧ ∃ j, W.fails j = true)) :=
  C125_partial W hW root q q n hq hn hd (steady_self root q)

/-- **C125 (nothing there).** If there is nothing where the path leads, then nothing happens and the result is zero. -/
theorem C125_absent (W : World) (hW : ∀ i n, W.change i n = n) (root : Node) (path : Path) (h0 : W.fails 0 = false)
    (h : resolve root false maxLinks path = .error .enoent ∨ ∃ q, resolve root false maxLinks path = .ok q ∧ lookup root q = none) (fuel : Nat) :
    removeRecursive W fuel root path = some (.ok 0, root) := by
  have hu : unlink root path = .error .enoent := by
    unfold unlink
    rcases h with h | ⟨q, h, h'⟩
    · rw [h]
    · rw [h]; dsimp only; rw [h']
  unfold removeRecursive
  simp only [hW, h0, Bool.false_eq_true, if_false, hu]

/-- `/d` with a file, an empty directory, a link to `/o` and a directory with a file; and `/o` with a file. -/
def tree : Node := .dir [([100], .dir [([97], .file), ([98], .dir []), ([99], .link [[111]]), ([101], .dir [([102], .file)])]), ([111], .dir [([118], .file)])]

example : result (removeRecursive quiet 20 tree [[100]]) [[100]] = some (.ok 6, none) := by decide +kernel
example : result (removeRecursive quiet 20 tree [[100]]) [[111], [118]] = some (.ok 6, some .file) := by decide +kernel
example : result (removeRecursive quiet 20 tree [[100], [99]]) [[100], [99]] = some (.ok 1, none) := by decide +kernel
example : result (removeRecursive quiet 20 tree [[100], [120]]) [[100], [99]] = some (.ok 0, some (.link [[111]])) := by decide +kernel
example : result (removeRecursive { quiet with fails := fun i => i = 5 } 20 tree [[100]]) [[100]] = some (.throw, some .dir) := by decide +kernel
example : Distinct tree := by simp [tree, Distinct, Distincts]
example : lookup tree [[100]] ≠ none := by simp [tree, lookup]

/-! ### C126: what is not removed -/

/-- **C126, as one would expect it.** Whatever other processes do to the directory that is being removed, `remove_recursive` removes nothing
outside of it. -/
def C126_claim : Prop := ∀ (W : World) (root : Node) (q : Path), q ≠ [] →
  (∀ i root' p, ¬ q <+: p → ¬ p <+: q → lookup (W.change i root') p = lookup root' p) →
    ∀ fuel r root', removeRecursive W fuel root q = some (r, root') → ∀ p, ¬ q <+: p → ¬ p <+: q → lookup root' p = lookup root p

theorem lookup_outside (n : Node) (q : Path) (f : Node → Node) (p : Path) (h1 : ¬ q <+: p) (h2 : ¬ p <+: q) :
    lookup (modify n q f) p = lookup n p := by
  induction q generalizing n p with
  | nil => exact absurd (List.nil_prefix) h1
  | cons z q ih =>
    cases n with
    | file => rfl
    | link t => rfl
    | dir es =>
      cases p with
      | nil => exact absurd (List.nil_prefix) h2
      | cons y p =>
        rw [List.cons_prefix_cons] at h1 h2
        rw [modify, lookup, assoc_map es z y fun m => modify m q f, lookup]
        by_cases h : y = z
        · subst h
          rw [if_pos rfl]
          cases es.lookup y with
          | none => rfl
          | some m => exact ih m p (fun e => h1 ⟨rfl, e⟩) (fun e => h2 ⟨rfl, e⟩)
        · rw [if_neg h]

/-- Another process replaces `/d/e` by a link to `/o`, after `/d` has been listed. -/
def hostile : World := ⟨fun _ => false, fun i n => if i = 3 then modify n [[100], [101]] (fun _ => .link [[111]]) else n, fun _ => true⟩

/-- **C126 is false**: directories are opened by path and links are followed, so someone who may write to the directory that is being
removed can have any other directory emptied. -/
theorem C126_false : ¬ C126_claim := by
  intro h
  have e : result (removeRecursive hostile 20 tree [[100]]) [[111], [118]] = some (.throw, none) := by decide +kernel
  unfold result at e
  cases hr : removeRecursive hostile 20 tree [[100]] with
  | none => rw [hr] at e; cases e
  | some r =>
    rw [hr, Option.map_some] at e
    have := h hostile tree [[100]] (by simp) (by
      intro i root' p h1 h2
      unfold hostile
      dsimp only
      split
      · refine lookup_outside _ _ _ _ (fun hp => h1 ?_) (fun hp => ?_)
        · exact List.IsPrefix.trans ⟨[[101]], rfl⟩ hp
        · cases p with
          | nil => exact h2 (List.nil_prefix)
          | cons y p =>
            rw [List.cons_prefix_cons] at hp
            refine h1 ?_
            rw [List.cons_prefix_cons]
            exact ⟨hp.1.symm, List.nil_prefix⟩
      · rfl) 20 r.1 r.2 hr [[111], [118]] (by decide) (by decide)
    have h2 := congrArg Prod.snd (Option.some.inj e)
    unfold kindAt at h2
    dsimp only at h2
    rw [this] at h2
    exact absurd h2 (by decide +kernel)

theorem loop_mono (W : World) : ∀ (fuel k : Nat) (S : State) (x : Res Nat × Node), loop W fuel S = some x → loop W (fuel + k) S = some x := by
  intro fuel
  induction fuel with
  | zero => intro k S x h; cases h
  | succ fuel ih =>
    intro k S x h
    rw [Nat.add_right_comm]
    rw [loop] at h ⊢
    cases hst : S.stack with
    | nil => rw [hst] at h; exact h
    | cons e es =>
      rw [hst] at h
      dsimp only at h ⊢
      cases hro : round W { S with stack := es } e with
      | failed root => rw [hro] at h; exact h
      | more T => rw [hro] at h; exact ih k T x h

theorem remove_mono (W : World) (fuel k : Nat) (root : Node) (path : Path) (x : Res Nat × Node) (h : removeRecursive W fuel root path = some x) :
    removeRecursive W (fuel + k) root path = some x := by
  unfold removeRecursive at h ⊢
  dsimp only at h ⊢
  split at h
  · rename_i h0; rw [if_pos h0]; exact h
  · rename_i h0
    rw [if_neg h0]
    revert h
    cases unlink (W.change 0 root) path with
    | ok r => exact id
    | error e =>
      cases e with
      | enoent => exact id
      | other => exact id
      | eisdir =>
        dsimp only
        cases (if W.fails 1 = true then Except.error Err.other else rmdir (W.change 1 (W.change 0 root)) path) with
        | ok r => exact id
        | error e => exact loop_mono W fuel k _ x

/-- **C126 (partial).** When no other process changes the files, nothing outside of the directory is removed or changed, whichever calls
fail.  What is missing: changes by other processes, see `C126_false`. -/
theorem C126_partial (W : World) (hW : ∀ i n, W.change i n = n) (root : Node) (path q : Path) (n : Node) (hq : q ≠ [])
    (hn : lookup root q = some n) (hd : Distinct n) (hs : Steady root path q) (fuel : Nat) (r : Res Nat) (root' : Node)
    (h : removeRecursive W fuel root path = some (r, root')) (p : Path) (hp : ¬ q <+: p) : kindAt root' p = kindAt root p := by
  obtain ⟨k, s, root2, h1, h2⟩ := C125_partial W hW root path q n hq hn hd hs
  have h3 := remove_mono W fuel k root path _ h
  rw [h1 (fuel + k) (by omega)] at h3
  cases h3
  rcases h2 with ⟨_, h2⟩ | ⟨_, h2, _⟩
  · exact (h2 p).2 hp
  · rcases h2 p with h2 | h2
    · exact h2
    · exact absurd h2.1 hp

example : result (removeRecursive { quiet with fails := fun i => i = 5 } 20 tree [[100]]) [[111], [118]] = some (.throw, some .file) := by decide +kernel

end Asteria.Remove
