import Verif.Proof.GcAuto

/-!
# Properties C139–C143: creating variables, automatic collection, `std.gc`

The specification is in Verif/Spec/GcAuto.lean and Verif/Proof/GcCollect.lean (`Spec`).
-/

namespace Asteria.Gc

open Spec

/-! ## C139: `std.gc` -/

/-- **C139 (generations).** Every function of `std.gc` refuses a generation that is not 0, 1 or 2, and nothing else. -/
theorem C139_generations (x : Int) (c : Coll) :
    ((x < 0 ∨ 2 < x) → stdCount x c = .throw ∧ stdGet x c = .throw ∧ (∀ t, stdSet x t c = .throw) ∧
      ∀ w n, stdCollect w n (some x) c = some .throw) ∧
    (0 ≤ x → x ≤ 2 → stdCount x c = .ok (c.g.tracked x.toNat).length ∧ stdGet x c = .ok (c.thres x.toNat) ∧
      (∀ t, stdSet x t c ≠ .throw) ∧ ∀ w n, stdCollect w n (some x) c = collectVariables w n x.toNat c) := by
  unfold stdCount stdGet stdSet stdCollect
  dsimp only
  rcases generation_cases x with ⟨h, e⟩ | ⟨h1, h2, e, _⟩
  · rw [e]
    exact ⟨fun _ => ⟨rfl, rfl, fun _ => rfl, fun _ _ => rfl⟩, fun _ _ => by omega⟩
  · rw [e]
    exact ⟨fun _ => by omega, fun _ _ => ⟨rfl, rfl, (fun _ h => by cases h), fun _ _ => rfl⟩⟩

/-- **C139 (thresholds).** `set_threshold` returns what `get_threshold` would have; afterwards `get_threshold` returns the
new threshold, put into the range from 0 to `PTRDIFF_MAX`; other generations keep theirs; nothing else changes. -/
theorem C139_thresholds {x t : Int} {c : Coll} (h0 : 0 ≤ x) (h2 : x ≤ 2) :
    ∃ old c', stdSet x t c = .ok (old, c') ∧ stdGet x c = .ok old ∧
      (∃ k : Nat, stdGet x c' = .ok k ∧ (0 ≤ t → t < 2 ^ 63 → (k : Int) = t) ∧ (t < 0 → k = 0) ∧
        (2 ^ 63 ≤ t → k = 2 ^ 63 - 1)) ∧
      (∀ y, y ≠ x → stdGet y c' = stdGet y c) ∧ c'.g = c.g ∧ c'.init = c.init ∧ c'.immut = c.immut := by
  rcases generation_cases x with ⟨h, e⟩ | ⟨_, _, e, _⟩
  · omega
  · unfold stdSet stdGet
    rw [e]
    refine ⟨_, _, rfl, rfl, ⟨_, rfl, ?_, ?_, ?_⟩, ?_, rfl, rfl, rfl⟩
    · intro h h'
      dsimp only
      rw [if_pos rfl]
      unfold ptrdiffMax
      omega
    · intro h
      dsimp only
      rw [if_pos rfl]
      omega
    · intro h
      dsimp only
      rw [if_pos rfl]
      unfold ptrdiffMax
      omega
    · intro y hy
      rcases generation_cases y with ⟨_, e'⟩ | ⟨_, _, e', _⟩
      · rw [e']
      · rw [e']
        dsimp only
        rw [if_neg (by omega)]

/-- A case: the new collector. -/
example : (match stdSet 2 (-7) newColl with | .ok (old, c') => some (old, stdGet 2 c', stdGet 1 c') | _ => none) =
    some (500, .ok 0, .ok 100) := by decide

/-- **C139 (what is counted).** `std.gc.collect` returns by how much the sum of `std.gc.count_variables` over all generations
has become smaller. -/
theorem C139_collected {w : World} (ms : ∀ i, Memory (w.heap i)) {n : Nat} {x : Option Int} {c c' : Coll} {k : Nat}
    (hr : Reached c) (hh : Held w c.g) (e : stdCollect w n x c = some (.ok (c', k))) :
    Spec.total c = Spec.total c' + k := by
  obtain ⟨limit, c1, hl, ch, rfl⟩ := stdCollect_spec ms hr.sizes hh e
  have := ch.length (by omega) hr.sizes hh
  unfold allTracked at this
  simp only [List.length_append] at this
  unfold Spec.total
  dsimp only
  omega

/-- **C139 (the end).** `finalize` returns how many variables the collector holds, lets go of all of them, and leaves no
tracked variable initialized. -/
theorem C139_finalize (c : Coll) :
    (finalize c).2 = Spec.total c + c.g.pool.length ∧ Spec.total (finalize c).1 = 0 ∧ (finalize c).1.g.pool = [] ∧
    (∀ v, Tracked c v → (finalize c).1.init v = false) ∧ (∀ v, ¬ Tracked c v → (finalize c).1.init v = c.init v) := by
  refine ⟨rfl, rfl, rfl, ?_, ?_⟩
  · rintro v ⟨i, hi, hv⟩
    have h3 : i = 0 ∨ i = 1 ∨ i = 2 := by omega
    refine if_pos ?_
    rcases h3 with rfl | rfl | rfl
    · exact Or.inl hv
    · exact Or.inr (Or.inl hv)
    · exact Or.inr (Or.inr hv)
  · intro v hv
    refine if_neg ?_
    rintro (h | h | h)
    · exact hv ⟨0, by omega, h⟩
    · exact hv ⟨1, by omega, h⟩
    · exact hv ⟨2, by omega, h⟩

/-! ## C140: automatic collection -/

/-- **C140.** However a program creates variables, collects and changes thresholds: when a variable has been created, the
youngest generation has no more variables than its threshold (or one, the new one), and the middle generation has fewer than its
threshold (or none). -/
theorem C140_bounded {w : World} (ms : ∀ i, Memory (w.heap i)) {n p : Nat} {a : Var} {c : Coll} {r : Res (Var × Coll)}
    (hr : Reached c) (hh : Held w c.g) (e : createVariable w n p a 0 c = some r) :
    ∃ v c', r = .ok (v, c') ∧ v ∈ c'.g.tracked 0 ∧ ((c'.g.tracked 0).length ≤ c.thres 0 ∨ (c'.g.tracked 0).length = 1) ∧
      ((c'.g.tracked 1).length < c.thres 1 ∨ c'.g.tracked 1 = []) := by
  obtain ⟨c3, t, ch, rfl⟩ := createVariable_spec ms hr.sizes hh e
  obtain ⟨s3, _, _, _⟩ := ch.keeps hr.sizes hh
  have h0 := overdue_counts ch 0 (by omega)
  have h1 := overdue_counts ch 1 (by omega)
  have l0 := s3.small 0 (by omega)
  have l1 := s3.small 1 (by omega)
  refine ⟨_, _, rfl, ?_, ?_, ?_⟩
  · unfold track
    dsimp only
    rw [if_pos rfl]
    exact mem_insertVar.mpr (Or.inl rfl)
  · unfold track
    dsimp only
    rw [if_pos rfl, (takeVariable_keeps p a c3).1]
    have hl := length_insertVar (v := (takeVariable p a c3).1) (l := c3.g.tracked 0)
    have hpos : 0 < (insertVar (takeVariable p a c3).1 (c3.g.tracked 0)).length :=
      List.length_pos_of_mem (mem_insertVar.mpr (Or.inl rfl))
    omega
  · unfold track
    dsimp only
    rw [if_neg (by omega), (takeVariable_keeps p a c3).1]
    rcases h1 with h | h
    · exact Or.inr (List.length_eq_zero_iff.mp (by omega))
    · exact Or.inl (by omega)

/-- **C140 (not before).** A generation whose counter has not reached its threshold is not collected: if that is so for all
generations, the only thing that happens is that the new variable is tracked. -/
theorem C140_not_before {w : World} {n p : Nat} {a : Var} {c : Coll} (h : ∀ i, i ≤ 2 → c.g.counts i < c.thres i) :
    ∃ v c', createVariable w n p a 0 c = some (.ok (v, c')) ∧ c'.g.tracked 1 = c.g.tracked 1 ∧ c'.g.tracked 2 = c.g.tracked 2 ∧
      (∀ u, u ∈ c'.g.tracked 0 ↔ u = v ∨ u ∈ c.g.tracked 0) ∧ (∀ u, u ≠ v → c'.init u = c.init u) := by
  have ht : ∀ i k, i ≤ 2 → turn w overdue n i c k = some (.ok (c, k)) := by
    intro i k hi
    unfold turn overdue
    rw [if_neg]
    have := h i hi
    simp only [decide_eq_true_eq]
    omega
  have h3 : turns w overdue n 3 c = some (.ok (c, 0)) := by
    unfold turns
    unfold turns
    unfold turns
    unfold turns
    dsimp only
    rw [ht 0 0 (by omega)]
    dsimp only
    rw [ht 1 0 (by omega)]
    dsimp only
    rw [ht 2 0 (by omega)]
  unfold createVariable
  rw [h3]
  dsimp only
  have hk := takeVariable_keeps p a c
  refine ⟨_, _, rfl, ?_, ?_, ?_, ?_⟩
  · unfold track
    dsimp only
    rw [if_neg (by omega), hk.1]
  · unfold track
    dsimp only
    rw [if_neg (by omega), hk.1]
  · intro u
    unfold track
    dsimp only
    rw [if_pos rfl, hk.1]
    exact mem_insertVar
  · intro u hu
    show (takeVariable p a c).2.init u = c.init u
    unfold takeVariable at hu ⊢
    split
    · rfl
    · rename_i hx
      rw [hx] at hu
      exact if_neg hu

/-! ## C141: when no garbage is left -/

/-- **C141 (thresholds of zero).** If all thresholds are zero, then when a variable has been created, every other variable that
is still tracked is one that the program could get at. -/
theorem C141_zero {w : World} (ms : ∀ i, Memory (w.heap i)) {ext : List Nat} {n p : Nat} {a : Var} {c : Coll} {r : Res (Var × Coll)}
    (hr : Reached c) (hh : Held w c.g) (hz : ∀ i, i ≤ 2 → c.thres i = 0)
    (hs : ∀ c2 k, turns w overdue n 2 c = some (.ok (c2, k)) → NoStray (w.heap 2) (ms 2) ext (c2.g.tracked 2))
    (e : createVariable w n p a 0 c = some r) :
    ∃ v c', r = .ok (v, c') ∧ ∀ u, Tracked c' u → u = v ∨ Live (w.heap 2) (ms 2) ext u := by
  obtain ⟨c3, t, et, rfl⟩ := createVariable_turns ms hr.sizes hh e
  obtain ⟨c2, k2, e2, hc⟩ := turns_clean ms (fun c' h i hi => by unfold overdue; rw [h, hz i hi]; simp) hr.sizes hh et
  refine ⟨_, _, rfl, ?_⟩
  rintro u ⟨i, hi, hu⟩
  unfold track at hu
  dsimp only at hu
  rw [(takeVariable_keeps p a c3).1] at hu
  split at hu
  · rcases mem_insertVar.mp hu with h | h
    · exact Or.inl h
    · exact Or.inr (reach_live (hs c2 k2 e2) (hc i u hi h))
  · exact Or.inr (reach_live (hs c2 k2 e2) (hc i u hi hu))

/-- **C141 (`std.gc.collect()`).** After `std.gc.collect()`, every variable that is still tracked is one that the program could get
at, and the pool is empty. -/
theorem C141_collect {w : World} (ms : ∀ i, Memory (w.heap i)) {ext : List Nat} {n : Nat} {c : Coll} {r : Res (Coll × Nat)}
    (hr : Reached c) (hh : Held w c.g)
    (hs : ∀ c2 k, turns w (fun _ _ => true) n 2 c = some (.ok (c2, k)) → NoStray (w.heap 2) (ms 2) ext (c2.g.tracked 2))
    (e : stdCollect w n none c = some r) :
    ∃ c' k, r = .ok (c', k) ∧ c'.g.pool = [] ∧ ∀ u, Tracked c' u → Live (w.heap 2) (ms 2) ext u := by
  unfold stdCollect at e
  dsimp only at e
  unfold collectVariables at e
  generalize hq : turns w (fun _ _ => true) n (2 + 1) c = q at e
  cases q with
  | none => cases e
  | some q =>
    obtain ⟨c3, t, rfl, ch⟩ := turns_spec ms hr.sizes hh (by omega) hq
    obtain ⟨c2, k2, e2, hc⟩ := turns_clean ms (fun _ _ _ _ => rfl) hr.sizes hh hq
    refine ⟨_, _, (Option.some.inj e).symm, rfl, ?_⟩
    rintro u ⟨i, hi, hu⟩
    exact reach_live (hs c2 k2 e2) (hc i u hi hu)

/-- The program that sets the threshold of the youngest generation to zero, with two old variables that refer to each other. -/
def demoOld : Coll :=
  { newColl with g := gcOf [] [] [0, 1], thres := fun i => if i = 0 then 0 else newColl.thres i }

/-- Memory is always the same, and hash maps hand out their first element. -/
def constWorld (h : Heap) : World := ⟨fun _ => h, fun _ _ => 0⟩

/-- Variables of a generation. -/
def trackedBy (gen : Nat) (o : Option (Res (Var × Coll))) : Option (List Var) :=
  match o with
  | some (.ok x) => some (x.2.g.tracked gen)
  | _ => none

theorem demoCycle_points {a : Nat} {v : Var} (h : demoCycle.cell a = .ptr v) : (a = 10 ∧ v = 1) ∨ (a = 11 ∧ v = 0) := by
  by_cases h1 : a = 10
  · subst h1
    have : Cell.ptr 1 = .ptr v := h
    cases this
    exact Or.inl ⟨rfl, rfl⟩
  · by_cases h2 : a = 11
    · subst h2
      have : Cell.ptr 0 = .ptr v := h
      cases this
      exact Or.inr ⟨rfl, rfl⟩
    · exfalso
      by_cases h3 : a = 0
      · subst h3; cases h
      · by_cases h4 : a = 1
        · subst h4; cases h
        · have e1 : (a == 10) = false := by simpa using h1
          have e2 : (a == 11) = false := by simpa using h2
          have e3 : (a == 0) = false := by simpa using h3
          have e4 : (a == 1) = false := by simpa using h4
          simp [demoCycle, heapOf, List.lookup_cons, e1, e2, e3, e4] at h

def demoCycleMemory : Memory demoCycle := memoryOf _ _ _

/-- **C141 needs all thresholds to be zero.** With a threshold of zero for the youngest generation only, which the manual says
is enough, two old variables that nothing else refers to are still tracked after a variable has been created. -/
theorem C141_one_is_not_enough :
    demoOld.thres 0 = 0 ∧ Managed demoCycle demoOld.g [0, 1] ∧ (∀ v, ¬ Live demoCycle demoCycleMemory [] v) ∧
    trackedBy 2 (createVariable (constWorld demoCycle) 100 0 7 0 demoOld) = some [0, 1] := by
  refine ⟨rfl, ?_, ?_, by decide +kernel⟩
  · intro v hv
    have : v = 0 ∨ v = 1 := by
      refine known_of_forall (P := fun v => v = 0 ∨ v = 1) (by decide) ?_ v hv
      rintro u v _ ⟨a, _, hc⟩
      rcases demoCycle_points hc with ⟨_, rfl⟩ | ⟨_, rfl⟩
      · exact Or.inr rfl
      · exact Or.inl rfl
    rcases this with rfl | rfl <;> decide
  · intro v hv
    induction hv with
    | out h => exact absurd h (by show ¬ 0 < 0; omega)
    | cell h => cases h
    | step _ _ ih => exact ih

/-! ## C142: variables that are handed out are like new -/

/-- What a run leaves: the variable, and whether it may be modified. -/
def outcome (o : Option (Res (Var × Coll))) : Option (Var × Bool × Bool) :=
  match o with
  | some (.ok x) => some (x.1, x.2.init x.1, x.2.immut x.1)
  | _ => none

/-- Continue with the state of a run. -/
def after (o : Option (Res (Var × Coll))) (f : Var → Coll → Coll) : Coll :=
  match o with
  | some (.ok x) => f x.1 x.2
  | _ => newColl

/-- Memory in which nothing refers to any variable. -/
def noRefs : Heap := heapOf [] id (fun _ => 0)

/-- `std.gc.set_threshold(0, 1)`. -/
def demoSet : Coll := match stdSet 0 1 newColl with | .ok x => x.2 | _ => newColl

/-- After that, a script has declared a `const` variable. -/
def demoConst : Coll := after (createVariable (constWorld noRefs) 100 0 0 0 demoSet) (define true)

/-- Then the host opens a global variable, when the script has finished, and initializes it. -/
def demoOpen : Coll := after (createVariable (constWorld noRefs) 100 0 1 0 demoConst) initVar

/-- **C142 is false of the code.** The collector hands out a variable that was a `const` variable before, and is still one:
when the host has initialized its global variable, a script cannot modify it. -/
theorem C142_false :
    outcome (createVariable (constWorld noRefs) 100 0 1 0 demoConst) = some (0, false, true) ∧
    modify 0 demoOpen = .throw ∧ demoOpen.init 0 = true := by
  refine ⟨by decide +kernel, by decide +kernel, by decide +kernel⟩

/-- **C142 (part).** A variable that is handed out is not initialized; and it is not `const` if no variable that the collector
held was.  What is missing: without that condition it may be `const`, see `C142_false`. -/
theorem C142_new_partial {w : World} (ms : ∀ i, Memory (w.heap i)) {n p : Nat} {a : Var} {c : Coll} {r : Res (Var × Coll)}
    (hr : Reached c) (hh : Held w c.g) (hp : ∀ v, v ∈ c.g.pool → c.init v = false)
    (e : createVariable w n p a 0 c = some r) :
    ∃ v c', r = .ok (v, c') ∧ c'.init v = false ∧
      ((∀ u, u ∈ c.g.pool ∨ Tracked c u → c.immut u = false) → c'.immut v = false ∧ modify v (initVar v c') = .ok ()) := by
  obtain ⟨c3, t, et, rfl⟩ := createVariable_turns ms hr.sizes hh e
  obtain ⟨hf, _⟩ := turns_flags ms hr.sizes hh hp 3 c3 t (by omega) et
  have him := ((Chain.of_turns ms hr.sizes hh (by omega) et).keeps hr.sizes hh).2.2.2
  have hmod : ∀ (v : Var) (c' : Coll), c'.immut v = false → modify v (initVar v c') = .ok () := by
    intro v c' h
    unfold modify initVar
    simp [h]
  refine ⟨_, _, rfl, ?_, ?_⟩
  · show (takeVariable p a c3).2.init _ = false
    rcases takeVariable_cases p a c3 with ⟨h1, h2, _⟩ | ⟨h1, h2, _⟩
    · rw [h2]
      exact (hf _ h1).1
    · rw [h1]
      exact h2
  · intro hi
    have h : (takeVariable p a c3).2.immut (takeVariable p a c3).1 = false := by
      rcases takeVariable_cases p a c3 with ⟨h1, _, h2⟩ | ⟨h1, _, h2⟩
      · rw [h2, him]
        exact hi _ (hf _ h1).2
      · rw [h1]
        exact h2
    exact ⟨h, hmod _ _ h⟩

/-- **C142 (declarations in scripts).** Whatever the collector hands out, a variable that a script declares with `var` may be
modified, and one that it declares with `const` may not; other variables are as before. -/
theorem C142_declared (v : Var) (c : Coll) :
    modify v (define false v c) = .ok () ∧ modify v (define true v c) = .throw ∧
    ∀ b u, u ≠ v → modify u (define b v c) = modify u c := by
  unfold modify define
  refine ⟨by simp, by simp, ?_⟩
  intro b u hu
  simp [hu]

/-! ## C143: variables that are handed out are not in use -/

/-- The state in `C54_false`: variable 2 is on the stack and has a function that uses variables 0 and 1. -/
def demoInUse : Coll := { newColl with g := gcOf [0, 1] [2] [], thres := fun _ => 0 }

/-- **C143 is false of the code.** The collector hands out a variable that a function uses, which a variable on the stack has:
the script's new variable and the function's variable are then the same. -/
theorem C143_false :
    Live demoShared demoSharedMemory [] 0 ∧
    (outcome (createVariable (constWorld demoShared) 100 0 7 0
      { demoInUse with thres := fun i => if i = 0 then 0 else 100 })).map Prod.fst = some 0 := by
  refine ⟨?_, by decide +kernel⟩
  exact .step (u := 2) (.out (by decide)) ⟨10, .kid (b := 10) (kids := [10, 11]) rfl (by simp) (.refl _), rfl⟩

/-- **C143 (part).** A variable that is handed out is none that the program can get at, if in every collection the references in
the values of variables are not shared with values that the program holds otherwise.  Memory number 3 is that when the variable
is handed out; collections only take references away; the variables in the pool at the beginning are not in use, and a new
variable is not.  It is no longer in the pool, and what is in the pool is still not in use, so that this goes on.
What is missing: without the condition the claim is false of the code, see `C143_false`. -/
theorem C143_unused_partial {w : World} (ms : ∀ i, Memory (w.heap i)) {ext : List Nat} {n p : Nat} {a : Var} {c : Coll}
    {r : Res (Var × Coll)} (hr : Reached c) (hh : Held w c.g)
    (hu : ∀ i ci k, i ≤ 2 → turns w overdue n i c = some (.ok (ci, k)) → Unshared (w.heap i) (ms i) ext (ci.g.tracked i))
    (hmono : ∀ i v, i ≤ 2 → Live (w.heap (i + 1)) (ms (i + 1)) ext v → Live (w.heap i) (ms i) ext v)
    (hp : ∀ v, v ∈ c.g.pool → ¬ Live (w.heap 0) (ms 0) ext v) (ha : ¬ Live (w.heap 3) (ms 3) ext a)
    (ha' : held c.g a = 0) (e : createVariable w n p a 0 c = some r) :
    ∃ v c', r = .ok (v, c') ∧ ¬ Live (w.heap 3) (ms 3) ext v ∧ v ∉ c'.g.pool ∧
      ∀ u, u ∈ c'.g.pool → ¬ Live (w.heap 3) (ms 3) ext u := by
  obtain ⟨c3, t, et, rfl⟩ := createVariable_turns ms hr.sizes hh e
  have hs3 := ((Chain.of_turns ms hr.sizes hh (by omega) et).keeps hr.sizes hh).1
  have ha3 : a ∉ c3.g.pool := by
    intro h
    have hz := held_zero ha'
    rcases turns_from ms hr.sizes hh 3 c3 t (by omega) et a h with h1 | h1
    · exact hz.2 h1
    · exact hz.1 h1
  obtain ⟨q1, q2⟩ := takeVariable_pool (p := p) hs3.pool ha3
  refine ⟨_, _, rfl, ?_, q1,
    fun u hu' => turns_pool ms hr.sizes hh hu hmono hp 3 c3 t (by omega) et u (q2 u hu')⟩
  rcases takeVariable_cases p a c3 with ⟨h1, _⟩ | ⟨h1, _⟩
  · exact turns_pool ms hr.sizes hh hu hmono hp 3 c3 t (by omega) et _ h1
  · rw [h1]
    exact ha

/-! ## The conditions in cases -/

theorem noRefs_cell (out : Var → Nat) (a : Nat) : (heapOf [] id out).cell a = .value [] := rfl

/-- The youngest generation may have one variable, and has one; it is not in use any more. -/
theorem demoConst_reached : Reached demoConst := by
  have h1 : Reached demoSet := .threshold (x := 0) (t := 1) (k := 100) .new rfl
  have h2 : Reached (after (createVariable (constWorld noRefs) 100 0 0 0 demoSet) (fun _ c => c)) := by
    refine .create (w := constWorld noRefs) (n := 100) (p := 0) (a := 0) (v := 0) h1 (fun _ => ⟨memoryOf _ _ _⟩) ⟨?_, ?_⟩ rfl
    · intro i v hi hv
      have e : demoSet.g.tracked i = [] := rfl
      rw [e] at hv
      simp at hv
    · intro i v a _ hc
      cases hc
  exact .flags _ _ h2

theorem demoConst_held (out : Var → Nat) : Held (constWorld (heapOf [] id out)) demoConst.g := by
  have ht : ∀ i, i ≤ 2 → ∀ v, v ∈ demoConst.g.tracked i → v = 0 := by
    intro i hi
    have h3 : i = 0 ∨ i = 1 ∨ i = 2 := by omega
    rcases h3 with rfl | rfl | rfl
    · rw [show demoConst.g.tracked 0 = [0] by decide +kernel]; simp
    · rw [show demoConst.g.tracked 1 = [] by decide +kernel]; simp
    · rw [show demoConst.g.tracked 2 = [] by decide +kernel]; simp
  refine ⟨?_, ?_⟩
  · intro i v hi hv
    rw [ht i hi v hv]
    decide +kernel
  · intro i v a _ hc
    cases hc

/-- The conditions of `C140_bounded`, and of `C142_new_partial`: variable 0 is collected and is handed out again. -/
example : Reached demoConst ∧ Held (constWorld noRefs) demoConst.g ∧ demoConst.g.pool = [] ∧
    trackedBy 0 (createVariable (constWorld noRefs) 100 0 1 0 demoConst) = some [0] ∧
    trackedBy 1 (createVariable (constWorld noRefs) 100 0 1 0 demoConst) = some [] :=
  ⟨demoConst_reached, demoConst_held _, by decide +kernel, by decide +kernel, by decide +kernel⟩

/-- The same while variable 0 is on the stack: it goes to the middle generation, and a new variable is handed out. -/
example : Held (constWorld (heapOf [] id (fun v => if v = 0 then 1 else 0))) demoConst.g ∧
    trackedBy 0 (createVariable (constWorld (heapOf [] id (fun v => if v = 0 then 1 else 0))) 100 0 1 0 demoConst) = some [1] ∧
    trackedBy 1 (createVariable (constWorld (heapOf [] id (fun v => if v = 0 then 1 else 0))) 100 0 1 0 demoConst) = some [0] :=
  ⟨demoConst_held _, by decide +kernel, by decide +kernel⟩

/-- `std.gc.set_threshold`, which returns the old threshold. -/
def setOk (x t : Int) (c : Coll) : Coll := match stdSet x t c with | .ok y => y.2 | _ => c

/-- All thresholds are zero. -/
def demoZero : Coll := setOk 2 0 (setOk 1 0 (setOk 0 0 demoConst))

theorem demoZero_reached : Reached demoZero :=
  .threshold (x := 2) (t := 0) (k := 500) (.threshold (x := 1) (t := 0) (k := 100)
    (.threshold (x := 0) (t := 0) (k := 1) demoConst_reached rfl) rfl) rfl

/-- Memory with one reference on the stack, to variable 0. -/
def demoStack : Heap := heapOf [] id (fun v => if v = 0 then 1 else 0)

def demoStackMemory : Memory demoStack := memoryOf _ _ _

theorem demoStack_reach {u : Var} (h : Live demoStack demoStackMemory [] u) : u = 0 := by
  induction h with
  | @out v h =>
    by_contra hv
    have e : demoStackMemory.out v = 0 := if_neg hv
    omega
  | cell h => cases h
  | step _ hp =>
    obtain ⟨a, _, hc⟩ := hp
    cases hc

/-- The conditions of `C141_zero` and `C143_unused_partial`: variable 0 is on the stack; it stays, and another one is handed
out. -/
example : Reached demoZero ∧ Held (constWorld demoStack) demoZero.g ∧ (∀ i, i ≤ 2 → demoZero.thres i = 0) ∧
    (∀ T, NoStray demoStack demoStackMemory [] T) ∧ (∀ T, Unshared demoStack demoStackMemory [] T) ∧
    ¬ Live demoStack demoStackMemory [] 1 ∧ held demoZero.g 1 = 0 ∧ Live demoStack demoStackMemory [] 0 ∧
    trackedBy 2 (createVariable (constWorld demoStack) 100 0 1 0 demoZero) = some [0] ∧
    trackedBy 0 (createVariable (constWorld demoStack) 100 0 1 0 demoZero) = some [1] := by
  refine ⟨demoZero_reached, demoConst_held _, ?_, (fun T a v hc => by cases hc), (fun T u a v _ _ hc => by cases hc),
    (fun h => by cases demoStack_reach h), by decide +kernel, .out (by decide), by decide +kernel, by decide +kernel⟩
  intro i hi
  have h3 : i = 0 ∨ i = 1 ∨ i = 2 := by omega
  rcases h3 with rfl | rfl | rfl <;> decide +kernel

/-- The conditions of `C139_collected` and `C141_collect`: nothing refers to variable 0, and one variable is collected. -/
example : Reached demoZero ∧ Held (constWorld noRefs) demoZero.g ∧ (∀ T, NoStray noRefs (memoryOf _ _ _) [] T) ∧
    Spec.total demoZero = 1 ∧
    (match stdCollect (constWorld noRefs) 100 none demoZero with | some (.ok x) => some x.2 | _ => none) = some 1 :=
  ⟨demoZero_reached, demoConst_held _, (fun T a v hc => by cases hc), by decide +kernel, by decide +kernel⟩

end Asteria.Gc
