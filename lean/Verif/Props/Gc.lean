import Verif.Proof.GcCollect

/-!
# Properties C54, C55: garbage collection

The specification (`Spec.Memory`, `Spec.Reach`, `Spec.Live`) is in Verif/Proof/GcCollect.lean.  It speaks of memory: which
cells hold references to a variable, how many references are elsewhere, and what can be reached through them.
-/

namespace Asteria.Gc

open Spec

/-! ## C54: what is wiped -/

/-- **C54 (exactly what is wiped).** Whatever the order in which the hash tables hand out their elements: if every variable
that is looked at is held by exactly one map of the collector, then no assertion fails, and the variables that are wiped are
exactly those variables of the generation that cannot be reached from outside of the set of known variables. -/
theorem C54_exact {h : Heap} (m : Memory h) {pick : Nat → Nat} {gen n : Nat} {g : Gc} {r : Res Gc} (hgen : gen ≤ 2)
    (hn : (g.tracked gen).Nodup) (hm : Managed h g (g.tracked gen)) (hr : collect h pick gen n g = some r) :
    ∃ g', r = .ok g' ∧ ∀ v, v ∈ g'.wiped ↔ v ∈ g.tracked gen ∧ ¬ Reach h m (g.tracked gen) v := by
  rcases collect_cases m (pick := pick) (n := n) hgen hn hm with ⟨g', e, c⟩ | ⟨e, _⟩
  · rw [e] at hr
    exact ⟨g', (Option.some.inj hr).symm, c.wiped⟩
  · rw [e] at hr
    cases hr

theorem Live.reach {h : Heap} {m : Memory h} {ext : List Nat} {T : List Var} (hu : Unshared h m ext T) {v : Var}
    (hv : Live h m ext v) : Reach h m T v := by
  induction hv with
  | out ho => exact .out ho
  | cell hr hi hc =>
    refine .cell hc ?_
    intro u hk hi'
    exact (hu u _ _ hk hi' hc).1 _ hr hi
  | @step w x hw hp ih =>
    obtain ⟨a, hi, hc⟩ := hp
    by_cases hin : ∃ u, Known h T u ∧ Inside h (h.root u) a
    · obtain ⟨u, hk, hi'⟩ := hin
      exact .step ((hu u a x hk hi' hc).2 w hw hi) ih ⟨a, hi, hc⟩
    · exact .cell hc (fun u hk hi' => hin ⟨u, hk, hi'⟩)

/-- **C54 (part).** No variable that the program can still get at is wiped, if the references in the values of the variables
that are looked at are not shared with values that the program holds otherwise, and every variable that is looked at is held
by exactly one map of the collector.  What is missing: without these two conditions the claim is false of the code, see
`C54_false`, `C54_false_call` and `C54_false_foreign`. -/
theorem C54_partial {h : Heap} (m : Memory h) {ext : List Nat} {pick : Nat → Nat} {gen n : Nat} {g : Gc} {r : Res Gc}
    (hgen : gen ≤ 2) (hn : (g.tracked gen).Nodup) (hm : Managed h g (g.tracked gen))
    (hs : Unshared h m ext (g.tracked gen)) (hr : collect h pick gen n g = some r) :
    ∃ g', r = .ok g' ∧ ∀ v, Live h m ext v → v ∉ g'.wiped := by
  obtain ⟨g', e, hw⟩ := C54_exact m hgen hn hm hr
  exact ⟨g', e, fun v hv h' => ((hw v).mp h').2 (Live.reach hs hv)⟩

/-! ## C55: garbage is reclaimed -/

/-- **C55.** A collection wipes every variable of the generation that cannot be reached from outside of the known variables,
and puts it into the pool. -/
theorem C55_reclaims {h : Heap} (m : Memory h) {pick : Nat → Nat} {gen n : Nat} {g : Gc} {r : Res Gc} (hgen : gen ≤ 2)
    (hn : (g.tracked gen).Nodup) (hm : Managed h g (g.tracked gen)) (hr : collect h pick gen n g = some r) :
    ∃ g', r = .ok g' ∧ g'.wiped.Nodup ∧
      ∀ v, v ∈ g.tracked gen → ¬ Reach h m (g.tracked gen) v → v ∈ g'.wiped ∧ v ∈ g'.pool := by
  rcases collect_cases m (pick := pick) (n := n) hgen hn hm with ⟨g', e, c⟩ | ⟨e, _⟩
  · rw [e] at hr
    exact ⟨g', (Option.some.inj hr).symm, c.nodup, fun v hv hre => ⟨(c.wiped v).mpr ⟨hv, hre⟩, (c.pool v).mpr (Or.inr ⟨hv, hre⟩)⟩⟩
  · rw [e] at hr
    cases hr

/-- **C55 (no garbage is left).** If every reference in memory is in the value of a known variable, or in a value that the
program can get at, then every variable of the generation that the program cannot get at is wiped. -/
theorem C55_no_garbage {h : Heap} (m : Memory h) {ext : List Nat} {pick : Nat → Nat} {gen n : Nat} {g : Gc} {r : Res Gc}
    (hgen : gen ≤ 2) (hn : (g.tracked gen).Nodup) (hm : Managed h g (g.tracked gen))
    (hall : ∀ a v, h.cell a = .ptr v → (∃ u, Known h (g.tracked gen) u ∧ Inside h (h.root u) a) ∨
      (∃ u, Live h m ext u ∧ Inside h (h.root u) a) ∨ ∃ x ∈ ext, Inside h x a)
    (hr : collect h pick gen n g = some r) :
    ∃ g', r = .ok g' ∧ ∀ v, v ∈ g.tracked gen → ¬ Live h m ext v → v ∈ g'.wiped := by
  obtain ⟨g', e, hw⟩ := C54_exact m hgen hn hm hr
  refine ⟨g', e, fun v hv hl => (hw v).mpr ⟨hv, fun hre => hl ?_⟩⟩
  clear hv hl
  induction hre with
  | out ho => exact .out ho
  | cell hc hno =>
    rcases hall _ _ hc with ⟨u, hk, hi⟩ | ⟨u, hk, hi⟩ | ⟨x, hx, hi⟩
    · exact absurd hi (hno u hk)
    · exact .step hk ⟨_, hi, hc⟩
    · exact .cell hx hi hc
  | step _ _ hp ih => exact .step ih hp

/-- **C55 (survivors).** The variables that are not wiped go to the next generation, or stay if there is none, and other
generations do not change. -/
theorem C55_survivors {h : Heap} (m : Memory h) {pick : Nat → Nat} {gen n : Nat} {g : Gc} {r : Res Gc} (hgen : gen ≤ 2)
    (hn : (g.tracked gen).Nodup) (hm : Managed h g (g.tracked gen)) (hr : collect h pick gen n g = some r) :
    ∃ g', r = .ok g' ∧
      (∀ v, v ∈ g'.tracked (min (gen + 1) 2) ↔
        (gen < 2 ∧ v ∈ g.tracked (gen + 1)) ∨ (v ∈ g.tracked gen ∧ Reach h m (g.tracked gen) v)) ∧
      (gen < 2 → g'.tracked gen = []) ∧ (∀ j, j ≤ 2 → j ≠ gen → j ≠ gen + 1 → g'.tracked j = g.tracked j) := by
  rcases collect_cases m (pick := pick) (n := n) hgen hn hm with ⟨g', e, c⟩ | ⟨e, _⟩
  · rw [e] at hr
    refine ⟨g', (Option.some.inj hr).symm, ?_, c.young, c.other⟩
    intro v
    by_cases h2 : gen < 2
    · rw [show min (gen + 1) 2 = gen + 1 by omega, c.next h2 v]
      simp [h2]
    · have h2' : gen = 2 := by omega
      rw [show min (gen + 1) 2 = gen by omega, c.oldest h2' v]
      simp [h2]
  · rw [e] at hr
    cases hr

/-- **C55 (every variable stays held once).** A variable that was held by one map of the collector is held by one map
afterwards; so, as long as the program does not empty the pool, the condition of these theorems is kept. -/
theorem C55_held {h : Heap} (m : Memory h) {pick : Nat → Nat} {gen n : Nat} {g : Gc} {r : Res Gc} (hgen : gen ≤ 2)
    (hn : (g.tracked gen).Nodup) (hm : Managed h g (g.tracked gen)) (hr : collect h pick gen n g = some r) :
    ∃ g', r = .ok g' ∧ ∀ v, held g v = 1 → held g' v = 1 := by
  rcases collect_cases m (pick := pick) (n := n) hgen hn hm with ⟨g', e, c⟩ | ⟨e, _⟩
  · rw [e] at hr
    refine ⟨g', (Option.some.inj hr).symm, ?_⟩
    intro v hv
    have h3 : gen = 0 ∨ gen = 1 ∨ gen = 2 := by omega
    unfold held at hv ⊢
    have cp := c.pool v
    have key : ∀ (p q : Prop) [Decidable p] [Decidable q], (p ↔ q) → one p = one q := by
      intro p q _ _ h
      unfold one
      simp only [h]
    by_cases hR : Reach h m (g.tracked gen) v
    · rcases h3 with rfl | rfl | rfl
      · have c0 : one (v ∈ g'.tracked 0) = 0 := by rw [c.young (by omega)]; rfl
        have c1 := c.next (by omega) v
        have c2 := c.other 2 (by omega) (by omega) (by omega)
        have k1 := key (v ∈ g'.tracked 1) (v ∈ g.tracked 1 ∨ v ∈ g.tracked 0) (by rw [c1]; tauto)
        have k2 := key (v ∈ g'.pool) (v ∈ g.pool) (by rw [cp]; tauto)
        rw [c0, k1, k2, c2]
        unfold one at hv ⊢
        split at hv <;> split at hv <;> split at hv <;> split at hv <;> simp_all
      · have c0 : one (v ∈ g'.tracked 1) = 0 := by rw [c.young (by omega)]; rfl
        have c1 := c.next (by omega) v
        have c2 := c.other 0 (by omega) (by omega) (by omega)
        have k1 := key (v ∈ g'.tracked 2) (v ∈ g.tracked 2 ∨ v ∈ g.tracked 1) (by rw [c1]; tauto)
        have k2 := key (v ∈ g'.pool) (v ∈ g.pool) (by rw [cp]; tauto)
        rw [c0, k1, k2, c2]
        unfold one at hv ⊢
        split at hv <;> split at hv <;> split at hv <;> split at hv <;> simp_all
      · have c1 := c.oldest rfl v
        have c2 := c.other 0 (by omega) (by omega) (by omega)
        have c3 := c.other 1 (by omega) (by omega) (by omega)
        have k1 := key (v ∈ g'.tracked 2) (v ∈ g.tracked 2) (by rw [c1]; tauto)
        have k2 := key (v ∈ g'.pool) (v ∈ g.pool) (by rw [cp]; tauto)
        rw [k1, k2, c2, c3]
        exact hv
    · rcases h3 with rfl | rfl | rfl
      · have c0 : one (v ∈ g'.tracked 0) = 0 := by rw [c.young (by omega)]; rfl
        have c1 := c.next (by omega) v
        have c2 := c.other 2 (by omega) (by omega) (by omega)
        have k1 := key (v ∈ g'.tracked 1) (v ∈ g.tracked 1) (by rw [c1]; tauto)
        have k2 := key (v ∈ g'.pool) (v ∈ g.pool ∨ v ∈ g.tracked 0) (by rw [cp]; tauto)
        rw [c0, k1, k2, c2]
        unfold one at hv ⊢
        split at hv <;> split at hv <;> split at hv <;> split at hv <;> simp_all
      · have c0 : one (v ∈ g'.tracked 1) = 0 := by rw [c.young (by omega)]; rfl
        have c1 := c.next (by omega) v
        have c2 := c.other 0 (by omega) (by omega) (by omega)
        have k1 := key (v ∈ g'.tracked 2) (v ∈ g.tracked 2) (by rw [c1]; tauto)
        have k2 := key (v ∈ g'.pool) (v ∈ g.pool ∨ v ∈ g.tracked 1) (by rw [cp]; tauto)
        rw [c0, k1, k2, c2]
        unfold one at hv ⊢
        split at hv <;> split at hv <;> split at hv <;> split at hv <;> simp_all
      · have c1 := c.oldest rfl v
        have c2 := c.other 0 (by omega) (by omega) (by omega)
        have c3 := c.other 1 (by omega) (by omega) (by omega)
        have c0 : one (v ∈ g'.tracked 2) = 0 := one_zero (by rw [c1]; tauto)
        have k2 := key (v ∈ g'.pool) (v ∈ g.pool ∨ v ∈ g.tracked 2) (by rw [cp]; tauto)
        rw [c0, k2, c2, c3]
        unfold one at hv ⊢
        split at hv <;> split at hv <;> split at hv <;> split at hv <;> simp_all
  · rw [e] at hr
    cases hr

/-- **C55 (termination).** If the values of the known variables have finitely many parts then the collection comes to an end,
in whatever order the hash tables hand out their elements. -/
theorem C55_terminates {h : Heap} (m : Memory h) {L : List Nat} {gen : Nat} {g : Gc} (hgen : gen ≤ 2)
    (hn : (g.tracked gen).Nodup) (hm : Managed h g (g.tracked gen))
    (hin : ∀ u a, Known h (g.tracked gen) u → Inside h (h.root u) a → a ∈ L) :
    ∃ N, ∀ n, N ≤ n → ∀ pick, collect h pick gen n g ≠ none := by
  refine ⟨bound h (g.tracked gen) L.dedup, fun n hN pick hnone => ?_⟩
  rcases collect_cases m (pick := pick) (n := n) hgen hn hm with ⟨g', e, _⟩ | ⟨_, hb⟩
  · rw [hnone] at e; cases e
  · have := hb L.dedup (List.nodup_dedup L) (fun u a hu hi => List.mem_dedup.mpr (hin u a hu hi))
    omega

/-! ## Examples, and witnesses that C54 is false of the code -/

/-- Memory with the given cells; other cells are values without parts. -/
def heapOf (cs : List (Nat × Cell)) (root : Var → Nat) (out : Var → Nat) : Heap where
  cell a := (cs.lookup a).getD (.value [])
  root := root
  refs v := ((cs.map Prod.fst).dedup.filter (fun a => (cs.lookup a).getD (.value []) = .ptr v)).length + out v

def memoryOf (cs : List (Nat × Cell)) (root : Var → Nat) (out : Var → Nat) : Memory (heapOf cs root out) where
  cells v := (cs.map Prod.fst).dedup.filter (fun a => (cs.lookup a).getD (.value []) = .ptr v)
  out := out
  nodup v := (List.nodup_dedup _).filter _
  mem v a := by
    simp only [List.mem_filter, List.mem_dedup, decide_eq_true_eq, heapOf]
    constructor
    · exact fun h => h.2
    · intro h
      refine ⟨?_, h⟩
      cases hl : cs.lookup a with
      | none => rw [hl] at h; simp at h
      | some c =>
        have : ∀ (l : List (Nat × Cell)), l.lookup a = some c → a ∈ l.map Prod.fst := by
          intro l
          induction l with
          | nil => simp
          | cons e l ih =>
            obtain ⟨k, x⟩ := e
            rw [List.lookup_cons]
            split
            · rename_i hk
              intro _
              simp at hk
              simp [hk]
            · intro h'
              simp only [List.map_cons, List.mem_cons]
              exact Or.inr (ih h')
        exact this cs hl
  refs v := rfl

/-- A collector that tracks the given variables. -/
def gcOf (t0 t1 t2 : List Var) : Gc where
  gcRef _ := 0
  staged := []
  temp1 := []
  temp2 := []
  unreach := []
  tracked i := if i = 0 then t0 else if i = 1 then t1 else t2
  counts _ := 0
  pool := []
  wiped := []

/-- The variables that a collection wipes. -/
def wipedBy (o : Option (Res Gc)) : Option (List Var) :=
  match o with
  | some (.ok g) => some g.wiped
  | _ => none

/-- A function object: it has captured variables 0 (which holds the function itself) and 1. -/
def demoFunction : List (Nat × Cell) := [(10, .ptr 0), (11, .ptr 1)]

/-- `var f;`, a collection, then `f = make();` where `make` is
`func() { var x = 1;  var self;  self = func() { return self && x;  };  return self;  }`.
Variable 0 is `self`, 1 is `x`, 2 is `f`, which is in the middle generation and is on the stack.  The values of `self` and
`f` share the function object. -/
def demoShared : Heap :=
  heapOf ([(0, .value [10, 11]), (1, .value []), (2, .value [10, 11])] ++ demoFunction) id (fun v => if v = 2 then 1 else 0)

def demoSharedMemory : Memory demoShared :=
  memoryOf _ _ _

theorem known_of_forall {h : Heap} {T : List Var} {P : Var → Prop} (hT : ∀ v ∈ T, P v) (hs : ∀ u v, P u → Points h u v → P v) :
    ∀ v, Known h T v → P v := by
  intro v hv
  induction hv with
  | base h => exact hT _ h
  | step _ hp ih => exact hs _ _ ih hp

/-- A value without parts. -/
theorem inside_leaf {h : Heap} {a b : Nat} (hc : h.cell a = .value [] ∨ ∃ v, h.cell a = .ptr v) (hi : Inside h a b) : b = a := by
  cases hi with
  | refl => rfl
  | kid h1 h2 _ =>
    rcases hc with hc | ⟨v, hc⟩
    · rw [hc] at h1; cases h1; simp at h2
    · rw [hc] at h1; cases h1

/-- **C54 is false of the code.** Variables 0 and 1 are used by a function in variable 2, which is on the stack; each variable
is held once by the collector; and a collection of the youngest generation wipes both. -/
theorem C54_false :
    ∃ (h : Heap) (m : Memory h) (g : Gc), (∀ v, v ≤ 2 → held g v = 1) ∧ Managed h g (g.tracked 0) ∧ (g.tracked 0).Nodup ∧
      Live h m [] 0 ∧ Live h m [] 1 ∧ wipedBy (collect h (fun _ => 0) 0 100 g) = some [0, 1] := by
  refine ⟨demoShared, demoSharedMemory, gcOf [0, 1] [2] [], by decide, ?_, by decide, ?_, ?_, by decide +kernel⟩
  · intro v hv
    have : v = 0 ∨ v = 1 := by
      refine known_of_forall (P := fun v => v = 0 ∨ v = 1) ?_ ?_ v hv
      · intro v hv
        simpa [gcOf] using hv
      · rintro u v (rfl | rfl) ⟨a, hi, hc⟩
        · cases hi with
          | refl => cases hc
          | kid h1 h2 h3 =>
            have : (Cell.value [10, 11]) = .value _ := h1
            cases this
            simp at h2
            rcases h2 with rfl | rfl
            · cases inside_leaf (Or.inr ⟨0, rfl⟩) h3
              have : Cell.ptr 0 = .ptr v := hc
              cases this; exact Or.inl rfl
            · cases inside_leaf (Or.inr ⟨1, rfl⟩) h3
              have : Cell.ptr 1 = .ptr v := hc
              cases this; exact Or.inr rfl
        · have := inside_leaf (Or.inl rfl) hi
          subst this
          cases hc
    rcases this with rfl | rfl <;> decide
  · exact .step (u := 2) (.out (by decide)) ⟨10, .kid (b := 10) (kids := [10, 11]) rfl (by simp) (.refl _), rfl⟩
  · exact .step (u := 2) (.out (by decide)) ⟨11, .kid (b := 11) (kids := [10, 11]) rfl (by simp) (.refl _), rfl⟩

/-- `make()()`: the same function, while it is being called; it is on the stack as a temporary value, cell 5. -/
def demoCall : Heap := heapOf ([(0, .value [10, 11]), (1, .value []), (5, .value [10, 11])] ++ demoFunction) id (fun _ => 0)

def demoCallMemory : Memory demoCall :=
  memoryOf _ _ _

/-- **C54 is false of the code**, also for a function that is being called: its variables are wiped. -/
theorem C54_false_call :
    ∃ (h : Heap) (m : Memory h) (ext : List Nat) (g : Gc), (∀ v, v ≤ 1 → held g v = 1) ∧ (g.tracked 0).Nodup ∧
      Live h m ext 0 ∧ Live h m ext 1 ∧ wipedBy (collect h (fun _ => 0) 0 100 g) = some [0, 1] := by
  refine ⟨demoCall, demoCallMemory, [5], gcOf [0, 1] [] [], by decide, by decide, ?_, ?_, by decide +kernel⟩
  · exact .cell (r := 5) (a := 10) (by simp) (.kid (b := 10) (kids := [10, 11]) rfl (by simp) (.refl _)) rfl
  · exact .cell (r := 5) (a := 11) (by simp) (.kid (b := 11) (kids := [10, 11]) rfl (by simp) (.refl _)) rfl

/-- Variable 0 is not one of the collector's; there is one reference to it outside, and variables 0 and 1 refer to each
other. -/
def demoForeign : Heap :=
  heapOf [(0, .value [10]), (1, .value [11]), (10, .ptr 1), (11, .ptr 0)] id (fun v => if v = 0 then 1 else 0)

def demoForeignMemory : Memory demoForeign :=
  memoryOf _ _ _

/-- **C54 is false of the code**, also for a variable that is reachable only through a foreign variable with a single outside
reference: no value is shared here, but the count of the foreign variable happens to match. -/
theorem C54_false_foreign :
    ∃ (h : Heap) (m : Memory h) (g : Gc), held g 0 = 0 ∧ held g 1 = 1 ∧ (g.tracked 0).Nodup ∧
      Live h m [] 1 ∧ wipedBy (collect h (fun _ => 0) 0 100 g) = some [1] := by
  refine ⟨demoForeign, demoForeignMemory, gcOf [1] [] [], by decide, by decide, by decide, ?_, by decide +kernel⟩
  exact .step (u := 0) (.out (by decide)) ⟨10, .kid (b := 10) (kids := [10]) rfl (by simp) (.refl _), rfl⟩

/-- Variables 0 (old) and 1 (young) refer to each other and nothing else refers to them. -/
def demoCycle : Heap :=
  heapOf [(0, .value [10]), (1, .value [11]), (10, .ptr 1), (11, .ptr 0)] id (fun _ => 0)

/-- The same after variable 1 has been wiped. -/
def demoCycleWiped : Heap := heapOf [(0, .value [10]), (1, .value []), (10, .ptr 1)] id (fun _ => 0)

/-- **An assertion can fail.** `std.gc.collect(0)` wipes variable 1 and empties the pool, so that the collector no longer
holds it; a later collection of the oldest generation meets it through variable 0, and finds more references than there
are. -/
theorem C54_assertion_fails :
    (∀ v, v ≤ 1 → held (gcOf [1] [] [0]) v = 1) ∧
    wipedBy (collect demoCycle (fun _ => 0) 0 100 (gcOf [1] [] [0])) = some [1] ∧
    (∀ pick, (∀ i, pick i = 0) → collect demoCycleWiped pick 2 100 (gcOf [] [] [0]) = some .ub) := by
  refine ⟨by decide, by decide +kernel, ?_⟩
  intro pick hp
  have : pick = fun _ => 0 := funext hp
  subst this
  have h2 : (match collect demoCycleWiped (fun _ => 0) 2 100 (gcOf [] [] [0]) with | some .ub => true | _ => false) = true := by
    decide +kernel
  generalize collect demoCycleWiped (fun _ => 0) 2 100 (gcOf [] [] [0]) = o at h2
  split at h2
  · rfl
  · cases h2

/-- A stack variable 2 refers to 0, which refers to 1; variables 3 and 4 refer to each other: these two are wiped. -/
def demoPlain : Heap :=
  heapOf [(0, .value [10]), (1, .value []), (2, .value [12]), (3, .value [13]), (4, .value [14]),
    (10, .ptr 1), (12, .ptr 0), (13, .ptr 4), (14, .ptr 3)] (fun v => if v ≤ 4 then v else 100) (fun v => if v = 2 then 1 else 0)

def demoPlainMemory : Memory demoPlain := memoryOf _ _ _

theorem demoPlain_points {u v : Nat} (h : Points demoPlain u v) : u ≤ 4 ∧ v ≤ 4 := by
  obtain ⟨a, hi, hc⟩ := h
  have hu : u ≤ 4 := by
    by_contra hu
    have e : demoPlain.root u = 100 := if_neg hu
    rw [e] at hi
    cases inside_leaf (Or.inl rfl) hi
    cases hc
  refine ⟨hu, ?_⟩
  have e : demoPlain.root u = u := if_pos hu
  rw [e] at hi
  have hk : ∀ k w : Nat, demoPlain.cell k = .ptr w → w ≤ 4 → Inside demoPlain k a → v ≤ 4 := by
    intro k w hk hw hi
    have := inside_leaf (Or.inr ⟨w, hk⟩) hi
    subst this
    rw [hk] at hc
    cases hc
    exact hw
  have h5 : u = 0 ∨ u = 1 ∨ u = 2 ∨ u = 3 ∨ u = 4 := by omega
  rcases h5 with rfl | rfl | rfl | rfl | rfl <;> cases hi with
  | refl => cases hc
  | kid h1 h2 h3 =>
    first
      | (have h1' : Cell.value [10] = .value _ := h1
         cases h1'
         simp at h2; subst h2; exact hk 10 1 rfl (by omega) h3)
      | (have h1' : Cell.value [] = .value _ := h1
         cases h1'
         simp at h2)
      | (have h1' : Cell.value [12] = .value _ := h1
         cases h1'
         simp at h2; subst h2; exact hk 12 0 rfl (by omega) h3)
      | (have h1' : Cell.value [13] = .value _ := h1
         cases h1'
         simp at h2; subst h2; exact hk 13 4 rfl (by omega) h3)
      | (have h1' : Cell.value [14] = .value _ := h1
         cases h1'
         simp at h2; subst h2; exact hk 14 3 rfl (by omega) h3)

/-- The conditions of `C54_partial` in a case. -/
example : Managed demoPlain (gcOf [0, 1, 2, 3, 4] [] []) [0, 1, 2, 3, 4] ∧
    Unshared demoPlain demoPlainMemory [] [0, 1, 2, 3, 4] ∧ Live demoPlain demoPlainMemory [] 1 := by
  refine ⟨?_, ?_, ?_⟩
  · intro v hv
    have h4 : v ≤ 4 := by
      refine known_of_forall (P := fun v => v ≤ 4) (by decide) (fun u v _ hp => (demoPlain_points hp).2) v hv
    exact (by decide : ∀ v : Nat, v ≤ 4 → held (gcOf [0, 1, 2, 3, 4] [] []) v = 1) v h4
  · intro u a v _ _ hc
    refine ⟨by simp, fun w _ hi => .base ?_⟩
    have := (demoPlain_points ⟨a, hi, hc⟩).1
    have h5 : w = 0 ∨ w = 1 ∨ w = 2 ∨ w = 3 ∨ w = 4 := by
      generalize (w : Nat) = x at this ⊢
      change (x : Nat) ≤ 4 at this
      revert this; exact (by omega : ∀ x : Nat, x ≤ 4 → x = 0 ∨ x = 1 ∨ x = 2 ∨ x = 3 ∨ x = 4) x
    simpa using h5
  · refine .step (u := 0) (.step (u := 2) (.out (by decide)) ?_) ?_
    · exact ⟨12, .kid (b := 12) (kids := [12]) rfl (by simp) (.refl _), rfl⟩
    · exact ⟨10, .kid (b := 10) (kids := [10]) rfl (by simp) (.refl _), rfl⟩

example : wipedBy (collect demoPlain (fun n => n) 0 100 (gcOf [0, 1, 2, 3, 4] [] [])) = some [3, 4] ∨
    wipedBy (collect demoPlain (fun n => n) 0 100 (gcOf [0, 1, 2, 3, 4] [] [])) = some [4, 3] := by decide +kernel

end Asteria.Gc
