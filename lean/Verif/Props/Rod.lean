import Verif.Proof.RefStack

/-!
# C107: nodes in memory; C108: the reference stack
-/

namespace Asteria.Avm

variable {R X L : Type} [DecidableEq R] [DecidableEq X]

/-- Whatever is done to some rods, no cell is read that does not have what is expected there, and metadata are neither
deleted twice nor used after that.  The rods are the lists of the nodes that have been pushed without an exception: destructors
have been called once for each node that is gone, in order; `execute` runs the nodes in order; `collect_variables` visits
them in order. -/
theorem C107_lists (dbg : Bool) (os : List (Op R X L)) : ∃ s bs, run dbg (State.init R X L) os = .ok (s, bs) ∧
    bs.length = os.length ∧
    let w := (os.zip bs).foldl Spec.World.apply (Spec.World.init R X L)
    s.log = w.log ∧
    (∀ {C E : Type} (mc : Machine X L C E) (r : R) (c : C), execute mc s r c = .ok (Spec.execute mc (w.rods r) (mc.start c))) ∧
    ∀ r, collect s r = .ok (Spec.visits (w.rods r)) := by
  obtain ⟨s, bs, h1, h2, P, hI, hn, hl⟩ := run_agree (R := R) (X := X) (L := L) dbg os (agree_init R X L)
  refine ⟨s, bs, h1, h2, hl, fun mc r c => ?_, fun r => ?_⟩
  · have hrep := hI.rep r
    obtain ⟨B, hB⟩ := hrep.cells
    unfold execute
    dsimp only
    rw [walk_rod hrep (hI.ok r), ← hn r]
    exact exec_loop mc s (P r) [] _ hB (hI.ok r)
  · have hrep := hI.rep r
    obtain ⟨B, hB⟩ := hrep.cells
    unfold collect
    dsimp only
    rw [walk_rod hrep (hI.ok r), ← hn r]
    exact coll_loop s (P r) [] _ hB (hI.ok r)

/-- When no rod has a node, no metadata are left on the heap. -/
theorem C107_no_leak (dbg : Bool) (os : List (Op R X L)) {s : State R X L} {bs : List Bool}
    (h : run dbg (State.init R X L) os = .ok (s, bs))
    (he : ∀ r, ((os.zip bs).foldl Spec.World.apply (Spec.World.init R X L)).rods r = []) (m : Nat) : s.metas m = none := by
  obtain ⟨s', bs', h1, _, P, hI, hn, _⟩ := run_agree (R := R) (X := X) (L := L) dbg os (agree_init R X L)
  rw [h] at h1
  cases h1
  by_contra hc
  obtain ⟨r, hr⟩ := hI.live m hc
  have h0 : P r = [] := by
    have := (hn r).trans (he r)
    exact List.map_eq_nil_iff.mp this
  rw [h0] at hr
  cases hr

/-- Nothing but `push_function` throws.  It does, if and only if the object is larger than 4079 bytes, the system has no
memory for metadata that are needed, the constructor throws, or there is not enough room and the system has no memory or
too much of it is required.  A cell is 16 bytes. -/
theorem C107_throws (dbg : Bool) (os : List (Op R X L)) {s : State R X L} {bs : List Bool}
    (h : run dbg (State.init R X L) os = .ok (s, bs)) (o : Op R X L) : ∃ s' b, apply dbg s o = .ok (s', b) ∧
    (b = true ↔ ∃ r a k, o = .push r a k ∧ (4079 < a.size ∨
      ((a.ctor ≠ none ∨ a.dtor ≠ none ∨ a.coll ≠ none ∨ a.sloc ≠ none) ∧ (k.info = false ∨ s.metas k.addr ≠ none)) ∨
      a.ctor = some none ∨
      ((dbg = true ∨ (s.rod r).estor < (s.rod r).einit + (1 + (a.size + 15) / 16)) ∧
        (k.nodes = false ∨ 0x7FFE0000 / 16 ≤ if dbg then (s.rod r).einit + (1 + (a.size + 15) / 16) else
          (s.rod r).einit * 2 + (1 + (a.size + 15) / 16) + 5)))) := by
  obtain ⟨s', bs', h1, _, hA⟩ := run_agree (R := R) (X := X) (L := L) dbg os (agree_init R X L)
  rw [h] at h1
  cases h1
  have hA' := hA
  obtain ⟨P, hI, _, _⟩ := hA
  cases o with
  | push r a k =>
    obtain ⟨s', b, g1, _, _, g2⟩ := push_inv hI dbg r a k
    refine ⟨s', b, g1, ?_⟩
    have hm : a.needsMeta = true ↔ (a.ctor ≠ none ∨ a.dtor ≠ none ∨ a.coll ≠ none ∨ a.sloc ≠ none) := by
      simp [Arg.needsMeta, Option.isSome_iff_ne_none, or_assoc]
    rw [← not_iff_not, Bool.not_eq_true, g2]
    constructor
    · rintro ⟨c1, c2, c3, c4⟩ ⟨r', a', k', e, hc⟩
      cases e
      rcases hc with hc | ⟨hc, hc'⟩ | hc | ⟨hc, hc'⟩
      · omega
      · obtain ⟨d1, d2⟩ := c2 (hm.mpr hc)
        rcases hc' with hc' | hc'
        · rw [d1] at hc'; cases hc'
        · exact hc' d2
      · exact c3 hc
      · rcases c4 with ⟨d1, d2⟩ | ⟨d1, d2⟩
        · rcases hc with hc | hc
          · rw [d1] at hc; cases hc
          · omega
        · rcases hc' with hc' | hc'
          · rw [d1] at hc'; cases hc'
          · omega
    · intro hc
      refine ⟨?_, ?_, ?_, ?_⟩
      · by_contra hx
        exact hc ⟨r, a, k, rfl, .inl (by omega)⟩
      · intro hn
        constructor
        · by_contra hx
          exact hc ⟨r, a, k, rfl, .inr (.inl ⟨hm.mp hn, .inl (by simpa using hx)⟩)⟩
        · by_contra hx
          exact hc ⟨r, a, k, rfl, .inr (.inl ⟨hm.mp hn, .inr hx⟩)⟩
      · intro hx
        exact hc ⟨r, a, k, rfl, .inr (.inr (.inl hx))⟩
      · by_contra hx
        rw [not_or, not_and, not_and] at hx
        refine hc ⟨r, a, k, rfl, .inr (.inr (.inr ⟨?_, ?_⟩))⟩
        · cases dbg with
          | true => exact .inl rfl
          | false => exact .inr (by have := hx.1 rfl; omega)
        · cases hk : k.nodes with
          | false => exact .inl rfl
          | true => exact .inr (by have := hx.2 hk; omega)
  | clear r =>
    obtain ⟨s', g1, _⟩ := clear_inv hI r
    exact ⟨s', false, by simp [apply, g1, Res.bind], ⟨nofun, fun ⟨_, _, _, e, _⟩ => (nomatch e)⟩⟩
  | destroy r =>
    obtain ⟨s', g1, _⟩ := destroy_inv hI r
    exact ⟨s', false, by simp [apply, g1, Res.bind], ⟨nofun, fun ⟨_, _, _, e, _⟩ => (nomatch e)⟩⟩
  | swap r r' => exact ⟨_, false, rfl, ⟨nofun, fun ⟨_, _, _, e, _⟩ => (nomatch e)⟩⟩

/-! A rod of three nodes: a bare one, one with an object of 40 bytes, one whose constructor throws; then it is moved to
another rod, which is cleared. -/

def demoA : Arg Nat Nat := ⟨1, ⟨0, 0, [7, 7]⟩, 0, none, none, none, none⟩
def demoB : Arg Nat Nat := ⟨2, ⟨9, 9, [8]⟩, 40, some (some 5), some 3, none, some 77⟩
def demoC : Arg Nat Nat := ⟨4, ⟨9, 9, [8]⟩, 100, some none, some 3, none, none⟩

def demoOps : List (Op Bool Nat Nat) :=
  [.push true demoA ⟨true, 50, true⟩, .push true demoB ⟨true, 50, true⟩, .push true demoC ⟨true, 51, true⟩, .swap true false]

example : (match run true (State.init Bool Nat Nat) demoOps with
    | .ok (s, bs) => bs == [false, false, true, false] && (s.rod false).einit == 5 && (s.rod true).einit == 0 &&
      s.log.length == 0 && (s.metas 50).isSome && (s.metas 51).isNone
    | _ => false) = true := by decide +kernel

example : (match run true (State.init Bool Nat Nat) (demoOps ++ [.clear false]) with
    | .ok (s, _) => s.log == [⟨3, [8], some (.made 5)⟩] && (s.metas 50).isNone
    | _ => false) = true := by decide +kernel

/-- The rods are all empty after that, as `C107_no_leak` asks for. -/
example (r : Bool) : (((demoOps ++ [Op.clear false]).zip [false, false, true, false, false]).foldl Spec.World.apply
    (Spec.World.init Bool Nat Nat)).rods r = [] := by
  cases r <;> rfl

/-! ### The stack -/

variable {V : Type}

/-- Operations that may be called do not fail: they end, with or without an exception. -/
theorem C108_safe {dbg : Bool} {sz : Nat} (hsz : 2 ≤ sz) {s : Stack V} {l : List V} (h : Spec.Reach dbg sz s l) {o : StackOp V}
    (hl : Spec.legal l o) : ∃ s' b, s.apply dbg sz o = .ok (s', b) := by
  obtain ⟨s', b, g, _⟩ := stack_apply (reach_rep hsz h) hsz dbg hl
  exact ⟨s', b, g⟩

/-- `top` counts from the last one pushed, and `bottom` from the first; `size` is how many there are. -/
theorem C108_contents {dbg : Bool} {sz : Nat} (hsz : 2 ≤ sz) {s : Stack V} {l : List V} (h : Spec.Reach dbg sz s l) :
    s.size = l.length ∧ (∀ i (hi : i < l.length), s.top i = .ok l[i]) ∧
      ∀ i (hi : i < l.length), s.bottom i = .ok l[l.length - 1 - i] := by
  have hr := reach_rep hsz h
  refine ⟨hr.size, fun i hi => stack_top hr (by simp [hi]), fun i hi => stack_bottom hr ?_⟩
  rw [List.getElem?_reverse hi]
  simp

/-- Only `push` throws: if and only if it has to get memory, and there is none or too much is required. -/
theorem C108_throws {dbg : Bool} {sz : Nat} (hsz : 2 ≤ sz) {s : Stack V} {l : List V} (h : Spec.Reach dbg sz s l) {o : StackOp V}
    {s' : Stack V} (e : s.apply dbg sz o = .ok (s', true)) : s' = s ∧ ∃ v good, o = .push v good ∧
      (dbg = true ∨ s.estor ≤ l.length) ∧ (good = false ∨ 0x7FFE0000 / sz ≤ if dbg then l.length + 1 else l.length * 2 ||| 17) := by
  have hr := reach_rep hsz h
  have aux : ∀ x : Res (Stack V), (x.bind fun s => Res.ok (s, false)) ≠ Res.ok (s', true) := by
    intro x hx
    cases x <;> cases hx
  cases o with
  | push v good =>
    have := stack_push hr hsz dbg v good
    by_cases hc : (dbg = false ∧ l.length < s.estor) ∨
        good = true ∧ (if dbg then l.length + 1 else l.length * 2 ||| 17) < 0x7FFE0000 / sz
    · rw [if_pos hc] at this
      obtain ⟨s1, g1, _⟩ := this
      simp [Stack.apply, g1] at e
    · rw [if_neg hc] at this
      simp only [Stack.apply, this, Res.ok.injEq, Prod.mk.injEq, and_true] at e
      refine ⟨e.symm, v, good, rfl, ?_, ?_⟩
      · cases dbg with
        | true => exact .inl rfl
        | false =>
          refine .inr ?_
          by_contra hx
          exact hc (.inl ⟨rfl, by omega⟩)
      · cases good with
        | false => exact .inl rfl
        | true =>
          refine .inr ?_
          by_contra hx
          exact hc (.inr ⟨rfl, by omega⟩)
  | pop n => exact absurd e (aux _)
  | clear => exact absurd e (aux _)
  | destroy => exact absurd e (aux _)
  | setTop i v => exact absurd e (aux _)

/-- Two references are pushed, the lower one is replaced. -/
example : ∃ s : Stack Nat, Spec.Reach false 48 s [6, 9] ∧ s.size = 2 := by
  have hsz : 2 ≤ 48 := by omega
  obtain ⟨s1, b1, h1, _⟩ := stack_apply (o := .push 5 true) (reach_rep hsz (.new (V := Nat) (dbg := false))) hsz false trivial
  have e1 : b1 = false := by
    have : (match (Stack.new Nat).apply false 48 (.push 5 true) with | .ok (_, b) => !b | _ => false) = true := by decide +kernel
    rw [h1] at this
    simpa using this
  subst e1
  have r1 := Spec.Reach.step (.new (V := Nat) (dbg := false) (sz := 48)) (o := .push 5 true) trivial h1
  obtain ⟨s2, b2, h2, _⟩ := stack_apply (o := .push 6 true) (reach_rep hsz r1) hsz false trivial
  have e2 : b2 = false := by
    have : (match (Stack.new Nat).apply false 48 (.push 5 true) with
      | .ok (s, _) => (match s.apply false 48 (.push 6 true) with | .ok (_, b) => !b | _ => false)
      | _ => false) = true := by decide +kernel
    rw [h1] at this
    dsimp only at this
    rw [h2] at this
    simpa using this
  subst e2
  have r2 := Spec.Reach.step r1 (o := .push 6 true) trivial h2
  obtain ⟨s3, h3, g3⟩ := stack_setTop (reach_rep hsz r2) (i := 1) (show 1 < 2 by omega) 9
  refine ⟨s3, Spec.Reach.step r2 (o := .setTop 1 9) (b := false) (show 1 < 2 by omega) ?_, g3.size⟩
  · show (s2.setTop 1 9).bind _ = _
    rw [h3]; rfl

end Asteria.Avm
