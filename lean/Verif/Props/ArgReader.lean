import Verif.Proof.ArgReader

/-!
# Overload resolution of native functions (C95, C96)
-/

namespace Asteria.ArgReader

open Spec

variable {A : Type}

/-- C95.  Whatever calls a native function makes, in whatever order, overloads are tried, states are saved and loaded,
and variables receive their arguments, as the specification says: a parameter takes the argument in its place, a
parameter after one that does not match is skipped, an overload is accepted if all of its parameters take their
arguments and nothing is left over, and, if there is no such overload, the message lists every one that was tried. -/
theorem C95 (ofInt : Int → Dbl) (deref : A → Res Value) (args : List A) (ops : List Op) (vars : Nat → Out A)
    (hd : ∀ a ∈ args, deref a ≠ .ub) (hb : args.length + ops.length < 2 ^ 32) :
    Runs ofInt deref args ops {} [] [] 0 vars ((run ofInt deref args ops {} 0 vars).map Result.outcome) :=
  run_spec hd ops {} {} [] [] 0 vars rel_default .nil rfl (by simp) (by simpa using hb) (by simp)

theorem HasTy.unique {ofInt : Int → Dbl} {t : Ty} {v w w' : Value} (h : HasTy ofInt t v w) (h' : HasTy ofInt t v w') :
    w = w' := by
  cases h <;> cases h' <;> rfl

theorem hasTy_null {ofInt : Int → Dbl} {t : Ty} {w : Value} (h : HasTy ofInt t .null w) : False := by cases h

theorem Takes.unique {ofInt : Int → Dbl} {deref : A → Res Value} {p : Param} {a : Option A} {o o' : Out A}
    (h : Takes ofInt deref p a o) (h' : Takes ofInt deref p a o') : o = o' := by
  cases h with
  | noReference => cases h'; rfl
  | noValue => cases h'; rfl
  | noArgument => cases h'; rfl
  | reference => cases h'; rfl
  | value a v hv => cases h' with | value _ _ h => rw [hv] at h; injection h with h; rw [h]
  | null a t hv =>
    cases h' with
    | null => rfl
    | optional _ _ v w h1 h2 => rw [hv] at h1; injection h1 with h1; subst h1; exact (hasTy_null h2).elim
  | optional a t v w h1 h2 =>
    cases h' with
    | null _ _ h => rw [h1] at h; injection h with h; subst h; exact (hasTy_null h2).elim
    | optional _ _ v' w' h3 h4 => rw [h1] at h3; injection h3 with h3; subst h3; rw [HasTy.unique h2 h4]
  | required a t v w h1 h2 =>
    cases h' with
    | required _ _ v' w' h3 h4 => rw [h1] at h3; injection h3 with h3; subst h3; rw [HasTy.unique h2 h4]

theorem forall₂_unique {deref : A → Res Value} : ∀ {l : List A} {vs vs' : List Value},
    List.Forall₂ (fun a v => deref a = .ok v) l vs → List.Forall₂ (fun a v => deref a = .ok v) l vs' → vs = vs'
  | _, _, _, .nil, .nil => rfl
  | _, _, _, .cons h1 h2, .cons h3 h4 => by
    rw [h1] at h3; injection h3 with h3; rw [h3, forall₂_unique h2 h4]

theorem forall₂_throw {deref : A → Res Value} {a : A} (ha : deref a = .throw) : ∀ {l : List A} {vs : List Value},
    List.Forall₂ (fun a v => deref a = .ok v) l vs → a ∉ l
  | _, _, .nil => by simp
  | _, _, .cons h1 h2 => by
    simp only [List.mem_cons, not_or]
    exact ⟨fun h => by subst h; rw [ha] at h1; simp at h1, forall₂_throw ha h2⟩

/-- C95.  The specification leaves no choice: there is one outcome. -/
theorem C95_unique (ofInt : Int → Dbl) (deref : A → Res Value) (args : List A) (ops : List Op) (t : Trail)
    (sv : List Trail) (tx : List Bytes) (k : Nat) (vars : Nat → Out A) (r r' : Res (Outcome A))
    (h : Runs ofInt deref args ops t sv tx k vars r) (h' : Runs ofInt deref args ops t sv tx k vars r') : r = r' := by
  induction h with
  | none => cases h'; rfl
  | start ops t sv tx k vars r h ih => cases h' with | start _ _ _ _ _ _ _ h => exact ih h
  | takes x p ops t sv tx k vars r o h1 h2 h3 h4 ih =>
    cases h' with
    | takes _ _ _ _ _ _ _ _ _ o' g1 g2 g3 g4 => rw [Takes.unique g3 h3] at g4; exact ih g4
    | rejects _ _ _ _ _ _ _ _ _ g1 g2 g3 => exact absurd h3 ((g2 h2).1 o)
    | throws _ _ _ _ _ _ _ _ a g1 g2 g3 g4 g5 =>
      rw [g4] at h3
      cases h3 with
      | reference => exact absurd rfl g3
      | value _ _ h => rw [g5] at h; simp at h
      | null _ _ h => rw [g5] at h; simp at h
      | optional _ _ _ _ h => rw [g5] at h; simp at h
      | required _ _ _ _ h => rw [g5] at h; simp at h
    | ended _ _ _ _ _ _ _ _ g => rw [h1] at g; simp at g
  | rejects x p ops t sv tx k vars r h1 h2 h3 ih =>
    cases h' with
    | takes _ _ _ _ _ _ _ _ _ o' g1 g2 g3 g4 => exact absurd g3 ((h2 g2).1 o')
    | rejects _ _ _ _ _ _ _ _ _ g1 g2 g3 => exact ih g3
    | throws _ _ _ _ _ _ _ _ a g1 g2 g3 g4 g5 =>
      obtain ⟨v, hv⟩ := (h2 g2).2 a g4
      rw [g5] at hv; simp at hv
    | ended _ _ _ _ _ _ _ _ g => rw [h1] at g; simp at g
  | throws x p ops t sv tx k vars a h1 h2 h3 h4 h5 =>
    cases h' with
    | takes _ _ _ _ _ _ _ _ _ o' g1 g2 g3 g4 =>
      rw [h4] at g3
      cases g3 with
      | reference => exact absurd rfl h3
      | value _ _ h => rw [h5] at h; simp at h
      | null _ _ h => rw [h5] at h; simp at h
      | optional _ _ _ _ h => rw [h5] at h; simp at h
      | required _ _ _ _ h => rw [h5] at h; simp at h
    | rejects _ _ _ _ _ _ _ _ _ g1 g2 g3 =>
      obtain ⟨v, hv⟩ := (g2 h2).2 a h4
      rw [h5] at hv; simp at hv
    | throws => rfl
    | ended => rfl
  | ended x p ops t sv tx k vars h1 =>
    cases h' with
    | takes _ _ _ _ _ _ _ _ _ _ g1 => rw [h1] at g1; simp at g1
    | rejects _ _ _ _ _ _ _ _ _ g1 => rw [h1] at g1; simp at g1
    | throws => rfl
    | ended => rfl
  | save i ops t sv tx k vars r sv' h1 h2 h3 h4 h5 ih =>
    cases h' with
    | save _ _ _ _ _ _ _ _ sw g1 g2 g3 g4 g5 =>
      have : sw = sv' := by
        apply List.ext_getElem?
        intro j
        by_cases hj : j = i
        · subst hj; rw [h2, g2]
        · by_cases hl : j < sv.length
          · rw [h3 j hj hl, g3 j hj hl]
          · by_cases hl' : j < sv'.length
            · rw [h4 j hj (by omega) hl', g4 j hj (by omega) (by omega)]
            · rw [List.getElem?_eq_none (by omega), List.getElem?_eq_none (by omega)]
      subst this
      exact ih g5
  | load i ops t sv tx k vars r t' h1 h2 ih =>
    cases h' with
    | load _ _ _ _ _ _ _ _ u g1 g2 => rw [h1] at g1; injection g1 with g1; subst g1; exact ih g2
    | unsaved _ _ _ _ _ _ _ g => rw [List.getElem?_eq_none g] at h1; simp at h1
  | unsaved i ops t sv tx k vars h1 =>
    cases h' with
    | load _ _ _ _ _ _ _ _ u g1 g2 => rw [List.getElem?_eq_none h1] at g1; simp at g1
    | unsaved => rfl
  | accept e ops t sv tx k vars vargs h1 h2 h3 h4 =>
    cases h' with
    | accept _ _ _ _ _ _ _ vargs' g1 g2 g3 g4 =>
      cases h4 with
      | fixed => cases g4; rfl
      | references => cases g4; rfl
      | values _ vs h => cases g4 with | values _ vs' h' => rw [forall₂_unique h h']
    | acceptThrows _ _ _ _ _ _ a g1 g2 g3 g4 g5 =>
      cases h4 with
      | values _ vs h => exact absurd g4 (forall₂_throw g5 h)
    | reject _ _ _ _ _ _ _ _ g1 g2 => exact absurd ⟨h2, h3⟩ g2
    | endedTwice _ _ _ _ _ _ _ g => rw [h1] at g; simp at g
  | acceptThrows ops t sv tx k vars a h1 h2 h3 h4 h5 =>
    cases h' with
    | accept _ _ _ _ _ _ _ vargs' g1 g2 g3 g4 =>
      cases g4 with
      | values _ vs h => exact absurd h4 (forall₂_throw h5 h)
    | acceptThrows => rfl
    | reject _ _ _ _ _ _ _ _ g1 g2 => exact absurd ⟨h2, h3⟩ g2
    | endedTwice _ _ _ _ _ _ _ g => rfl
  | reject e ops t sv tx k vars r h1 h2 h3 ih =>
    cases h' with
    | accept _ _ _ _ _ _ _ vargs' g1 g2 g3 g4 => exact absurd ⟨g2, g3⟩ h2
    | acceptThrows _ _ _ _ _ _ a g1 g2 g3 g4 g5 => exact absurd ⟨g2, g3⟩ h2
    | reject _ _ _ _ _ _ _ _ g1 g2 g3 => exact ih g3
    | endedTwice _ _ _ _ _ _ _ g => rw [h1] at g; simp at g
  | endedTwice e ops t sv tx k vars h1 =>
    cases h' with
    | accept _ _ _ _ _ _ _ vargs' g1 => rw [h1] at g1; simp at g1
    | acceptThrows => rfl
    | reject _ _ _ _ _ _ _ _ g1 => rw [h1] at g1; simp at g1
    | endedTwice => rfl

/-- A function that tries its overloads one after another; the variables are numbered. -/
def program (ovs : List (List (Nat × Param) × Ending)) : List Op :=
  ovs.flatMap fun o => .start :: (o.1.map (fun q => .read q.1 q.2) ++ [.fin o.2])

theorem runs_reads {ofInt : Int → Dbl} {deref : A → Res Value} {args : List A} (hd : ∀ a ∈ args, ∃ v, deref a = .ok v)
    {rest : List Op} {sv : List Trail} {tx : List Bytes} {k : Nat} {r : Res (Outcome A)} :
    ∀ (ps : List (Nat × Param)) (t : Trail) (vars : Nat → Out A), t.ended = false →
    Runs ofInt deref args (ps.map (fun q => .read q.1 q.2) ++ rest) t sv tx k vars r →
    ∃ vars', Runs ofInt deref args rest { t with ps := t.ps ++ ps.map Prod.snd } sv tx k vars' r ∧
      (∀ x, x ∉ ps.map Prod.fst → vars' x = vars x) ∧
      (t.live = true → Fits ofInt deref args (t.ps ++ ps.map Prod.snd) → (ps.map Prod.fst).Nodup →
        ∀ (i : Nat) x p, ps[i]? = some (x, p) → Takes ofInt deref p args[t.ps.length + i]? (vars' x))
  | [], t, vars, _, h => by
    refine ⟨vars, by simpa using h, fun _ _ => rfl, ?_⟩
    intro _ _ _ i x p hp; simp at hp
  | (x, p) :: ps, t, vars, he, h => by
    simp only [List.map_cons, List.cons_append] at h
    have key : ∀ o, (t.live = true → Fits ofInt deref args (t.ps ++ (p :: ps.map Prod.snd)) →
        Takes ofInt deref p args[t.ps.length]? o) →
        Runs ofInt deref args (ps.map (fun q => Op.read q.1 q.2) ++ rest) { t with ps := t.ps ++ [p] } sv tx k
          (Function.update vars x o) r →
        ∃ vars', Runs ofInt deref args rest { t with ps := t.ps ++ ((x, p) :: ps).map Prod.snd } sv tx k vars' r ∧
          (∀ y, y ∉ ((x, p) :: ps).map Prod.fst → vars' y = vars y) ∧
          (t.live = true → Fits ofInt deref args (t.ps ++ ((x, p) :: ps).map Prod.snd) →
            (((x, p) :: ps).map Prod.fst).Nodup →
            ∀ (i : Nat) y q, ((x, p) :: ps)[i]? = some (y, q) →
              Takes ofInt deref q args[t.ps.length + i]? (vars' y)) := by
      intro o ho hrun
      obtain ⟨vars', h1, h2, h3⟩ := runs_reads hd ps { t with ps := t.ps ++ [p] } _ he hrun
      refine ⟨vars', by simpa using h1, ?_, ?_⟩
      · intro y hy
        simp only [List.map_cons, List.mem_cons, not_or] at hy
        rw [h2 y hy.2, Function.update_of_ne hy.1]
      · intro hl hf hn i y q hi
        simp only [List.map_cons, List.nodup_cons] at hn
        cases i with
        | zero =>
          simp at hi
          obtain ⟨rfl, rfl⟩ := hi
          rw [h2 _ hn.1, Function.update_self]
          exact ho hl hf
        | succ i =>
          have := h3 hl (by simpa using hf) hn.2 i y q (by simpa using hi)
          simp only [List.length_append, List.length_cons, List.length_nil] at this
          rw [show t.ps.length + (i + 1) = t.ps.length + (0 + 1) + i by omega]
          exact this
    cases h with
    | takes _ _ _ _ _ _ _ _ _ o g1 g2 g3 g4 => exact key o (fun _ _ => g3) g4
    | rejects _ _ _ _ _ _ _ _ _ g1 g2 g3 =>
      refine key .empty (fun hl hf => ?_) g3
      have hv : t.Viable ofInt deref args := by
        refine ⟨hl, fun i q hq => hf i q ?_⟩
        rw [List.getElem?_append_left (List.getElem?_eq_some_iff.mp hq).1]; exact hq
      obtain ⟨o, ho⟩ := hf t.ps.length p (by simp)
      exact absurd ho ((g2 hv).1 o)
    | throws _ _ _ _ _ _ _ _ a g1 g2 g3 g4 g5 =>
      obtain ⟨v, hv⟩ := hd a (List.mem_of_getElem? g4)
      rw [g5] at hv; simp at hv
    | ended _ _ _ _ _ _ _ _ g => rw [he] at g; simp at g

theorem runs_program {ofInt : Int → Dbl} {deref : A → Res Value} {args : List A} (hd : ∀ a ∈ args, ∃ v, deref a = .ok v) :
    ∀ (ovs : List (List (Nat × Param) × Ending)) (t : Trail) (sv : List Trail) (tx : List Bytes) (k : Nat)
      (vars : Nat → Out A) (r : Res (Outcome A)),
    Runs ofInt deref args (program ovs) t sv tx k vars r →
    (∃ j ps e vars' vargs, r = .ok (.accept (k + j) vars' vargs) ∧ ovs[j]? = some (ps, e) ∧
      Accepts ofInt deref args (ps.map Prod.snd) e ∧
      (∀ i < j, ∀ q, ovs[i]? = some q → ¬ Accepts ofInt deref args (q.1.map Prod.snd) q.2) ∧
      ((ps.map Prod.fst).Nodup → ∀ (i : Nat) x p, ps[i]? = some (x, p) → Takes ofInt deref p args[i]? (vars' x)) ∧
      Vargs deref e (args.drop ps.length) vargs) ∨
    (r = .ok (.noMatch (tx ++ ovs.map fun q => text (q.1.map Prod.snd) q.2)) ∧
      ∀ q ∈ ovs, ¬ Accepts ofInt deref args (q.1.map Prod.snd) q.2)
  | [], t, sv, tx, k, vars, r, h => by
    cases h
    exact .inr ⟨by simp, by simp⟩
  | (ps, e) :: ovs, t, sv, tx, k, vars, r, h => by
    simp only [program, List.flatMap_cons, List.cons_append, List.append_assoc] at h
    cases h with
    | start _ _ _ _ _ _ _ h =>
      obtain ⟨vars', h1, h2, h3⟩ := runs_reads hd ps _ vars rfl h
      simp only [List.nil_append] at h1 h3
      cases h1 with
      | accept _ _ _ _ _ _ _ vargs g1 g2 g3 g4 =>
        left
        refine ⟨0, ps, e, vars', vargs, rfl, rfl, g3, by simp, ?_, by simpa using g4⟩
        intro hn i x p hp
        simpa using h3 trivial g3.1 hn i x p hp
      | acceptThrows _ _ _ _ _ _ a g1 g2 g3 g4 g5 =>
        obtain ⟨v, hv⟩ := hd a (List.mem_of_mem_drop g4)
        rw [g5] at hv; simp at hv
      | reject _ _ _ _ _ _ _ _ g1 g2 g3 =>
        have hno : ¬ Accepts ofInt deref args (ps.map Prod.snd) e := fun h => g2 ⟨rfl, h⟩
        rcases runs_program hd ovs _ sv _ _ _ r g3 with ⟨j, ps', e', v', va, r1, r2, r3, r4, r5, r6⟩ | ⟨r1, r2⟩
        · left
          refine ⟨j + 1, ps', e', v', va, by rw [r1]; congr 2; omega, by simpa using r2, r3, ?_, r5, r6⟩
          intro i hi q hq
          cases i with
          | zero => simp at hq; subst hq; exact hno
          | succ i => exact r4 i (by omega) q (by simpa using hq)
        · right
          refine ⟨by rw [r1]; simp, ?_⟩
          intro q hq
          rw [List.mem_cons] at hq
          rcases hq with rfl | hq
          · exact hno
          · exact r2 q hq
      | endedTwice _ _ _ _ _ _ _ g => simp at g

/-- C96.  A native function that tries overloads one after another takes the first that accepts the arguments, with
every variable receiving the argument in its place; if there is none, the message lists all of them in order. -/
theorem C96 (ofInt : Int → Dbl) (deref : A → Res Value) (args : List A) (ovs : List (List (Nat × Param) × Ending))
    (vars : Nat → Out A) (hd : ∀ a ∈ args, ∃ v, deref a = .ok v)
    (hb : args.length + (program ovs).length < 2 ^ 32) :
    (∃ k ps e vars' vargs, run ofInt deref args (program ovs) {} 0 vars = .ok (.accept k vars' vargs) ∧
      ovs[k]? = some (ps, e) ∧ Accepts ofInt deref args (ps.map Prod.snd) e ∧
      (∀ i < k, ∀ q, ovs[i]? = some q → ¬ Accepts ofInt deref args (q.1.map Prod.snd) q.2) ∧
      ((ps.map Prod.fst).Nodup → ∀ (i : Nat) x p, ps[i]? = some (x, p) → Takes ofInt deref p args[i]? (vars' x)) ∧
      Vargs deref e (args.drop ps.length) vargs) ∨
    (∃ ov, run ofInt deref args (program ovs) {} 0 vars = .ok (.noMatch ov) ∧
      signatures ov = ovs.map (fun q => text (q.1.map Prod.snd) q.2) ∧
      ∀ q ∈ ovs, ¬ Accepts ofInt deref args (q.1.map Prod.snd) q.2) := by
  have h := C95 ofInt deref args (program ovs) vars
    (fun a ha h => by obtain ⟨v, hv⟩ := hd a ha; rw [h] at hv; simp at hv) hb
  rcases runs_program hd ovs _ _ _ _ _ _ h with ⟨j, ps, e, v', va, r1, r2⟩ | ⟨r1, r2⟩
  · left
    cases hr : run ofInt deref args (program ovs) {} 0 vars with
    | throw => rw [hr] at r1; simp at r1
    | ub => rw [hr] at r1; simp at r1
    | ok o =>
      rw [hr] at r1
      cases o with
      | noMatch ov => simp [Result.outcome] at r1
      | accept k v va' =>
        simp only [Res.map, Result.outcome, Nat.zero_add, Res.ok.injEq, Outcome.accept.injEq] at r1
        obtain ⟨rfl, rfl, rfl⟩ := r1
        exact ⟨_, ps, e, _, _, rfl, r2⟩
  · right
    cases hr : run ofInt deref args (program ovs) {} 0 vars with
    | throw => rw [hr] at r1; simp at r1
    | ub => rw [hr] at r1; simp at r1
    | ok o =>
      rw [hr] at r1
      cases o with
      | noMatch ov =>
        simp only [Res.map, Result.outcome, List.nil_append, Res.ok.injEq, Outcome.noMatch.injEq] at r1
        exact ⟨ov, rfl, r1, r2⟩
      | accept k v va' => simp [Result.outcome] at r1

/-! ## Cases -/

/-- `std.array.replace_slice`, /repo/asteria/src/library/array.cpp:686-704, given an array, an integer, an integer and an
array: the first overload does not match and the second does, with the prefix from the saved state. -/
example : ∃ vars, run (A := Value) (fun _ => .nan) .ok [.arr [], .int 1, .int 2, .arr [.null]]
    [.start, .read 0 (.req .array), .read 1 (.req .integer), .save 0, .read 4 (.req .array), .read 5 (.opt .integer),
      .read 6 (.opt .integer), .fin .fixed, .load 0, .read 3 (.opt .integer), .read 4 (.req .array),
      .read 5 (.opt .integer), .read 6 (.opt .integer), .fin .fixed] {} 0 (fun _ => .empty)
    = .ok (.accept 1 vars []) ∧ vars 3 = .value (.int 2) ∧ vars 4 = .value (.arr [.null]) ∧ vars 5 = .empty :=
  ⟨_, rfl, rfl, rfl, rfl⟩

/-- An argument which cannot be read is of no consequence to an overload that has failed before. -/
example : run (A := Option Value) (fun _ => .nan) (fun | some v => .ok v | none => .throw) [some (.int 1), none]
    [.start, .read 0 (.req .string), .read 1 (.opt .integer), .fin .fixed] {} 0 (fun _ => .empty)
    = .ok (.noMatch (text [.req .string, .opt .integer] .fixed ++ [124])) := rfl

/-- The hypotheses of `C96` are met by two overloads and two arguments, and it is the second that is taken. -/
example : ∃ vars vargs, run (A := Value) (fun _ => .nan) .ok [.int 1, .str [97]]
    (program [([(0, .req .integer)], .fixed), ([(0, .req .real)], .values)]) {} 0 (fun _ => .empty)
    = .ok (.accept 1 vars vargs) ∧ vars 0 = .value (.real .nan) ∧ vargs = [.value (.str [97])] :=
  ⟨_, _, rfl, rfl, rfl⟩

end Asteria.ArgReader
