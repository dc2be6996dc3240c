import Verif.Model.Operators

/-!
# Operators with a constant operand
-/

namespace Asteria.Operators

open Subscript (Sub Ref Var readPath copyPath applyRead applyWrite)

/-! ### On values -/

theorem comparePartial_int (v : Value) (i : Int) : v.comparePartial (.int i) = v.compareNumericInt i := by
  unfold Value.comparePartial
  rw [Value.comparePartialLoop]
  cases h : v.compareNumericInt i <;> simp [Value.comparePartialUnwind]

theorem comparePartial_null (v : Value) : v.comparePartial .null = .equal ↔ v = .null := by
  unfold Value.comparePartial
  cases v <;> simp [Value.comparePartialLoop, Value.comparePartialUnwind]

theorem numericTotal_eq (v : Value) (i : Int) : numericTotal v i = v.compareTotal (.int i) := by
  unfold numericTotal Value.compareTotal
  rw [comparePartial_int]

/-- **C48** on values: for every left operand, every integer, and each operator, the form with a constant operand has the same
result, or fails in the same way, as the generic one. -/
theorem C48_values (c : Cfg) (op : Bin) (lhs : Value) (irhs : Int) : binConst c op lhs irhs = bin c op lhs (.int irhs) := by
  cases op
  case cmpEq | cmpNe | cmpUn | cmp3way => unfold binConst bin; simp only [comparePartial_int]
  case cmpLt | cmpGt | cmpLte | cmpGte => unfold binConst bin; simp only [numericTotal_eq]
  all_goals cases lhs <;> rfl

/-! ### On the stack -/

/-- **C48**: for every stack and all variables, the node with a constant operand does what it does to push the constant and
apply the operator; also to variables, if it fails.  (`pos` and `notb` have one operand.) -/
theorem C48_nodes (c : Cfg) (env : Env) (stack : List Ref) (x : Xop) (assign : Bool) (irhs : Int) (hx : x ≠ .pos ∧ x ≠ .notb) :
    execAll c env stack [.opConst x assign irhs] = execAll c env stack [.pushConstant (.int irhs), .op x assign] := by
  have h1 : ∀ n, execAll c env stack [n] = exec c env stack n := by
    intro n
    rw [execAll]
    generalize hr : exec c env stack n = r
    obtain ⟨e, r⟩ := r
    cases r <;> rfl
  have h2 : ∀ v n, execAll c env stack [.pushConstant v, n] = exec c env (.temp v [] :: stack) n := by
    intro v n
    rw [execAll, exec]
    simp only [execAll]
    generalize hr : exec c env (.temp v [] :: stack) n = r
    obtain ⟨e, r⟩ := r
    cases r <;> rfl
  rw [h1, h2]
  cases x with
  | pos => exact absurd rfl hx.1
  | notb => exact absurd rfl hx.2
  | assign => cases stack <;> rfl
  | index => cases stack <;> rfl
  | bin op =>
    cases stack with
    | nil => rfl
    | cons lhs stack =>
      simp only [exec, Ref.readonly, readPath, C48_values]

/-- The environment with one variable, `[10, 20]`. -/
def env1 : Env := fun _ => ⟨some (.arr [.int 10, .int 20]), false⟩

/-- Some arithmetic. -/
def cfg1 : Cfg := ⟨⟨fun i => .fin i, fun a _ => a, fun a _ => a, fun a _ => a, fun a _ => a, fun a _ => a⟩, 1000, 1000⟩

/-- `v[1] += 5`, then reading it, gives 25; `v[1] /= 0` fails. -/
example : (((exec cfg1 env1 [.var 0 [.index 1]] (.opConst (.bin .add) true 5)).1 0).value).map (Subscript.readPath [.index 1]) =
    some (.ok (.int 25)) := by rfl
example : (exec cfg1 env1 [.var 0 [.index 1]] (.opConst (.bin .div) true 0)).2 = .throw := by rfl

/-! ### The choice -/

/-- Two references that cannot be told apart: after any subscripts, they are read, copied, modified and unset alike. -/
def Ref.Same (r r' : Ref) : Prop :=
  let ext (ss : List Sub) : Ref → Ref := fun r => match r with
    | .bad => .bad
    | .temp v subs => .temp v (subs ++ ss)
    | .var v subs => .var v (subs ++ ss)
  ∀ (ss : List Sub) (env : Env), (ext ss r).readonly env = (ext ss r').readonly env ∧
    (ext ss r).copy env = (ext ss r').copy env ∧ (ext ss r).unset env = (ext ss r').unset env ∧
    ∀ lim f, modify lim env f (ext ss r) = modify lim env f (ext ss r')

theorem Ref.Same.refl (r : Ref) : Ref.Same r r := fun _ _ => ⟨rfl, rfl, rfl, fun _ _ => rfl⟩

/-- Outcomes that cannot be told apart. -/
def Agree (a b : Env × Res (List Ref)) : Prop :=
  a.1 = b.1 ∧ match a.2, b.2 with
    | .ok s, .ok t => List.Forall₂ Ref.Same s t
    | .throw, .throw => True
    | .ub, .ub => True
    | _, _ => False

theorem forall₂_refl (s : List Ref) : List.Forall₂ Ref.Same s s := by
  induction s with
  | nil => exact .nil
  | cons r s ih => exact .cons (.refl r) ih

theorem Agree.refl (a : Env × Res (List Ref)) : Agree a a := by
  refine ⟨rfl, ?_⟩
  cases a.2 with
  | ok s => exact forall₂_refl s
  | throw => trivial
  | ub => trivial

theorem Agree.of_eq {a b : Env × Res (List Ref)} (h : a = b) : Agree a b := h ▸ .refl a

theorem readPath_null (ss : List Sub) : readPath ss .null = .ok .null := by
  cases ss with
  | nil => rfl
  | cons s ss => cases s <;> rfl

theorem readPath_append (a b : List Sub) (v : Value) : readPath (a ++ b) v = (readPath a v).bind (readPath b) := by
  induction a generalizing v with
  | nil => rfl
  | cons s a ih =>
    rw [List.cons_append, readPath, readPath]
    cases applyRead s v with
    | throw => rfl
    | ub => rfl
    | ok p =>
      cases p with
      | none => exact (readPath_null b).symm
      | some p =>
        simp only [Res.bind]
        cases Subscript.get v p with
        | none => rfl
        | some x => exact ih x

theorem copyPath_eq (ss : List Sub) (v : Value) : copyPath ss v = readPath ss v := by
  induction ss generalizing v with
  | nil => rfl
  | cons s ss ih =>
    rw [copyPath, readPath]
    have : applyWrite s v = applyRead s v := by cases s <;> rfl
    rw [this]
    congr 1
    funext p
    cases p with
    | none => rfl
    | some p => simp only [ih]

theorem copy_eq (env : Env) (r : Ref) : r.copy env = r.readonly env := by
  cases r with
  | bad => rfl
  | temp v subs => exact copyPath_eq subs v
  | var v subs => rfl

theorem same_of_read {v x : Value} {subs : List Sub} (h : readPath subs v = .ok x) : Ref.Same (.temp v subs) (.temp x []) := by
  intro ss env
  have e : readPath (subs ++ ss) v = readPath ([] ++ ss) x := by rw [readPath_append, h]; rfl
  refine ⟨e, ?_, rfl, fun _ _ => rfl⟩
  change copyPath (subs ++ ss) v = copyPath ([] ++ ss) x
  rw [copyPath_eq, copyPath_eq, e]

theorem execAll_append (c : Cfg) (env : Env) (stack : List Ref) (a b : List Node) : execAll c env stack (a ++ b) =
    (match (execAll c env stack a).2 with
      | .ok s => execAll c (execAll c env stack a).1 s b
      | .throw => ((execAll c env stack a).1, .throw)
      | .ub => ((execAll c env stack a).1, .ub)) := by
  induction a generalizing env stack with
  | nil => rfl
  | cons n a ih =>
    rw [List.cons_append, execAll, execAll]
    generalize exec c env stack n = r
    obtain ⟨e, r⟩ := r
    cases r with
    | ok s => exact ih e s
    | throw => rfl
    | ub => rfl

theorem execAll_one (c : Cfg) (env : Env) (stack : List Ref) (n : Node) : execAll c env stack [n] = exec c env stack n := by
  rw [execAll]
  generalize hr : exec c env stack n = r
  obtain ⟨e, r⟩ := r
  cases r <;> rfl

/-- Replacing the end of some code by what agrees with it. -/
theorem agree_tail (c : Cfg) (a b b' : List Node) (h : ∀ env stack, Agree (execAll c env stack b) (execAll c env stack b'))
    (env : Env) (stack : List Ref) : Agree (execAll c env stack (a ++ b)) (execAll c env stack (a ++ b')) := by
  rw [execAll_append, execAll_append]
  cases (execAll c env stack a).2 with
  | ok s => exact h _ _
  | throw => exact .refl _
  | ub => exact .refl _

/-- A node with a constant leaves a reference that reads as the constant. -/
theorem constant_exec {n : Node} {v : Value} (h : constant n = some v) : ∃ w subs, readPath subs w = .ok v ∧
    ∀ c env stack, exec c env stack n = (env, .ok (.temp w subs :: stack)) := by
  cases n with
  | pushConstant w => cases h; exact ⟨v, [], rfl, fun _ _ _ => rfl⟩
  | pushBound r =>
    cases r with
    | temp w subs =>
      refine ⟨w, subs, ?_, fun _ _ _ => rfl⟩
      rw [constant] at h
      cases hr : readPath subs w with
      | ok x => rw [hr] at h; cases h; rfl
      | throw => rw [hr] at h; cases h
      | ub => rw [hr] at h; cases h
    | bad => cases h
    | var v subs => cases h
  | op x a => cases h
  | opConst x a i => cases h
  | member k => cases h
  | checkNull ne => cases h

theorem two (c : Cfg) (env : Env) (stack : List Ref) {n m : Node} {r : Ref}
    (h : exec c env stack n = (env, .ok (r :: stack))) : execAll c env stack [n, m] = exec c env (r :: stack) m := by
  rw [execAll, h]
  exact execAll_one c env (r :: stack) m

theorem int32_eq {i : Int} (h : isInt32 i = true) : i.bmod (2 ^ 32) = i := by simpa [isInt32] using h

/-- Operators whose results the parser never assigns: comparisons and prefix operators,
/repo/asteria/src/compiler/statement_sequence.cpp:1665-1697 and /repo/asteria/src/compiler/infix_element.cpp. -/
def NotAssigned : Xop → Prop
  | .notb => True
  | .bin .cmpEq => True
  | .bin .cmpNe => True
  | _ => False

/-- **C93**: whatever was generated before, and on whatever level of optimization, the code generated for an operator does the
same as the code without it, followed by the generic operator: the same failures, the same variables, and results that
cannot be told apart. -/
theorem C93_generate (c : Cfg) (level : Nat) (x : Xop) (assign : Bool) (code : List Node) (hx : NotAssigned x → assign = false)
    (env : Env) (stack : List Ref) :
    Agree (execAll c env stack (generate level x assign code)) (execAll c env stack (code ++ [.op x assign])) := by
  unfold generate
  simp only
  by_cases hl : level ≥ 1
  · rw [if_pos hl]
    rcases List.eq_nil_or_concat code with rfl | ⟨code, n, rfl⟩
    · exact .refl _
    · simp only [List.concat_eq_append, List.getLast?_append, List.getLast?_singleton, Option.some_or, Option.bind_some,
        List.dropLast_concat]
      cases hn : constant n with
      | none => exact .refl _
      | some v =>
        obtain ⟨w, subs, hr, hex⟩ := constant_exec hn
        have hrd : ∀ env, Ref.readonly env (.temp w subs) = .ok v := fun _ => hr
        have hcp : ∀ env, Ref.copy env (.temp w subs) = .ok v := fun env => by rw [copy_eq]; exact hr
        -- the generic code
        have gen : ∀ env stack m, execAll c env stack [n, m] = exec c env (.temp w subs :: stack) m :=
          fun env stack m => two c env stack (hex c env stack)
        simp only
        by_cases hp : x = .pos ∧ assign = false
        · rw [if_pos hp]
          obtain ⟨rfl, rfl⟩ := hp
          rw [List.append_assoc]
          refine agree_tail c code [n] ([n] ++ [_]) (fun env stack => ?_) env stack
          rw [execAll_one, hex, List.singleton_append, gen, exec]
          simp only [onTop, Bool.false_eq_true, if_false]
          rw [hcp]
          exact ⟨rfl, .cons (same_of_read hr) (forall₂_refl stack)⟩
        · rw [if_neg hp]
          have tail : ∀ m x' a', (∀ env stack, Agree (exec c env stack m) (exec c env (.temp w subs :: stack) (.op x' a'))) →
              Agree (execAll c env stack (code ++ [m])) (execAll c env stack (code ++ [n] ++ [.op x' a'])) := by
            intro m x' a' h
            rw [List.append_assoc]
            refine agree_tail c code [m] ([n] ++ [_]) (fun env stack => ?_) env stack
            rw [execAll_one, List.singleton_append, gen]
            exact h env stack
          have member : ∀ k a', v = .str k → ∀ env stack, Agree (exec c env stack (.member k))
              (exec c env (.temp w subs :: stack) (.op .index a')) := by
            intro k a' e env stack
            subst e
            cases stack with
            | nil => exact .refl _
            | cons lhs stack => simp only [exec, hcp, Res.bind]; exact .refl _
          have konst : ∀ i x' a', x' ≠ .pos → x' ≠ .notb → v = .int i → isInt32 i = true → ∀ env stack,
              Agree (exec c env stack (.opConst x' a' (i.bmod (2 ^ 32)))) (exec c env (.temp w subs :: stack) (.op x' a')) := by
            intro i x' a' h1 h2 e hi env stack
            subst e
            rw [int32_eq hi]
            refine .of_eq ?_
            cases x' with
            | pos => exact absurd rfl h1
            | notb => exact absurd rfl h2
            | assign =>
              cases stack with
              | nil => rfl
              | cons lhs stack => simp only [exec, hcp]
            | index =>
              cases stack with
              | nil => rfl
              | cons lhs stack => simp only [exec, hcp, Res.bind]
            | bin op =>
              cases stack with
              | nil => rfl
              | cons lhs stack => simp only [exec, hrd, C48_values]
          have null : ∀ ne, v = .null → nullTest x = some ne → ∀ env stack,
              Agree (exec c env stack (.checkNull ne)) (exec c env (.temp w subs :: stack) (.op x assign)) := by
            intro ne e ht env stack
            subst e
            refine .of_eq ?_
            cases stack with
            | nil =>
              cases x with
              | bin op => rfl
              | _ => cases ht
            | cons lhs stack =>
              cases x with
              | bin op =>
                have ha : NotAssigned (.bin op) := by cases op <;> first | trivial | cases ht
                have ha := hx ha
                subst ha
                simp only [exec, hrd, onTop, Bool.false_eq_true, if_false, copy_eq]
                congr 1
                cases hl : Ref.readonly env lhs with
                | throw => rfl
                | ub => rfl
                | ok l =>
                  have hc := comparePartial_null l
                  cases op <;> cases ht <;> cases l <;> simp_all [bin]
              | _ => cases ht
          have notb : ∀ i, v = .int i → x = .notb → ∀ env stack,
              Agree (exec c env stack (.pushConstant (.int (BitVec.ofInt 64 i ^^^ -1).toInt)))
                (exec c env (.temp w subs :: stack) (.op x assign)) := by
            intro i e ht env stack
            subst e ht
            have ha := hx trivial
            subst ha
            refine .of_eq ?_
            simp only [exec, onTop, Bool.false_eq_true, if_false, hcp, Res.bind, Res.map, IntOps.notb]
            have : BitVec.ofInt 64 i ^^^ -1 = ~~~ BitVec.ofInt 64 i := by
              rw [show (-1 : BitVec 64) = BitVec.allOnes 64 from by decide, BitVec.xor_allOnes]
            rw [this]
          cases v with
          | null =>
            cases ht : nullTest x with
            | some ne => exact tail _ _ _ (null ne rfl ht)
            | none =>
              simp only
              cases x <;> exact .refl _
          | str k =>
            cases x with
            | index => exact tail _ _ _ (member k assign rfl)
            | _ => exact .refl _
          | int i =>
            cases x with
            | notb => exact tail _ _ _ (notb i rfl rfl)
            | pos =>
              simp only [ne_eq, not_true, and_false, if_false]
              exact .refl _
            | assign | index | bin op =>
              by_cases hi : isInt32 i = true
              · simp only [hi, true_and, ne_eq, reduceCtorEq, not_false_eq_true, if_true]
                exact tail _ _ _ (konst i _ assign (by simp) (by simp) rfl hi)
              · simp only [hi, false_and, if_false]
                exact .refl _
          | _ => cases x <;> exact .refl _
  · rw [if_neg hl]
    exact .refl _

/-- `v[1] <=> 3`, `v == null`, `v.k`, `~5`, `v + 2147483648`: all these are generated as expected. -/
example : (generate 1 (.bin .cmp3way) false [.pushBound (.var 0 []), .pushConstant (.int 3)] = [.pushBound (.var 0 []),
    .opConst (.bin .cmp3way) false 3]) ∧ (generate 2 (.bin .cmpEq) false [.pushBound (.var 0 []), .pushConstant .null] =
    [.pushBound (.var 0 []), .checkNull false]) ∧ (generate 1 .notb false [.pushConstant (.int 5)] = [.pushConstant (.int (-6))]) ∧
    (generate 1 (.bin .add) false [.pushConstant (.int 2147483648)] = [.pushConstant (.int 2147483648), .op (.bin .add) false]) :=
  ⟨rfl, rfl, rfl, rfl⟩

end Asteria.Operators
