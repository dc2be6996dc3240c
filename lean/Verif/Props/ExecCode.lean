import Verif.Model.ExecCode
import Verif.Props.ExecFlow
import Verif.Props.ExecDefer

/-!
# C49: code after a terminator; C72: collection of variables from code
-/

namespace Asteria.Exec

variable {P : Type}

/-! ## C49 -/

theorem endsInTerminator_cons (n m : Node P) (ns : List (Node P)) :
    endsInTerminator (n :: m :: ns) = endsInTerminator (m :: ns) := by
  simp only [endsInTerminator]

theorem endsInTerminator_eq (code : List (Node P)) :
    endsInTerminator code = match code.getLast? with | some n => isTerminator n | none => false := by
  induction code with
  | nil => simp [endsInTerminator]
  | cons n ns ih =>
    cases ns with
    | nil => simp [endsInTerminator]
    | cons m ns => rw [endsInTerminator_cons, ih]; simp [List.getLast?_cons_cons]

/-- The pieces that do not end normally. -/
def Stops : Task P → Bool
  | .node n => isTerminator n
  | .seq c => endsInTerminator c
  | .rod c => endsInTerminator c
  | .within _ t => Stops t
  | .sub _ c => endsInTerminator c
  | .tailOrCall ptc _ => ptc ≠ .none
  | _ => false

theorem stops_exec (sem : Sem P) (n : Nat) (t : Task P) (ht : Stops t = true) (st st' : State P)
    (h : exec sem n t st = some (.ok st')) : st'.status ≠ .next := by
  induction n generalizing t st st' with
  | zero => simp [exec] at h
  | succ n ih =>
    simp only [exec] at h
    cases t with
    | rod c =>
      simp only [step] at h
      exact ih (.seq c) ht _ _ h
    | seq c =>
      cases c with
      | nil => simp [Stops, endsInTerminator] at ht
      | cons m ms =>
        simp only [step] at h
        rw [andThen_iff] at h
        rcases h with ⟨s, hs, h⟩ | ⟨-, hf⟩
        · split at h
          · cases ms with
            | nil =>
              rename_i hn
              exact absurd hn (ih (.node m) (by simpa [Stops, endsInTerminator] using ht) _ _ hs)
            | cons m' ms => exact ih (.seq (m' :: ms)) (by rw [Stops, endsInTerminator_cons] at ht; exact ht) _ _ h
          · cases h
            assumption
        · cases hf
    | within names t =>
      simp only [step] at h
      unfold onOut at h
      split at h
      · rename_i s hs
        have h1 := ih t ht _ _ hs
        unfold finish onOut at h
        beta_reduce at h
        split at h
        · rename_i s' hs'
          cases h
          have := (C46_result sem _ _ ⟨n, hs'⟩).1
          simp only [State.log] at this ⊢
          rw [this]
          exact h1
        · cases h
        · rename_i o ho1 ho2
          exact absurd h (ho1 st')
      · rename_i e s hs
        unfold finish onOut at h
        beta_reduce at h
        split at h
        · rename_i s' hs'
          exact absurd hs' (exitE_not_ok _ _ _ _ _)
        · cases h
        · rename_i o ho1 ho2
          exact absurd h (ho1 st')
      · rename_i o ho1 ho2
        exact absurd h (ho1 st')
    | sub a c =>
      cases c with
      | nil => simp [Stops, endsInTerminator] at ht
      | cons m ms =>
        simp only [step] at h
        split at h
        · rw [andThen_iff] at h
          rcases h with ⟨s, hs, h⟩ | ⟨-, hf⟩
          · have := ih (.rod (m :: ms)) ht _ _ hs
            unfold expectNext at h
            rw [if_neg this] at h
            cases h
          · cases hf
        · rw [top_iff] at h
          rcases h with ⟨r, l, hl, h⟩ | ⟨-, h⟩
          · exact ih (.rod (m :: ms)) ht _ _ h
          · cases h
    | tailOrCall ptc f =>
      simp only [step] at h
      rw [top_iff] at h
      rcases h with ⟨r, l, hl, h⟩ | ⟨-, h⟩
      · have : ptc ≠ .none := by simpa [Stops] using ht
        rw [if_neg this] at h
        cases h
        intro hx
        cases hx
      · cases h
    | node m =>
      simp only [step] at h
      simp only [Stops] at ht
      cases m with
      | throwS =>
        simp only [runNode] at h
        rw [top_iff] at h
        rcases h with ⟨r, l, hl, h⟩ | ⟨-, h⟩
        · rw [value_iff] at h
          rcases h with ⟨v, hv, h⟩ | ⟨-, h⟩ | ⟨-, h⟩
          · split at h <;> cases h
          · cases h
          · cases h
        · cases h
      | returnS byRef isVoid =>
        simp only [runNode] at h
        split at h
        · cases h
          intro hx
          cases hx
        · rw [top_iff] at h
          rcases h with ⟨r, l, hl, h⟩ | ⟨-, h⟩
          · split at h
            · cases h; intro hx; cases hx
            · split at h
              · rw [value_iff] at h
                rcases h with ⟨v, hv, h⟩ | ⟨-, h⟩ | ⟨-, h⟩ <;> cases h
                intro hx; cases hx
              · rw [value_iff] at h
                rcases h with ⟨v, hv, h⟩ | ⟨-, h⟩ | ⟨-, h⟩ <;> cases h
                intro hx; cases hx
          · cases h
      | returnConst v =>
        simp only [runNode] at h
        cases h
        intro hx; cases hx
      | simpleStatus s =>
        simp only [runNode] at h
        cases h
        have : s ≠ .next := by simpa [isTerminator] using ht
        exact this
      | funcCall k ptc =>
        simp only [runNode] at h
        split at h
        · cases h
        · rw [top_iff] at h
          rcases h with ⟨r, l, hl, h⟩ | ⟨-, h⟩
          · rw [value_iff] at h
            rcases h with ⟨v, hv, h⟩ | ⟨-, h⟩ | ⟨-, h⟩
            · split at h
              · exact ih (.tailOrCall ptc _) (by simpa [isTerminator, Stops] using ht) _ _ h
              · cases h
            · cases h
            · cases h
          · cases h
      | altCall ptc =>
        simp only [runNode] at h
        rw [top_iff] at h
        rcases h with ⟨r, l, hl, h⟩ | ⟨-, h⟩
        · rw [value_iff] at h
          rcases h with ⟨v, hv, h⟩ | ⟨-, h⟩ | ⟨-, h⟩
          · split at h
            · exact ih (.tailOrCall ptc _) (by simpa [isTerminator, Stops] using ht) _ _ h
            · cases h
          · cases h
          · cases h
        · cases h
      | block b =>
        simp only [runNode] at h
        exact ih (block b) (by simpa [isTerminator, Stops, block] using ht) _ _ h
      | ifS neg t f =>
        simp only [isTerminator, Bool.and_eq_true] at ht
        simp only [runNode] at h
        rw [top_iff] at h
        rcases h with ⟨r, l, hl, h⟩ | ⟨-, h⟩
        · rw [value_iff] at h
          rcases h with ⟨v, hv, h⟩ | ⟨-, h⟩ | ⟨-, h⟩
          · split at h
            · exact ih (block t) ht.1 _ _ h
            · exact ih (block f) ht.2 _ _ h
          · cases h
          · cases h
        · cases h
      | branchE t f a =>
        simp only [isTerminator, Bool.and_eq_true] at ht
        simp only [runNode] at h
        rw [top_iff] at h
        rcases h with ⟨r, l, hl, h⟩ | ⟨-, h⟩
        · rw [value_iff] at h
          rcases h with ⟨v, hv, h⟩ | ⟨-, h⟩ | ⟨-, h⟩
          · refine ih (.sub a (if test v then t else f)) ?_ _ _ h
            simp only [Stops]
            split
            · exact ht.1
            · exact ht.2
          · cases h
          · cases h
        · cases h
      | _ => simp [isTerminator] at ht
    | _ => simp [Stops] at ht

/-- **C49.**  A node that is classified as a terminator does not complete normally. -/
theorem C49_terminator (sem : Sem P) (n : Node P) (hn : isTerminator n = true) (st st' : State P)
    (h : Runs sem (.node n) st (.ok st')) : st'.status ≠ .next := by
  obtain ⟨k, hk⟩ := h
  exact stops_exec sem k (.node n) hn st st' hk

/-- Code that ends in a terminator does not complete normally. -/
theorem C49_code (sem : Sem P) (code : List (Node P)) (n : Node P) (hl : code.getLast? = some n)
    (hn : isTerminator n = true) (st st' : State P) (h : Runs sem (.rod code) st (.ok st')) : st'.status ≠ .next := by
  obtain ⟨k, hk⟩ := h
  exact stops_exec sem k (.rod code) (by simp only [Stops]; rw [endsInTerminator_eq, hl]; exact hn) st st' hk

theorem run_rod_stops (sem : Sem P) (a b : List (Node P)) (ha : endsInTerminator a = true) (st : State P) :
    run sem (.rod (a ++ b)) st = run sem (.rod a) st := by
  rw [run_step, run_step sem (.rod a)]
  simp only [step]
  rw [run_seq_append _ _ _ _ rfl]
  cases h : run sem (.seq a) (st.setStatus .next) with
  | none => rfl
  | some o =>
    cases o with
    | ok st' =>
      simp only [andThen, onOut]
      have h' : run sem (.rod a) st = some (.ok st') := by rw [run_step]; exact h
      obtain ⟨k, hk⟩ := run_eq_some.1 h'
      rw [if_neg (stops_exec sem k (.rod a) ha st st' hk)]
    | exc e st' => rfl
    | ub => rfl

/-- Dropping the code after a terminator does not change what a program does: neither what it ends with nor whether it
ends. -/
theorem C49_drop (sem : Sem P) (a b : List (Node P)) (n : Node P) (hl : a.getLast? = some n) (hn : isTerminator n = true)
    (st : State P) (o : Out P) : Runs sem (.rod (a ++ b)) st o ↔ Runs sem (.rod a) st o := by
  rw [← run_eq_some, ← run_eq_some, run_rod_stops sem a b (by rw [endsInTerminator_eq, hl]; exact hn)]

theorem run_rod_append_congr (sem : Sem P) (a a' b : List (Node P)) (h : ∀ st, run sem (.rod a) st = run sem (.rod a') st)
    (st : State P) : run sem (.rod (a ++ b)) st = run sem (.rod (a' ++ b)) st := by
  have h' := h st
  rw [run_step, run_step sem (.rod a')] at h'
  rw [run_step, run_step sem (.rod (a' ++ b))]
  simp only [step] at h' ⊢
  rw [run_seq_append _ _ _ _ rfl, run_seq_append _ _ _ _ rfl, h']

/-- The code that is generated for a list of statements does what all the code of the statements would do. -/
theorem C49_generate (sem : Sem P) (stmts : List (List (Node P))) (st : State P) (o : Out P) :
    Runs sem (.rod (generate stmts)) st o ↔ Runs sem (.rod stmts.flatten) st o := by
  rw [← run_eq_some, ← run_eq_some]
  have key : ∀ (l : List (List (Node P))) (code full : List (Node P)), (∀ st, run sem (.rod code) st = run sem (.rod full) st) →
      ∀ st, run sem (.rod (l.foldl (fun code s => if endsInTerminator code then code else code ++ s) code)) st =
        run sem (.rod (full ++ l.flatten)) st := by
    intro l
    induction l with
    | nil => intro code full h st; simpa using h st
    | cons s l ih =>
      intro code full h st
      rw [List.foldl_cons, List.flatten_cons, ← List.append_assoc]
      apply ih
      intro st
      split
      · rename_i ht
        rw [← run_rod_stops sem code s ht]
        exact run_rod_append_congr sem code full s h st
      · exact run_rod_append_congr sem code full s h st
  unfold generate
  rw [key stmts [] [] (fun _ => rfl) st, List.nil_append]

section examples
open Demo

example : isTerminator (.block [say 1, .ifS false [.throwS] [say 2, .simpleStatus .brkFor]] : Node Prim) = true := by decide +kernel

example : see (exec sem 40 (.rod ([.pushConst (.bool false), .ifS false [.throwS] [say 2, .simpleStatus .brkFor]] ++ [say 9]))
    start) = .ok [2] .brkFor := by decide +kernel

example : (generate [[say 1], [.returnConst (.int 3)], [say 4], [say 5]] : List (Node Prim)).length = 2 := by decide +kernel

end examples

/-! ## C72 -/

/-- A variable is mentioned in a node: by a constant or a bound reference anywhere inside. -/
inductive Mentions (vals : Value → List Nat) (x : Nat) : List (Node P) → Prop where
  | later {n : Node P} {ns : List (Node P)} : Mentions vals x ns → Mentions vals x (n :: ns)
  | bound {r : Ref} {ns : List (Node P)} : x ∈ refVars vals r → Mentions vals x (.pushBound r :: ns)
  | const {v : Value} {ns : List (Node P)} : x ∈ vals v → Mentions vals x (.pushConst v :: ns)
  | block {b ns : List (Node P)} : Mentions vals x b → Mentions vals x (.block b :: ns)
  | ifT {g : Bool} {t f ns : List (Node P)} : Mentions vals x t → Mentions vals x (.ifS g t f :: ns)
  | ifF {g : Bool} {t f ns : List (Node P)} : Mentions vals x f → Mentions vals x (.ifS g t f :: ns)
  | label {cs : List (Clause P)} {c : Clause P} {ns : List (Node P)} : c ∈ cs → Mentions vals x c.labels →
      Mentions vals x (.switchS cs :: ns)
  | clause {cs : List (Clause P)} {c : Clause P} {ns : List (Node P)} : c ∈ cs → Mentions vals x c.body →
      Mentions vals x (.switchS cs :: ns)
  | doB {g : Bool} {b c k ns : List (Node P)} : Mentions vals x b → Mentions vals x (.doWhile b g c k :: ns)
  | doC {g : Bool} {b c k ns : List (Node P)} : Mentions vals x c → Mentions vals x (.doWhile b g c k :: ns)
  | doK {g : Bool} {b c k ns : List (Node P)} : Mentions vals x k → Mentions vals x (.doWhile b g c k :: ns)
  | whileB {g : Bool} {b c k ns : List (Node P)} : Mentions vals x b → Mentions vals x (.whileS g c b k :: ns)
  | whileC {g : Bool} {b c k ns : List (Node P)} : Mentions vals x c → Mentions vals x (.whileS g c b k :: ns)
  | whileK {g : Bool} {b c k ns : List (Node P)} : Mentions vals x k → Mentions vals x (.whileS g c b k :: ns)
  | eachI {kn : Option Name} {mn : Name} {i b k ns : List (Node P)} : Mentions vals x i →
      Mentions vals x (.forEach kn mn i b k :: ns)
  | eachB {kn : Option Name} {mn : Name} {i b k ns : List (Node P)} : Mentions vals x b →
      Mentions vals x (.forEach kn mn i b k :: ns)
  | eachK {kn : Option Name} {mn : Name} {i b k ns : List (Node P)} : Mentions vals x k →
      Mentions vals x (.forEach kn mn i b k :: ns)
  | forI {i c s b k ns : List (Node P)} : Mentions vals x i → Mentions vals x (.forS i c s b k :: ns)
  | forC {i c s b k ns : List (Node P)} : Mentions vals x c → Mentions vals x (.forS i c s b k :: ns)
  | forStep {i c s b k ns : List (Node P)} : Mentions vals x s → Mentions vals x (.forS i c s b k :: ns)
  | forB {i c s b k ns : List (Node P)} : Mentions vals x b → Mentions vals x (.forS i c s b k :: ns)
  | forK {i c s b k ns : List (Node P)} : Mentions vals x k → Mentions vals x (.forS i c s b k :: ns)
  | tryB {b h ns : List (Node P)} {n : Name} : Mentions vals x b → Mentions vals x (.tryS b n h :: ns)
  | tryH {b h ns : List (Node P)} {n : Name} : Mentions vals x h → Mentions vals x (.tryS b n h :: ns)
  | func {ps : List Name} {va : Bool} {b ns : List (Node P)} : Mentions vals x b → Mentions vals x (.defineFunc ps va b :: ns)
  | branchT {t f ns : List (Node P)} {a : Bool} : Mentions vals x t → Mentions vals x (.branchE t f a :: ns)
  | branchF {t f ns : List (Node P)} {a : Bool} : Mentions vals x f → Mentions vals x (.branchE t f a :: ns)
  | deferB {b ns : List (Node P)} : Mentions vals x b → Mentions vals x (.deferE b :: ns)
  | catchB {b ns : List (Node P)} : Mentions vals x b → Mentions vals x (.catchE b :: ns)
  | coalesce {c ns : List (Node P)} {a : Bool} : Mentions vals x c → Mentions vals x (.coalesceE c a :: ns)

mutual
/-- Code without `for` statements (`for each` statements are allowed). -/
def noFor : Node P → Bool
  | .block b => noForAll b
  | .ifS _ t f => noForAll t && noForAll f
  | .switchS cs => noForClauses cs
  | .doWhile b _ c k => noForAll b && noForAll c && noForAll k
  | .whileS _ c b k => noForAll c && noForAll b && noForAll k
  | .forEach _ _ i b k => noForAll i && noForAll b && noForAll k
  | .forS .. => false
  | .tryS b _ h => noForAll b && noForAll h
  | .defineFunc _ _ b => noForAll b
  | .branchE t f _ => noForAll t && noForAll f
  | .deferE b => noForAll b
  | .catchE b => noForAll b
  | .coalesceE c _ => noForAll c
  | _ => true

/-- Code without `for` statements. -/
def noForAll : List (Node P) → Bool
  | [] => true
  | n :: ns => noFor n && noForAll ns

/-- Code without `for` statements. -/
def noForClauses : List (Clause P) → Bool
  | [] => true
  | .mk _ l b _ :: cs => noForAll l && noForAll b && noForClauses cs
end

theorem mem_labels {vals : Value → List Nat} {x : Nat} {cs : List (Clause P)} {c : Clause P} (hc : c ∈ cs)
    (h : x ∈ collectAll vals c.labels) : x ∈ collectLabels vals cs := by
  induction cs with
  | nil => cases hc
  | cons d cs ih =>
    obtain ⟨k, l, b, ns⟩ := d
    rcases List.mem_cons.1 hc with rfl | hc
    · exact List.mem_append_left _ h
    · exact List.mem_append_right _ (ih hc)

theorem mem_bodies {vals : Value → List Nat} {x : Nat} {cs : List (Clause P)} {c : Clause P} (hc : c ∈ cs)
    (h : x ∈ collectAll vals c.body) : x ∈ collectBodies vals cs := by
  induction cs with
  | nil => cases hc
  | cons d cs ih =>
    obtain ⟨k, l, b, ns⟩ := d
    rcases List.mem_cons.1 hc with rfl | hc
    · exact List.mem_append_left _ h
    · exact List.mem_append_right _ (ih hc)

theorem noFor_clause {cs : List (Clause P)} {c : Clause P} (hc : c ∈ cs) (h : noForClauses cs = true) :
    noForAll c.labels = true ∧ noForAll c.body = true := by
  induction cs with
  | nil => cases hc
  | cons d cs ih =>
    obtain ⟨k, l, b, ns⟩ := d
    simp only [noForClauses, Bool.and_eq_true] at h
    rcases List.mem_cons.1 hc with rfl | hc
    · exact h.1
    · exact ih hc h.2

/-- **C72, partial.**  Every variable that is mentioned in code without `for` statements is reported.  Missing: `for`
statements, where this is false (`C72_false`). -/
theorem C72_partial (vals : Value → List Nat) (x : Nat) (code : List (Node P)) (h : Mentions vals x code)
    (hf : noForAll code = true) : x ∈ collectAll vals code := by
  induction h with
  | later _ ih =>
    simp only [noForAll, Bool.and_eq_true] at hf
    exact List.mem_append_right _ (ih hf.2)
  | label hc _ ih =>
    simp only [noForAll, noFor, Bool.and_eq_true] at hf
    have := mem_labels hc (ih (noFor_clause hc hf.1).1)
    simp [collectAll, collect, this]
  | clause hc _ ih =>
    simp only [noForAll, noFor, Bool.and_eq_true] at hf
    have := mem_bodies hc (ih (noFor_clause hc hf.1).2)
    simp [collectAll, collect, this]
  | bound hx => simp [collectAll, collect, hx]
  | const hx => simp [collectAll, collect, hx]
  | _ _ ih =>
    simp only [noForAll, noFor, Bool.and_eq_true, Bool.false_eq_true, false_and] at hf
    all_goals
      have := ih (by simp [hf])
      simp [collectAll, collect, this]

mutual
/-- Code where `for` statements are not inside of functions or deferred expressions. -/
def forOutside : Node P → Bool
  | .block b => forOutsideAll b
  | .ifS _ t f => forOutsideAll t && forOutsideAll f
  | .switchS cs => forOutsideClauses cs
  | .doWhile b _ c k => forOutsideAll b && forOutsideAll c && forOutsideAll k
  | .whileS _ c b k => forOutsideAll c && forOutsideAll b && forOutsideAll k
  | .forEach _ _ i b k => forOutsideAll i && forOutsideAll b && forOutsideAll k
  | .forS i c s b k => forOutsideAll i && forOutsideAll c && forOutsideAll s && forOutsideAll b && forOutsideAll k
  | .tryS b _ h => forOutsideAll b && forOutsideAll h
  | .defineFunc _ _ b => noForAll b
  | .branchE t f _ => forOutsideAll t && forOutsideAll f
  | .deferE b => noForAll b
  | .catchE b => forOutsideAll b
  | .coalesceE c _ => forOutsideAll c
  | _ => true

/-- Code where `for` statements are not inside of functions or deferred expressions. -/
def forOutsideAll : List (Node P) → Bool
  | [] => true
  | n :: ns => forOutside n && forOutsideAll ns

/-- Code where `for` statements are not inside of functions or deferred expressions. -/
def forOutsideClauses : List (Clause P) → Bool
  | [] => true
  | .mk _ l b _ :: cs => forOutsideAll l && forOutsideAll b && forOutsideClauses cs
end

theorem mem_rod_clauses {vals : Value → List Nat} {x : Nat} {cs : List (Clause P)} {c : Clause P} (hc : c ∈ cs)
    (h : x ∈ collectRodAll vals c.labels ∨ x ∈ collectRodAll vals c.body) : x ∈ collectRodClauses vals cs := by
  induction cs with
  | nil => cases hc
  | cons d cs ih =>
    obtain ⟨k, l, b, ns⟩ := d
    simp only [collectRodClauses, List.mem_append]
    rcases List.mem_cons.1 hc with rfl | hc
    · exact Or.inl h
    · exact Or.inr (ih hc)

theorem forOutside_clause {cs : List (Clause P)} {c : Clause P} (hc : c ∈ cs) (h : forOutsideClauses cs = true) :
    forOutsideAll c.labels = true ∧ forOutsideAll c.body = true := by
  induction cs with
  | nil => cases hc
  | cons d cs ih =>
    obtain ⟨k, l, b, ns⟩ := d
    simp only [forOutsideClauses, Bool.and_eq_true] at h
    rcases List.mem_cons.1 hc with rfl | hc
    · exact h.1
    · exact ih hc h.2

/-- **C72, partial.**  The same for the body of a function that has been instantiated, where only `for` statements inside
of nested functions and deferred expressions are excluded. -/
theorem C72_rod_partial (vals : Value → List Nat) (x : Nat) (code : List (Node P)) (h : Mentions vals x code)
    (hf : forOutsideAll code = true) : x ∈ collectRodAll vals code := by
  induction h with
  | later _ ih =>
    simp only [forOutsideAll, Bool.and_eq_true] at hf
    exact List.mem_append_right _ (ih hf.2)
  | label hc _ ih =>
    simp only [forOutsideAll, forOutside, Bool.and_eq_true] at hf
    have := mem_rod_clauses hc (Or.inl (ih (forOutside_clause hc hf.1).1))
    simp [collectRodAll, collectRod, this]
  | clause hc _ ih =>
    simp only [forOutsideAll, forOutside, Bool.and_eq_true] at hf
    have := mem_rod_clauses hc (Or.inr (ih (forOutside_clause hc hf.1).2))
    simp [collectRodAll, collectRod, this]
  | bound hx => simp [collectRodAll, collectRod, hx]
  | const hx => simp [collectRodAll, collectRod, hx]
  | func hm _ =>
    simp only [forOutsideAll, forOutside, Bool.and_eq_true] at hf
    have := C72_partial vals x _ hm hf.1
    simp [collectRodAll, collectRod, this]
  | deferB hm _ =>
    simp only [forOutsideAll, forOutside, Bool.and_eq_true] at hf
    have := C72_partial vals x _ hm hf.1
    simp [collectRodAll, collectRod, this]
  | _ _ ih =>
    simp only [forOutsideAll, forOutside, Bool.and_eq_true] at hf
    have := ih (by simp [hf])
    simp [collectRodAll, collectRod, this]

/-- **C72 is false.**  A variable in the body of a `for` statement in a nested function is not reported. -/
theorem C72_false : ∃ (code : List (Node Unit)), Mentions (fun _ => []) 5 code ∧ 5 ∉ collectRodAll (fun _ => []) code :=
  ⟨[.defineFunc [] false [.forS [] [] [] [.pushBound (.var 5 [])] []]],
    .func (.forB (.bound (by simp [refVars]))), by decide⟩

/-- What is reported is mentioned. -/
example : Mentions (P := Unit) (fun _ => []) 5 [.block [.pushConst .null, .tryS [] 1 [.pushBound (.var 5 [])]]] ∧
    noForAll (P := Unit) [.block [.pushConst .null, .tryS [] 1 [.pushBound (.var 5 [])]]] = true :=
  ⟨.block (.later (.tryH (.bound (by simp [refVars])))), by decide⟩

end Asteria.Exec
