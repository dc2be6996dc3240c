import Verif.Model.Exec

/-!
# What statements should do

Descriptions of loops and `switch` statements as sequences of turns.  `R t s o` says that the piece `t`, started in the
state `s`, ends with the outcome `o`.
-/

namespace Asteria.Exec.Spec

variable {P : Type} (R : Task P → State P → Out P → Prop)

/-- An exception or undefined behaviour. -/
def Abrupt : Out P → Prop
  | .ok _ => False
  | _ => True

/-- The code `c`, executed in `s`, leaves the state `s'` with the value `v` on the top of the stack. -/
def Yields (c : List (Node P)) (s s' : State P) (v : Value) : Prop :=
  R (.rod c) s (.ok s') ∧ s'.status = .next ∧ ∃ r l, s'.stack = r :: l ∧ deref s'.world r = .ok v

/-- The code `c` does not leave a value. -/
def NoValue (c : List (Node P)) (s : State P) (o : Out P) : Prop :=
  (R (.rod c) s o ∧ Abrupt o) ∨
  ∃ s', R (.rod c) s (.ok s') ∧
    ((s'.status ≠ .next ∧ o = .ub) ∨
      (s'.status = .next ∧ s'.stack = [] ∧ o = .ub) ∨
      (s'.status = .next ∧ ∃ r l, s'.stack = r :: l ∧
        ((deref s'.world r = .throw ∧ o = .exc message s') ∨ (deref s'.world r = .ub ∧ o = .ub))))

/-- The body of a loop ends in such a way that the loop goes on: normally, or by a `continue` statement for this loop
(`cs` are the statuses of these). -/
def GoesOn (cs : List Status) (b : List (Node P)) (s s' : State P) : Prop :=
  ∃ s₁, R (block b) s (.ok s₁) ∧ (s₁.status = .next ∨ s₁.status ∈ cs) ∧ s' = s₁.setStatus .next

/-- The body of a loop ends in such a way that the loop ends: by a `break` statement for this loop (`bs` are the
statuses of these), by anything else that is not for this loop, or abruptly. -/
def BreaksOff (cs bs : List Status) (b : List (Node P)) (s : State P) (o : Out P) : Prop :=
  (R (block b) s o ∧ Abrupt o) ∨
  ∃ s₁, R (block b) s (.ok s₁) ∧
    ((s₁.status ∈ bs ∧ o = .ok (s₁.setStatus .next)) ∨
      (s₁.status ≠ .next ∧ s₁.status ∉ cs ∧ s₁.status ∉ bs ∧ o = .ok s₁))

/-- The statuses that mean `continue` for `while` and `do` loops. -/
def contWhile : List Status := [.cont, .contWhile]
/-- The statuses that mean `break` for `while` and `do` loops. -/
def brkWhile : List Status := [.brk, .brkWhile]
/-- The statuses that mean `continue` for `for` loops. -/
def contFor : List Status := [.cont, .contFor]
/-- The statuses that mean `break` for `for` loops. -/
def brkFor : List Status := [.brk, .brkFor]

/-- A turn of a `while` loop: the condition holds, and the body is executed. -/
def WhileTurn (neg : Bool) (c b : List (Node P)) (s s' : State P) : Prop :=
  ∃ s₁ v, Yields R c s s₁ v ∧ test v ≠ neg ∧ GoesOn R contWhile b s₁ s'

/-- The end of a `while` loop: the condition does not hold and the completion clause is executed; or the body breaks
off; or the condition has no value. -/
def WhileEnd (neg : Bool) (c b k : List (Node P)) (s : State P) (o : Out P) : Prop :=
  (∃ s₁ v, Yields R c s s₁ v ∧ test v = neg ∧ R (block k) s₁ o) ∨
  (∃ s₁ v, Yields R c s s₁ v ∧ test v ≠ neg ∧ BreaksOff R contWhile brkWhile b s₁ o) ∨
  NoValue R c s o

/-- A turn of a `do` loop: the body is executed, and the condition holds. -/
def DoTurn (neg : Bool) (c b : List (Node P)) (s s' : State P) : Prop :=
  ∃ s₁ v, GoesOn R contWhile b s s₁ ∧ Yields R c s₁ s' v ∧ test v ≠ neg

/-- The end of a `do` loop. -/
def DoEnd (neg : Bool) (c b k : List (Node P)) (s : State P) (o : Out P) : Prop :=
  BreaksOff R contWhile brkWhile b s o ∨
  (∃ s₁, GoesOn R contWhile b s s₁ ∧ NoValue R c s₁ o) ∨
  (∃ s₁ s₂ v, GoesOn R contWhile b s s₁ ∧ Yields R c s₁ s₂ v ∧ test v = neg ∧ R (block k) s₂ o)

/-- The condition of a `for` loop holds; an empty condition leaves the stack empty and holds. -/
def ForCond (c : List (Node P)) (s s' : State P) : Prop :=
  (∃ v, Yields R c s s' v ∧ test v = true) ∨ (R (.rod c) s (.ok s') ∧ s'.status = .next ∧ s'.stack = [])

/-- The condition of a `for` loop cannot be evaluated. -/
def ForNoCond (c : List (Node P)) (s : State P) (o : Out P) : Prop :=
  (R (.rod c) s o ∧ Abrupt o) ∨
  ∃ s', R (.rod c) s (.ok s') ∧
    ((s'.status ≠ .next ∧ o = .ub) ∨
      (s'.status = .next ∧ ∃ r l, s'.stack = r :: l ∧
        ((deref s'.world r = .throw ∧ o = .exc message s') ∨ (deref s'.world r = .ub ∧ o = .ub))))

/-- A piece that must not transfer control: the initialization and the step of a `for` loop. -/
def Plain (c : List (Node P)) (s s' : State P) : Prop := R (.rod c) s (.ok s') ∧ s'.status = .next

/-- Such a piece does not end normally. -/
def NotPlain (c : List (Node P)) (s : State P) (o : Out P) : Prop :=
  (R (.rod c) s o ∧ Abrupt o) ∨ ∃ s', R (.rod c) s (.ok s') ∧ s'.status ≠ .next ∧ o = .ub

/-- A piece executed in the parent of the current context. -/
def Outside (t : Task P) (s : State P) (o : Out P) : Prop :=
  ∃ x xs o', s.scopes = x :: xs ∧ R t { s with scopes := xs } o' ∧
    o = match o' with
      | .ok s' => .ok { s' with scopes := x :: s'.scopes }
      | .exc e s' => .exc e { s' with scopes := x :: s'.scopes }
      | .ub => .ub

/-- A turn of a `for` loop. -/
def ForTurn (c st b : List (Node P)) (s s' : State P) : Prop :=
  ∃ s₁ s₂, ForCond R c s s₁ ∧ GoesOn R contFor b s₁ s₂ ∧ Plain R st s₂ s'

/-- The end of a `for` loop. -/
def ForEnd (c st b k : List (Node P)) (s : State P) (o : Out P) : Prop :=
  ForNoCond R c s o ∨
  (∃ s₁ v, Yields R c s s₁ v ∧ test v = false ∧ (Outside R (block k) s₁ o ∨ (s₁.scopes = [] ∧ o = .ub))) ∨
  (∃ s₁, ForCond R c s s₁ ∧ BreaksOff R contFor brkFor b s₁ o) ∨
  (∃ s₁ s₂, ForCond R c s s₁ ∧ GoesOn R contFor b s₁ s₂ ∧ NotPlain R st s₂ o)

/-- A turn of a `for each` loop for one element: its key and its reference are bound, and the body is executed. -/
def EachTurn (kn : Option Name) (mn : Name) (r : Ref) (b : List (Node P)) (e : Value × Subscript.Sub) (s s' : State P) : Prop :=
  ∃ v, deref (bindElement kn mn r e s).world (r.pushSub e.2) = .ok v ∧ GoesOn R contFor b (bindElement kn mn r e s) s'

/-- The last turn of a `for each` loop that does not reach the end. -/
def EachBreaks (kn : Option Name) (mn : Name) (r : Ref) (b : List (Node P)) (e : Value × Subscript.Sub) (s : State P)
    (o : Out P) : Prop :=
  (∃ v, deref (bindElement kn mn r e s).world (r.pushSub e.2) = .ok v ∧
    BreaksOff R contFor brkFor b (bindElement kn mn r e s) o) ∨
  (deref (bindElement kn mn r e s).world (r.pushSub e.2) = .throw ∧ o = .exc message (bindElement kn mn r e s)) ∨
  (deref (bindElement kn mn r e s).world (r.pushSub e.2) = .ub ∧ o = .ub)

/-- One turn after the other, for the elements of a list. -/
def InTurn {α : Type} (T : α → State P → State P → Prop) : List α → State P → State P → Prop
  | [], s, s' => s' = s
  | x :: xs, s, s' => ∃ s₁, T x s s₁ ∧ InTurn T xs s₁ s'

/-- A `for each` loop over the elements `es`. -/
def Each (kn : Option Name) (mn : Name) (r : Ref) (b k : List (Node P)) (es : List (Value × Subscript.Sub)) (s : State P)
    (o : Out P) : Prop :=
  (∃ s', InTurn (EachTurn R kn mn r b) es s s' ∧ (Outside R (block k) s' o ∨ (s'.scopes = [] ∧ o = .ub))) ∨
  ∃ done e rest s', es = done ++ e :: rest ∧ InTurn (EachTurn R kn mn r b) done s s' ∧ EachBreaks R kn mn r b e s' o

/-- The body of a clause of a `switch` statement ends normally. -/
def FallsThrough (c : Clause P) (s s' : State P) : Prop := R (.rod c.body) s (.ok s') ∧ s'.status = .next

/-- The body of a clause ends in another way. -/
def ClauseEnds (c : Clause P) (s : State P) (o : Out P) : Prop :=
  (R (.rod c.body) s o ∧ Abrupt o) ∨
  ∃ s', R (.rod c.body) s (.ok s') ∧ s'.status ≠ .next ∧
    ((s'.status ∈ [Status.brk, .brkSwitch] ∧ o = .ok (s'.setStatus .next)) ∨
      (s'.status ∉ [Status.brk, .brkSwitch] ∧ o = .ok s'))

/-- The bodies of the clauses `cs`, from the first one on. -/
def Bodies (cs : List (Clause P)) (s : State P) (o : Out P) : Prop :=
  (∃ s', InTurn (FallsThrough R) cs s s' ∧ o = .ok s') ∨
  ∃ done c rest s', cs = done ++ c :: rest ∧ InTurn (FallsThrough R) done s s' ∧ ClauseEnds R c s' o

/-- The labels of a clause are evaluated, and the value `v` does or does not match. -/
def LabelIs (v : Value) (m : Bool) (c : Clause P) (s s' : State P) : Prop :=
  c.kind ≠ .default ∧ R (.rod c.labels) s (.ok s') ∧ s'.status = .next ∧ clauseMatches s' v c.kind = some (.ok m)

/-- The labels of a clause cannot be compared. -/
def LabelFails (v : Value) (c : Clause P) (s : State P) (o : Out P) : Prop :=
  c.kind ≠ .default ∧
  ((R (.rod c.labels) s o ∧ Abrupt o) ∨
    ∃ s', R (.rod c.labels) s (.ok s') ∧
      ((s'.status ≠ .next ∧ o = .ub) ∨
        (s'.status = .next ∧ (clauseMatches s' v c.kind = none ∨ clauseMatches s' v c.kind = some .ub) ∧ o = .ub) ∨
        (s'.status = .next ∧ clauseMatches s' v c.kind = some .throw ∧ o = .exc message s')))

/-- A clause that is passed over: the default clause, or one that does not match. -/
def Passed (v : Value) (c : Clause P) (s s' : State P) : Prop :=
  (c.kind = .default ∧ s' = s) ∨ LabelIs R v false c s s'

/-- The position of the default clause (the last one, if there should be several). -/
def defaultAt : List (Clause P) → Option Nat
  | [] => none
  | c :: cs => match defaultAt cs with
    | some k => some (k + 1)
    | none => if c.kind = .default then some 0 else none

/-- The bodies are executed from clause `k` on, in a context where the names of the clauses before are declared. -/
def Enters (all : List (Clause P)) (k : Nat) (s : State P) (o : Out P) : Prop :=
  R (.within (((all.take k).flatMap Clause.names).foldl (fun l n => addName n l) []) (.clauses (all.drop k))) s o

/-- A `switch` statement for the value `v`: the first clause that matches is entered; if there is none, the default
clause; if there is none, nothing happens. -/
def Switch (v : Value) (all : List (Clause P)) (s : State P) (o : Out P) : Prop :=
  (∃ done c rest s' s'', all = done ++ c :: rest ∧ InTurn (Passed R v) done s s' ∧ LabelIs R v true c s' s'' ∧
    Enters R all done.length s'' o) ∨
  (∃ done c rest s', all = done ++ c :: rest ∧ InTurn (Passed R v) done s s' ∧ LabelFails R v c s' o) ∨
  ∃ s', InTurn (Passed R v) all s s' ∧
    match defaultAt all with
    | some k => Enters R all k s' o
    | none => o = .ok s'

end Asteria.Exec.Spec
