import Verif.Model.Teardown

/-!
# What the destruction of a value shall do
-/

namespace Asteria.Teardown.Spec

open Asteria.Teardown

/-- How often a value refers to a storage itself. -/
def refers (i : Nat) (v : Val) : Nat :=
  if v = .box false (some i) ∨ v = .box true (some i) then 1 else 0

/-- How often a value is the string, opaque object or function `k`. -/
def isExt (k : Nat) (v : Val) : Nat := if v = .ext k then 1 else 0

/-- One for every value. -/
def one (_ : Val) : Nat := 1

/-- How often in some values. -/
def held (f : Val → Nat) (l : List Val) : Nat := (l.map f).sum

/-- How often in a storage, if it exists. -/
def inCell (f : Val → Nat) : Option Cell → Nat
  | none => 0
  | some c => held f c.kids

/-- How often in all storages that exist. -/
def inside (f : Val → Nat) (st : State) : Nat := (st.cells.map (inCell f)).sum

/-- One if a storage exists. -/
def exist (st : State) (i : Nat) : Nat := if st.cell i = none then 0 else 1

/-- The storages that exist are those that something refers to, and their counters tell how often.  `roots`
are the values outside of storages. -/
def Counted (st : State) (roots : List Val) : Prop :=
  ∀ i, match st.cell i with
    | none => held (refers i) roots + inside (refers i) st = 0
    | some c => c.cnt = held (refers i) roots + inside (refers i) st ∧ 0 < c.cnt

/-- An array or object is in another one. -/
def Contains (st : State) (a b : Nat) : Prop := ∃ c, st.cell a = some c ∧ ∃ v ∈ c.kids, refers b v = 1

/-- Values are trees: a copy of a storage cannot be put into itself. -/
def Tree (st : State) : Prop := ∃ rank : Nat → Nat, ∀ a b, Contains st a b → rank a < rank b

/-- What can be got at from some values. -/
inductive Reach (st : State) (roots : List Val) : Nat → Prop
  | root {i : Nat} {v : Val} (h : v ∈ roots) (hr : refers i v = 1) : Reach st roots i
  | kid {a b : Nat} (h : Reach st roots a) (hc : Contains st a b) : Reach st roots b

/-- How many values there are in storages. -/
def size (st : State) : Nat := inside one st

end Asteria.Teardown.Spec
