import Verif.Model.Refcnt

/-!
# What programs that use reference-counted objects may do
-/

namespace Asteria.Refcnt.Spec

open Asteria.Refcnt

/-- A pointer that may be used: a variable, or a member of an object that something points to. -/
def Usable (st : State) (s : Nat) : Prop :=
  s < st.slots.length ∧ ∀ h, st.home s = some h → some h ∈ st.slots

/-- Programs use only pointers that may be used. -/
def Allowed (st : State) : Cmd → Prop
  | .var => True
  | .make d _ => Usable st d
  | .copy d s => Usable st d ∧ Usable st s
  | .move d s => Usable st d ∧ Usable st s
  | .swap d s => Usable st d ∧ Usable st s
  | .reset d => Usable st d
  | .run _ => True

/-- The states that threads get into, in any interleaving. -/
inductive Reached : State → Prop
  | init : Reached .init
  | step {st st' : State} (h : Reached st) (c : Cmd) (ha : Allowed st c) (he : st.exec c = .ok st') : Reached st'

/-- How many pointers point to an object. -/
def pointers (st : State) (o : Nat) : Nat := st.slots.count (some o)

/-- Nothing that has been begun is left to be done. -/
def Settled (st : State) : Prop := st.pend = []

/-- One object points to another. -/
def PointsTo (st : State) (h o : Nat) : Prop := ∃ s : Nat, st.home s = some h ∧ st.slots[s]? = some (some o)

/-- No variable points to anything. -/
def NoVariable (st : State) : Prop := ∀ s : Nat, st.home s = none → ∀ o, st.slots[s]? ≠ some (some o)

/-- Threads go on with what they have begun, `n` times. -/
inductive Drains : State → Nat → State → Prop
  | nil (st : State) : Drains st 0 st
  | cons {st st' st'' : State} {n : Nat} (a : Act) (ha : a ∈ st.pend) (he : st.exec (.run a) = .ok st')
      (h : Drains st' n st'') : Drains st (n + 1) st''

/-- What the pointers are after a step, `l'`, if they were `l`; `o` is an object that did not exist.  Copying or moving a
pointer to itself changes nothing. -/
def Effect (o : Nat) (l l' : List (Option Nat)) : Cmd → Prop
  | .var => l' = l ++ [none]
  | .make d k => l'[d]? = some (some o) ∧ l'.length = l.length + k ∧ (∀ x : Nat, x ≠ d → x < l.length → l'[x]? = l[x]?) ∧
      ∀ x : Nat, x ≠ d → l.length ≤ x → x < l.length + k → l'[x]? = some none
  | .copy d s => l'[d]? = l[s]? ∧ ∀ x : Nat, x ≠ d → l'[x]? = l[x]?
  | .move d s => l'[d]? = l[s]? ∧ (s ≠ d → l'[s]? = some none) ∧ ∀ x : Nat, x ≠ d → x ≠ s → l'[x]? = l[x]?
  | .swap d s => l'[d]? = l[s]? ∧ l'[s]? = l[d]? ∧ ∀ x : Nat, x ≠ d → x ≠ s → l'[x]? = l[x]?
  | .reset d => l'[d]? = some none ∧ ∀ x : Nat, x ≠ d → l'[x]? = l[x]?
  | .run (.clear s) => l' = l ∨ l'[s]? = some none ∧ ∀ x : Nat, x ≠ s → l'[x]? = l[x]?
  | .run _ => l' = l

end Asteria.Refcnt.Spec
