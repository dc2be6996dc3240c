import Verif.Model.Order

/-!
# What threads that share a storage may do
-/

namespace Asteria.Order.Spec

open Asteria.Order

/-- Threads use only what they have a reference to, and read no value of the counter that is older than one
they have seen. -/
def Allowed (st : State) : Cmd → Prop
  | .read t => t ∈ st.refs
  | .mutate t i => t ∈ st.refs ∧ st.seen t ≤ i ∧ i ≤ st.mods
  | .copy t => t ∈ st.refs
  | .drop t => t ∈ st.refs
  | .send t _ => t ∈ st.refs
  | .sync _ _ => True

/-- The states that threads get into, in any order and with any values that loads may read. -/
inductive Reached (acq : Bool) : State → Prop
  | init : Reached acq .init
  | step {st st' : State} (h : Reached acq st) (c : Cmd) (ha : Allowed st c) (he : st.exec acq c = .ok st') :
      Reached acq st'

/-- A step that may write to elements. -/
def Mutates : Cmd → Prop
  | .mutate _ _ => True
  | _ => False

/-- Every reference that has been dropped by any thread was dropped before what `t` does next. -/
def KnowsDrops (st : State) (t : Nat) : Prop := ∀ j, st.rel st.mods j ≤ st.clk t j

/-- A step of thread `t` only. -/
def By (t : Nat) : Cmd → Prop
  | .read x => x = t
  | .mutate x _ => x = t
  | .copy x => x = t
  | .drop x => x = t
  | .send x y => x = t ∧ y = t
  | .sync x y => x = t ∧ y = t

/-- The states that one thread gets into. -/
inductive Alone (acq : Bool) : State → Prop
  | init : Alone acq .init
  | step {st st' : State} (h : Alone acq st) (c : Cmd) (hb : By 0 c) (ha : Allowed st c)
      (he : st.exec acq c = .ok st') : Alone acq st'

end Asteria.Order.Spec
