import Verif.Model.CowVector

/-!
# Compound assignment to an element of an array

/repo/asteria/src/runtime/air_node.cpp, the operators with `assign`.  The arrays are `cow_vector`s of scalars
(C37); nesting is not modelled here.
-/

namespace Asteria.Compound

open CowVector

variable {α : Type}

/-- The subscript on the left side, /repo/asteria/src/runtime/subscript.cpp:219-329; negative indices and `[?]` are
left out. -/
inductive Target where
  | index (i : Nat)
  | head
  | tail

/-- `Subscript::apply_open` on an array, subscript.cpp:224-306: the heap, the array, and the position of
the element returned.  `null` is the value that is added. -/
def openElem (c : Cfg) (null : α) (H : Heap α) (m : Ptr) : Target → Res (Heap α × Ptr × Nat)
  | .index i => (H.size m).bind fun n =>
      if i < n then (H.mutData c m).map fun r => (r.1, r.2, i)
      else (H.append c m (List.replicate (i + 1 - n) (.val null))).bind fun r =>
        (r.1.mutData c r.2).map fun r => (r.1, r.2, i)
  | .head => (H.size m).bind fun n =>
      match m with
      | none => (H.insertOne c m 0 (.val null)).map fun r => (r.1, r.2, 0)
      | some p =>
        if n = 0 then (H.insertOne c m 0 (.val null)).map fun r => (r.1, r.2, 0)
        else (H.insertOne c m 0 (.ref p 0)).map fun r => (r.1, r.2, 0)
  | .tail => (H.size m).bind fun n =>
      match m with
      | none => (H.emplaceBack c m (.val null)).map fun r => (r.1, r.2, n)
      | some p =>
        if n = 0 then (H.emplaceBack c m (.val null)).map fun r => (r.1, r.2, n)
        else (H.emplaceBack c m (.ref p (n - 1))).map fun r => (r.1, r.2, n)

/-- `v[s] op= w[j]`, for example air_node.cpp:3266-3316: `dereference_readonly` gives a reference to the
right operand; `dereference_mutable` opens the left one; then the reference is read, and the result is
stored.  The right operand exists. -/
def compound (c : Cfg) (null : α) (op : α → α → Res α) (S : State α) (v : Nat) (s : Target) (w j : Nat) :
    Res (State α) :=
  (S.resolve (.elem w j)).bind fun rhs =>
    (openElem c null S.heap (S.ptr v) s).bind fun r =>
      (r.1.read rhs).bind fun b => (r.1.at_ r.2.1 r.2.2).bind fun a => (op a b).bind fun x =>
        (⟨r.1, S.vec.set v r.2.1⟩ : State α).put v (r.1.write c r.2.1 r.2.2 x)

end Asteria.Compound
