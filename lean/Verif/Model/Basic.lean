/-!
# Common vocabulary of the model

Bytes are `UInt8`, byte strings are `List UInt8` (`V_string`, i.e. `cow_string`, in
/repo/asteria/fwd.hpp).  A call either returns, throws a script-visible exception,
or runs into behaviour the C++ standard leaves undefined.
-/

namespace Asteria

/-- A byte string: the contents of a `V_string` (/repo/asteria/fwd.hpp, `V_string = cow_string`;
/repo/asteria/rocket/cow_string.hpp).  Simplified: reference counting, capacity and `max_size()`
are not represented. -/
abbrev Bytes := List UInt8

/-- Outcome of a call.  `throw` stands for any exception raised by `ASTERIA_THROW`
(/repo/asteria/utils.hpp:70-73) or `throw Runtime_Error(...)`; messages are not represented.
`ub` stands for undefined behaviour (signed overflow, out-of-bounds access, failed
`ASTERIA_ASSERT`). -/
inductive Res (α : Type u) where
  | ok (a : α)
  | throw
  | ub
deriving DecidableEq, Repr

namespace Res

/-- Sequencing of calls: an exception or undefined behaviour ends the computation
(C++ exception propagation; used by every function below that calls another one). -/
@[simp] def bind (x : Res α) (f : α → Res β) : Res β :=
  match x with
  | ok a => f a
  | throw => throw
  | ub => ub

/-- Post-processing of a returned value (C++: plain use of the result in an expression). -/
@[simp] def map (f : α → β) (x : Res α) : Res β :=
  match x with
  | ok a => ok (f a)
  | throw => throw
  | ub => ub

instance : Monad Res where
  pure := ok
  bind := Res.bind

@[simp] theorem pure_eq (a : α) : (pure a : Res α) = ok a := rfl
@[simp] theorem bind_eq (x : Res α) (f : α → Res β) : (x >>= f) = x.bind f := rfl

theorem ok_bind (a : α) (f : α → Res β) : (ok a).bind f = f a := rfl
theorem throw_bind (f : α → Res β) : (throw : Res α).bind f = throw := rfl
theorem ok_map (a : α) (f : α → β) : (ok a).map f = ok (f a) := rfl
theorem throw_map (f : α → β) : (throw : Res α).map f = throw := rfl

end Res

end Asteria
