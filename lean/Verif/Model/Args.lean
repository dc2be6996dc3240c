import Verif.Model.Exec

/-!
# Arguments and literals

/repo/asteria/src/runtime/executive_context.cpp, variadic_arguer.cpp, air_node.cpp
-/

namespace Asteria.Exec

/-- The loop over the parameters, executive_context.cpp:38-44: the names bound so far, and the arguments that remain,
from left to right.  A parameter that is `none` is the ellipsis; the result says whether there was one. -/
def bindParams (names : List (Name × Ref)) (ellipsis : Bool) : List (Option Name) → List Ref →
    List (Name × Ref) × Bool × List Ref
  | [], args => (names, ellipsis, args)
  | none :: ps, args => bindParams names true ps args
  | some p :: ps, [] => bindParams (setName p (.temp .null []) names) ellipsis ps []
  | some p :: ps, a :: as => bindParams (setName p a names) ellipsis ps as

/-- The constructor of the context of a function, executive_context.cpp:17-57, without `__this`: the names, and the
arguments for `__varg` (`m_lazy_args`). -/
def bindCall (params : List (Option Name)) (args : List Ref) : Res (List (Name × Ref) × List Ref) :=
  let r := bindParams [] false params args
  if r.2.2.length ≠ 0 then if r.2.1 then .ok (r.1, r.2.2) else .throw
  else .ok (r.1, [])

/-- `Variadic_Arguer::invoke_ptc_aware`, variadic_arguer.cpp:28-53; `none` stands for no index or null. -/
def varg (vargs : List Ref) (index : Option Int) : Res Ref :=
  match index with
  | none => .ok (.temp (.int vargs.length) [])
  | some i => (Subscript.wrap vargs.length i).bind fun w =>
      if w.nprepend ≠ 0 ∨ w.nappend ≠ 0 then .ok (.temp .null [])
      else match vargs[w.rindex]? with
        | some r => .ok r
        | none => .throw

/-- The loop of `push_unnamed_array`, air_node.cpp:2026-2031: takes elements from the stack (top first) and fills them in
from right to left; the elements so far. -/
def takeElements (w : World) : Nat → List Ref → List Value → Res (List Value × List Ref)
  | 0, stack, acc => .ok (acc, stack)
  | _ + 1, [], _ => .ub
  | n + 1, r :: stack, acc => (deref w r).bind fun v => takeElements w n stack (v :: acc)

/-- `push_unnamed_array`, air_node.cpp:2012-2046: the stack afterwards. -/
def pushArray (w : World) (nelems : Nat) (stack : List Ref) : Res (List Ref) :=
  (takeElements w nelems stack []).map fun p => .temp (.arr p.1) [] :: p.2

/-- `cow_hashmap::try_emplace`: adds a key that is not there.  The order of an object is that of its hash table; here,
a new key is put at the end. -/
def tryEmplace (k : Bytes) (v : Value) (l : List (Bytes × Value)) : List (Bytes × Value) :=
  match Subscript.lookup k l with
  | some _ => l
  | none => l ++ [(k, v)]

/-- The loop of `push_unnamed_object`, air_node.cpp:2070-2073, for the keys from right to left. -/
def takeFields (w : World) : List Bytes → List Ref → List (Bytes × Value) → Res (List (Bytes × Value) × List Ref)
  | [], stack, acc => .ok (acc, stack)
  | _ :: _, [], _ => .ub
  | k :: ks, r :: stack, acc => (deref w r).bind fun v => takeFields w ks stack (tryEmplace k v acc)

/-- `push_unnamed_object`, air_node.cpp:2048-2093: the stack afterwards. -/
def pushObject (w : World) (keys : List Bytes) (stack : List Ref) : Res (List Ref) :=
  (takeFields w keys.reverse stack []).map fun p => .temp (.obj p.1) [] :: p.2

end Asteria.Exec
