import Verif.Model.CowString

/-!
# Strings as values

What the operations of `cow_string` do if every string has its own text.  Of the model, only the operations themselves are
used here.
-/

namespace Asteria.CowString

/-- Replaces the text of string `v`, if there is such a string. -/
def update (env : List Bytes) (v : Nat) (f : Bytes → Res Bytes) : Res (List Bytes) :=
  match env[v]? with
  | none => .ub
  | some l => (f l).map fun l' => env.set v l'

/-- The text of a string; one that does not exist is the caller's mistake. -/
def textOf (env : List Bytes) (w : Nat) : Res Bytes :=
  match env[w]? with
  | none => .ub
  | some l => .ok l

/-- The part of a text from `pos` on, of at most `n` characters. -/
def part (l : Bytes) (pos n : Nat) : Res Bytes := if pos ≤ l.length then .ok ((l.drop pos).take n) else .throw

/-- The characters to be copied. -/
def Src.value (env : List Bytes) : Src → Res Bytes
  | .ext b => .ok b
  | .sub w pos n => (textOf env w).bind fun l => part l pos n

/-- The text with `tn` characters from `tpos` on replaced. -/
def replaced (l : Bytes) (tpos tn : Nat) (bs : Bytes) : Res Bytes :=
  if tpos ≤ l.length then .ok (l.take tpos ++ (bs ++ (l.drop tpos).drop tn)) else .throw

/-- The texts after an operation.  `ub` is a violated precondition: a string that does not exist, or more characters to
pop than there are; `throw` is `out_of_range`. -/
def Op.spec (env : List Bytes) : Op → Res (List Bytes)
  | .literal v b => update env v fun _ => .ok b
  | .shallow v b => update env v fun _ => .ok b
  | .copy v w => (textOf env v).bind fun _ => (textOf env w).bind fun l => .ok (env.set v l)
  | .move v w => (textOf env v).bind fun _ => (textOf env w).bind fun l => .ok (if v = w then env else (env.set v l).set w [])
  | .swap v w => (textOf env v).bind fun k => (textOf env w).bind fun l => .ok ((env.set v l).set w k)
  | .append v src => (textOf env v).bind fun l => (src.value env).bind fun bs => .ok (env.set v (l ++ bs))
  | .fill v n a => update env v fun l => .ok (l ++ List.replicate n a)
  | .appendSP v as => update env v fun l => .ok (l ++ as)
  | .replace v tpos tn src => (textOf env v).bind fun l => (src.value env).bind fun bs =>
      (replaced l tpos tn bs).map fun l' => env.set v l'
  | .replaceFill v tpos tn n a => update env v fun l => replaced l tpos tn (List.replicate n a)
  | .popBack v n => update env v fun l => if n ≤ l.length then .ok (l.take (l.length - n)) else .ub
  | .substr v w tpos tn => (textOf env v).bind fun _ => (textOf env w).bind fun l =>
      (part l tpos tn).map fun l' => env.set v l'
  | .setChar v pos a => update env v fun l => if pos < l.length then .ok (l.set pos a) else .throw
  | .resize v n a => update env v fun l => .ok (l.take n ++ List.replicate (n - l.length) a)
  | .clear v => update env v fun _ => .ok []
  | .shrink v => update env v .ok
  | .reserve v _ => update env v .ok

/-- The texts after a program. -/
def specAll : List Op → List Bytes → Res (List Bytes)
  | [], env => .ok env
  | op :: ops, env => (op.spec env).bind (specAll ops)

/-- What the constants are like: a unit of storage is not empty, and all sizes fit into 64 bits. -/
def Cfg.Good (c : Cfg) : Prop := 0 < c.ssize ∧ c.limit + c.ssize < 2 ^ 64

end Asteria.CowString
