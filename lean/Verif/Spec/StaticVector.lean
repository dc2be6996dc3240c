import Verif.Model.StaticVector

/-!
# What `static_vector` should do: a list of at most `cap` elements
-/

namespace Asteria.StaticVector

/-- Whether `n` elements can be counted by the type that the implementation has chosen for a capacity: all capacities but
256, 65536 and 2^32 are fine; with these, a full vector cannot be counted. -/
def Countable (cap n : Nat) : Prop :=
  cap < 2 ^ 64 ∧ (n < cap ∨ cap ≠ 256 ∧ cap ≠ 65536 ∧ cap ≠ 4294967296)

/-- A vector has exactly the elements `l`: they are in the first cells, and there are no objects in the others. -/
structure Holds (cap : Nat) (v : Vec α) (l : List α) : Prop where
  size : v.nelem = l.length
  bound : l.length ≤ cap
  cells : v.cells = l.map some ++ List.replicate (cap - l.length) none
  count : Countable cap l.length

/-- Insertion of elements into a list, if there is such a position and there is room; otherwise an exception is thrown, and
nothing is changed. -/
def put (cap : Nat) (l : List α) (pos : Nat) (xs : List α) : List α × Bool :=
  if pos ≤ l.length ∧ l.length + xs.length ≤ cap then (l.take pos ++ xs ++ l.drop pos, false) else (l, true)

/-- What a call does to the list of elements, and whether it throws.  `none`: the call is not allowed. -/
def expected (cap : Nat) (l : List α) : Op α → Option (List α × Bool)
  | .append n x => some (put cap l l.length (List.replicate n x))
  | .appendRange _ xs => some (put cap l l.length xs)
  | .pushBack x => some (put cap l l.length [x])
  | .insert pos x => some (put cap l pos [x])
  | .insertN pos n x => some (put cap l pos (List.replicate n x))
  | .insertRange pos _ xs => some (put cap l pos xs)
  | .erase pos n => some (if pos ≤ l.length then (l.take pos ++ l.drop (pos + n), false) else (l, true))
  | .popBack n => if n ≤ l.length then some (l.take (l.length - n), false) else none
  | .clear => some ([], false)
  | .resize n x =>
    some (if n ≤ cap then (l.take n ++ List.replicate (n - l.length) x, false) else (l, true))
  | .reserve n => some (l, decide (cap < n))
  -- the old elements are gone even if there is no room for new ones
  | .assign n x => some (if n ≤ cap then (List.replicate n x, false) else ([], true))
  | .assignRange _ xs => some (if xs.length ≤ cap then (xs, false) else ([], true))
  | .mut pos x => some (if pos < l.length then (l.set pos x, false) else (l, true))

/-- Ranges that can be read only once are not longer than there is room.  (This is a restriction: such ranges should be
checked, too.) -/
def Op.Measured (cap : Nat) (l : List α) : Op α → Prop
  | .appendRange false xs => l.length + xs.length ≤ cap
  | .insertRange _ false xs => l.length + xs.length ≤ cap
  | .assignRange false xs => xs.length ≤ cap
  | _ => True

/-- What a program does, call by call. -/
inductive Runs (cap : Nat) : List α → List (Op α) → List α → List Bool → Prop where
  | nil {l} : Runs cap l [] l []
  | cons {l o l₁ t os l₂ ts} : o.Measured cap l → expected cap l o = some (l₁, t) → Countable cap l₁.length →
      Runs cap l₁ os l₂ ts → Runs cap l (o :: os) l₂ (t :: ts)

end Asteria.StaticVector
