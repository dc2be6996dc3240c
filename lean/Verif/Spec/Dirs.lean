import Verif.Model.Dirs
import Verif.Spec.Remove

/-!
# What operations on directories mean
-/

namespace Asteria.Dirs
open Asteria.Remove

/-- Nothing else happens: no call fails for other reasons and no other process changes the files. -/
def Sys.Quiet (S : Sys) : Prop := (∀ i, S.fails i = false) ∧ ∀ i n, S.change i n = n

/-- What is at a path, as an entry of a listing, for a file with a number. -/
def entryOf (ino : Nat) : Kind → Entry
  | .file => ⟨vInteger ino, false, false⟩
  | .link _ => ⟨vInteger ino, false, true⟩
  | .dir => ⟨vInteger ino, true, false⟩

/-- The type of a file. -/
def typeOf : Kind → DType
  | .file => .reg
  | .link _ => .lnk
  | .dir => .dir

/-- The names of the directory itself and its parent. -/
def Special (x : Name) : Prop := x = [0x2E] ∨ x = [0x2E, 0x2E]

instance (x : Name) : Decidable (Special x) := inferInstanceAs (Decidable (_ ∨ _))

/-- What `::readdir()` returns is true of the directory at `q`: each entry exists and has the number `ino`, and the type if that is told. -/
def Truthful (root : Node) (q : Path) (ino : Name → Nat) (ds : List Dirent) : Prop :=
  ∀ d ∈ ds, ¬ Special d.name → d.ino = ino d.name ∧ ∃ k, kindAt root (q ++ [d.name]) = some k ∧ ∀ t, d.type = some t → t = typeOf k

/-- `::readdir()` has returned all entries of the directory. -/
def Complete (root : Node) (q : Path) (ds : List Dirent) : Prop :=
  ∀ x, ¬ Special x → kindAt root (q ++ [x]) ≠ none → ∃ d ∈ ds, d.name = x

/-- What a listing has for a name. -/
def Listed (root : Node) (q : Path) (ino : Name → Nat) (o : List (Name × Entry)) : Prop :=
  ∀ x, o.lookup x = if Special x then none else (kindAt root (q ++ [x])).map (entryOf (ino x))

/-- At `q`, where nothing has been, there is now something of a kind with nothing below it, and nothing else has changed. -/
def Added (root root' : Node) (q : Path) (k : Kind) : Prop :=
  kindAt root q = none ∧ kindAt root' q = some k ∧ ∀ p, p ≠ q → kindAt root' p = kindAt root p

/-- What has been at `p` and below it is now at `q` and below it; what has been there is gone, and nothing else has changed. -/
def Moved (root root' : Node) (p q : Path) : Prop :=
  (∀ r, kindAt root' (q ++ r) = kindAt root (p ++ r)) ∧ (∀ r, ¬ q <+: r → p <+: r → kindAt root' r = none) ∧
  ∀ r, ¬ q <+: r → ¬ p <+: r → kindAt root' r = kindAt root r

/-- A path leads to a directory, maybe through links. -/
def LeadsToDirectory (root : Node) (path : Path) : Prop := ∃ q, resolve root true maxLinks path = .ok q ∧ kindAt root q = some .dir

/-- A time in nanoseconds since the epoch. -/
def nanos (sec nsec : Int) : Int := sec * 1000000000 + nsec

end Asteria.Dirs
