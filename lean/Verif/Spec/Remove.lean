import Verif.Model.Remove

/-!
# What removing a directory means
-/

namespace Asteria.Remove

/-- What is at a path. -/
inductive Kind where
  | file
  | link (target : Path)
  | dir
deriving DecidableEq

/-- What a node is. -/
def Node.kind : Node → Kind
  | .file => .file
  | .link t => .link t
  | .dir _ => .dir

/-- What is at a path of a tree, if anything. -/
def kindAt (root : Node) (p : Path) : Option Kind := (lookup root p).map Node.kind

mutual
/-- The number of files, links and directories. -/
def size : Node → Nat
  | .file => 1
  | .link _ => 1
  | .dir es => 1 + sizes es

def sizes : List (Name × Node) → Nat
  | [] => 0
  | (_, n) :: es => size n + sizes es
end

mutual
/-- No directory has two entries with the same name. -/
def Distinct : Node → Prop
  | .file => True
  | .link _ => True
  | .dir es => (es.map Prod.fst).Nodup ∧ Distincts es

def Distincts : List (Name × Node) → Prop
  | [] => True
  | (_, n) :: es => Distinct n ∧ Distincts es
end

/-- What is at `q` and everything below it is gone, and nothing else has changed. -/
def Gone (root root' : Node) (q : Path) : Prop := ∀ p, (q <+: p → kindAt root' p = none) ∧ (¬ q <+: p → kindAt root' p = kindAt root p)

/-- Some of what is at `q` and below it may be gone, and nothing else has changed. -/
def Pruned (root root' : Node) (q : Path) : Prop := ∀ p, kindAt root' p = kindAt root p ∨ (q <+: p ∧ kindAt root' p = none)

/-- A path leads to `q`, and does so as long as only files below `q` are removed. -/
def Steady (root : Node) (path q : Path) : Prop :=
  ∀ root', Pruned root root' q → lookup root' q ≠ none → resolve root' false maxLinks path = .ok q

end Asteria.Remove
