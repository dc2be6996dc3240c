import Verif.Model.Globals

/-!
# What global contexts guarantee
-/

namespace Asteria.Globals

/-- Addresses of objects on a stack that grows down by at least `f` bytes with each call, below `top`. -/
def Descends (f : Nat) : Nat → List Nat → Prop
  | _, [] => True
  | top, a :: as => a + f ≤ top ∧ Descends f a as

/-- The modules of the standard library (the chapters of doc/standard-library.md) with the versions since which they
exist, `major` and `minor`; `std.version` always exists. -/
def documented : List (String × Nat × Nat) :=
  [("version", 0, 0), ("gc", 1, 0), ("system", 1, 0), ("debug", 1, 0), ("chrono", 1, 0), ("string", 1, 0), ("array", 1, 0), ("numeric", 1, 0),
    ("math", 1, 0), ("filesystem", 1, 0), ("checksum", 1, 0), ("json", 1, 0), ("io", 1, 0), ("zlib", 1, 0), ("ini", 1, 0), ("csv", 1, 0), ("rsa", 2, 0)]

/-- The modules for a requested version `major.minor`: those that are not newer. -/
def available (major minor : Nat) : List String :=
  (documented.filter fun m => m.2.1 < major ∨ (m.2.1 = major ∧ m.2.2 ≤ minor)).map (·.1)

end Asteria.Globals
