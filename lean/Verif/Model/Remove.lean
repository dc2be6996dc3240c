import Verif.Model.Basic

/-!
# Removing directories

`std_filesystem_remove_recursive`, /repo/asteria/src/library/filesystem.cpp:155-284, over a tree of files, as POSIX has it.
-/

namespace Asteria.Remove

/-- The name of an entry of a directory (`d_name`, filesystem.cpp:247). -/
abbrev Name := Bytes

/-- A path.  Simplified: a path is the list of its components, starting from the root; the components `.` and `..` are not
represented. -/
abbrev Path := List Name

/-- A file, a symbolic link or a directory.  Simplified: all files that are neither links nor directories are alike, and the targets
of links are absolute. -/
inductive Node where
  | file
  | link (target : Path)
  | dir (entries : List (Name × Node))

/-- The node at a path, where links are not followed. -/
def lookup : Node → Path → Option Node
  | n, [] => some n
  | .dir es, x :: p =>
    match es.lookup x with
    | some n => lookup n p
    | none => none
  | _, _ :: _ => none

/-- Changes the node at a path. -/
def modify : Node → Path → (Node → Node) → Node
  | n, [], f => f n
  | .dir es, x :: p, f => .dir (es.map fun e => if e.1 = x then (e.1, modify e.2 p f) else e)
  | n, _ :: _, _ => n

/-- A directory without the entry with a name. -/
def without (x : Name) : Node → Node
  | .dir es => .dir (es.filter fun e => e.1 ≠ x)
  | n => n

/-- The tree without the node at a path.  The root itself is never removed. -/
def remove (root : Node) (p : Path) : Node :=
  match p.getLast? with
  | none => root
  | some x => modify root p.dropLast (without x)

/-- How far a path leads: to a place (at which there may be nothing), to a link that has to be followed, or nowhere. -/
inductive Walk where
  | place (p : Path)
  | jump (target rest : Path)
  | absent
  | notdir

/-- Follows a path up to the next symbolic link (path resolution of the system). -/
def walk (root : Node) (follow : Bool) : Path → Path → Walk
  | done, [] => .place done
  | done, x :: rest =>
    match lookup root (done ++ [x]) with
    | none => if rest = [] then .place (done ++ [x]) else .absent
    | some (.link t) => if rest = [] ∧ follow = false then .place (done ++ [x]) else .jump t rest
    | some (.dir _) => walk root follow (done ++ [x]) rest
    | some .file => if rest = [] then .place (done ++ [x]) else .notdir

/-- The error codes that matter (filesystem.cpp:162, 165, 194 and 210). -/
inductive Err where
  | enoent
  | eisdir
  | other
deriving DecidableEq

/-- Path resolution, which follows at most `links` links. -/
def resolve (root : Node) (follow : Bool) : Nat → Path → Except Err Path
  | links, p =>
    match walk root follow [] p with
    | .place q => .ok q
    | .absent => .error .enoent
    | .notdir => .error .other
    | .jump t rest =>
      match links with
      | 0 => .error .other
      | links + 1 => resolve root follow links (t ++ rest)

/-- The number of links that the system follows. -/
def maxLinks : Nat := 40

/-- `::unlink()`, filesystem.cpp:159 and 206. -/
def unlink (root : Node) (p : Path) : Except Err Node :=
  match resolve root false maxLinks p with
  | .error e => .error e
  | .ok q =>
    match lookup root q with
    | none => .error .enoent
    | some (.dir _) => .error .eisdir
    | some _ => .ok (remove root q)

/-- `::rmdir()`, filesystem.cpp:172 and 189. -/
def rmdir (root : Node) (p : Path) : Except Err Node :=
  match resolve root false maxLinks p with
  | .error e => .error e
  | .ok q =>
    match lookup root q with
    | none => .error .enoent
    | some (.dir []) => if q = [] then .error .other else .ok (remove root q)
    | some _ => .error .other

/-- `::opendir()` and the `::readdir()`s that follow, filesystem.cpp:227 and 234, without the special entries. -/
def list (root : Node) (p : Path) : Option (List (Name × Node)) :=
  match resolve root true maxLinks p with
  | .error _ => none
  | .ok q =>
    match lookup root q with
    | some (.dir es) => some es
    | _ => none

/-- `S_ISDIR` and `DT_DIR`, filesystem.cpp:248 and 263. -/
def isDir : Node → Bool
  | .dir _ => true
  | _ => false

/-- `::lstat()`, filesystem.cpp:256: whether the path is a directory. -/
def lstat (root : Node) (p : Path) : Option Bool :=
  match resolve root false maxLinks p with
  | .error _ => none
  | .ok q => (lookup root q).map isDir

/-- `RM_Disp`, filesystem.cpp:21-26. -/
inductive Disp where
  | rmdir
  | unlink
  | expand
deriving DecidableEq

/-- What happens around the calls: `fails i` tells whether the `i`-th call fails although it could succeed, `change i` is what other
processes do before it, and `typed p` tells whether `readdir()` tells the type of the file at `p` (`_DIRENT_HAVE_D_TYPE`,
filesystem.cpp:244-246). -/
structure World where
  fails : Nat → Bool
  change : Nat → Node → Node
  typed : Path → Bool

/-- The local variables of the function: the files, the number of calls so far, `stack` (the last element first) and `nremoved`,
filesystem.cpp:176-178. -/
structure State where
  root : Node
  calls : Nat
  stack : List (Disp × Path)
  count : Nat

/-- Pushes the entries of a directory, filesystem.cpp:234-268. -/
def push (W : World) (p : Path) : List (Name × Node) → State → Except Node State
  | [], S => .ok S
  | (x, n) :: es, S =>
    let q := p ++ [x]
    if W.typed q then push W p es { S with stack := (if isDir n then .expand else .unlink, q) :: S.stack }
    else
      let root := W.change S.calls S.root
      if W.fails S.calls then .error root
      else match lstat root q with
        | none => .error root
        | some b => push W p es { S with root := root, calls := S.calls + 1, stack := (if b then .expand else .unlink, q) :: S.stack }

/-- What one round of the loop does. -/
inductive Next where
  | more (S : State)
  | failed (root : Node)

/-- One round of the loop, filesystem.cpp:181-282, for the element that has been removed from the stack. -/
def round (W : World) (S : State) (e : Disp × Path) : Next :=
  let root := W.change S.calls S.root
  let T := { S with root := root, calls := S.calls + 1 }
  if W.fails S.calls then .failed root
  else match e.1 with
    | .rmdir =>
      match rmdir root e.2 with
      | .ok root => .more { T with root := root, count := T.count + 1 }
      | .error .enoent => .more T
      | .error _ => .failed root
    | .unlink =>
      match unlink root e.2 with
      | .ok root => .more { T with root := root, count := T.count + 1 }
      | .error .enoent => .more T
      | .error _ => .failed root
    | .expand =>
      let T := { T with stack := (.rmdir, e.2) :: T.stack }
      match list root e.2 with
      | none => .failed root
      | some es =>
        match push W e.2 es T with
        | .error root => .failed root
        | .ok T => .more T

/-- The loop, filesystem.cpp:181-284, if it ends within `fuel` rounds. -/
def loop (W : World) : Nat → State → Option (Res Nat × Node)
  | 0, _ => none
  | fuel + 1, S =>
    match S.stack with
    | [] => some (.ok S.count, S.root)
    | e :: es =>
      match round W { S with stack := es } e with
      | .failed root => some (.throw, root)
      | .more S => loop W fuel S

/-- `std_filesystem_remove_recursive`, filesystem.cpp:155-284, if it ends within `fuel` rounds of the loop.  Simplified: an error that is
not due to the files is none of `ENOENT`, `EISDIR` and `EPERM`. -/
def removeRecursive (W : World) (fuel : Nat) (root : Node) (path : Path) : Option (Res Nat × Node) :=
  let root := W.change 0 root
  if W.fails 0 then some (.throw, root)
  else match unlink root path with
    | .ok root => some (.ok 1, root)
    | .error .enoent => some (.ok 0, root)
    | .error .other => some (.throw, root)
    | .error .eisdir =>
      let root := W.change 1 root
      match (if W.fails 1 then .error .other else rmdir root path) with
      | .ok root => some (.ok 1, root)
      | .error _ => loop W fuel ⟨root, 2, [(.expand, path)], 0⟩

end Asteria.Remove
