import Verif.Model.Remove

/-!
# Directories and properties of files

`std_filesystem_get_properties`, `move`, `list`, `create_directory`, `remove_directory`, `symlink` and `remove` of
/repo/asteria/src/library/filesystem.cpp, over the tree of files of `Verif.Model.Remove`.
-/

namespace Asteria.Dirs
open Asteria.Remove

/-- The error codes that matter (filesystem.cpp:76, 315, 390, 408 and 682). -/
inductive Errno where
  | enoent
  | eexist
  | other
deriving DecidableEq

/-- The error codes of path resolution. -/
def ofErr : Err → Errno
  | .enoent => .enoent
  | _ => .other

/-- A directory with a new entry. -/
def adding (x : Name) (n : Node) : Node → Node
  | .dir es => .dir (es ++ [(x, n)])
  | m => m

/-- The tree with a new node at a path at which there is nothing. -/
def insert (root : Node) (p : Path) (n : Node) : Node :=
  match p.getLast? with
  | none => root
  | some x => modify root p.dropLast (adding x n)

/-- What a path leads to (`::lstat()` and `::stat()`, filesystem.cpp:350 and 392). -/
def nodeAt (root : Node) (follow : Bool) (p : Path) : Except Errno Node :=
  match resolve root follow maxLinks p with
  | .error e => .error (ofErr e)
  | .ok q =>
    match lookup root q with
    | none => .error .enoent
    | some n => .ok n

/-- `::mkdir()` and `::symlink()`, filesystem.cpp:387 and 669: something new at a path. -/
def create (root : Node) (p : Path) (n : Node) : Except Errno Node :=
  match resolve root false maxLinks p with
  | .error e => .error (ofErr e)
  | .ok q =>
    match lookup root q with
    | some _ => .error .eexist
    | none =>
      match lookup root q.dropLast with
      | some (.dir _) => .ok (insert root q n)
      | _ => .error .enoent

/-- Whether something can be replaced with `n` by `::rename()`. -/
def replaceable (n : Node) : Node → Bool
  | .dir [] => isDir n
  | .dir (_ :: _) => false
  | _ => !isDir n

/-- `::rename()`, filesystem.cpp:148.  Simplified: two names of the same file are not known to be the same, and there is one device. -/
def rename (root : Node) (old new : Path) : Except Errno Node :=
  match resolve root false maxLinks old with
  | .error e => .error (ofErr e)
  | .ok p =>
    match lookup root p with
    | none => .error .enoent
    | some n =>
      match resolve root false maxLinks new with
      | .error e => .error (ofErr e)
      | .ok q =>
        if p = q then .ok root
        else if p <+: q ∨ q = [] then .error .other
        else match lookup root q with
          | some m => if replaceable n m then .ok (insert (remove (remove root p) q) q n) else .error .other
          | none =>
            match lookup root q.dropLast with
            | some (.dir _) => .ok (insert (remove root p) q n)
            | _ => .error .enoent

/-- The types that `::readdir()` may tell (`DT_DIR`, `DT_LNK` and others, filesystem.cpp:340-344). -/
inductive DType where
  | dir
  | lnk
  | reg
deriving DecidableEq

/-- `struct dirent`, filesystem.cpp:326-379; the type is `none` for `DT_UNKNOWN`. -/
structure Dirent where
  name : Name
  ino : Nat
  type : Option DType

/-- What happens around the calls: `fails i` tells whether the `i`-th call fails although it could succeed, `change i` is what other
processes do before it. `dirents` is what `::readdir()` returns before it returns a null pointer, and `broken` tells whether it
returns the null pointer because of an error (filesystem.cpp:326). -/
structure Sys where
  fails : Nat → Bool
  change : Nat → Node → Node
  dirents : List Dirent
  broken : Bool

/-- A call that fails or does what it should. -/
def Sys.call {α : Type} (S : Sys) (i : Nat) (r : Except Errno α) : Except Errno α := if S.fails i then .error .other else r

/-- An entry in the result of `list()`, filesystem.cpp:362-377. -/
structure Entry where
  inode : Int
  isDirectory : Bool
  isSymlink : Bool
deriving DecidableEq

/-- `V_integer(n)` for an unsigned number, filesystem.cpp:365 and 88-99. -/
def vInteger (n : Nat) : Int := Int.bmod n (2 ^ 64)

/-- `try_emplace()` on an object, filesystem.cpp:379.  Simplified: the order of insertion is kept. -/
def tryEmplace (o : List (Name × Entry)) (k : Name) (e : Entry) : List (Name × Entry) :=
  match o.lookup k with
  | some _ => o
  | none => o ++ [(k, e)]

/-- `S_ISLNK`, filesystem.cpp:358. -/
def isLink : Node → Bool
  | .link _ => true
  | _ => false

/-- The loop of `list()`, filesystem.cpp:326-380, from the `i`-th call on.  Simplified: the path of the child is the list of components
with the name appended. -/
def listLoop (S : Sys) (path : Path) : List Dirent → Nat → Node → List (Name × Entry) → Res (List (Name × Entry))
  | [], _, _, o => .ok o
  | d :: ds, i, root, o =>
    if d.name = [0x2E] then listLoop S path ds i root o
    else if d.name = [0x2E, 0x2E] then listLoop S path ds i root o
    else match d.type with
      | some t => listLoop S path ds i root (tryEmplace o d.name ⟨vInteger d.ino, t = .dir, t = .lnk⟩)
      | none =>
        match S.call i (nodeAt (S.change i root) false (path ++ [d.name])) with
        | .error _ => .throw
        | .ok n => listLoop S path ds (i + 1) (S.change i root) (tryEmplace o d.name ⟨vInteger d.ino, isDir n, isLink n⟩)

/-- `std_filesystem_list`, filesystem.cpp:309-382; `none` is `null`.  The error of `::readdir()` is not looked at. -/
def list (S : Sys) (root : Node) (path : Path) : Res (Option (List (Name × Entry))) :=
  match S.call 0 (nodeAt (S.change 0 root) true path) with
  | .error .enoent => .ok none
  | .error _ => .throw
  | .ok (.dir _) => (listLoop S path S.dirents 1 (S.change 0 root) []).map some
  | .ok _ => .throw

/-- `std_filesystem_create_directory`, filesystem.cpp:384-400: the result and the files. -/
def createDirectory (S : Sys) (root : Node) (path : Path) : Res Int × Node :=
  match S.call 0 (create (S.change 0 root) path (.dir [])) with
  | .ok root => (.ok 1, root)
  | .error .eexist =>
    match S.call 1 (nodeAt (S.change 1 (S.change 0 root)) true path) with
    | .ok (.dir _) => (.ok 0, S.change 1 (S.change 0 root))
    | _ => (.throw, S.change 1 (S.change 0 root))
  | .error _ => (.throw, S.change 0 root)

/-- Error codes of `::rmdir()` and `::unlink()`. -/
def liftErr : Except Err Node → Except Errno Node
  | .ok n => .ok n
  | .error e => .error (ofErr e)

/-- `std_filesystem_remove_directory`, filesystem.cpp:402-415. -/
def removeDirectory (S : Sys) (root : Node) (path : Path) : Res Int × Node :=
  match S.call 0 (liftErr (rmdir (S.change 0 root) path)) with
  | .ok root => (.ok 1, root)
  | .error .enoent => (.ok 0, S.change 0 root)
  | .error _ => (.throw, S.change 0 root)

/-- `std_filesystem_remove`, filesystem.cpp:676-689. -/
def removeFile (S : Sys) (root : Node) (path : Path) : Res Int × Node :=
  match S.call 0 (liftErr (unlink (S.change 0 root) path)) with
  | .ok root => (.ok 1, root)
  | .error .enoent => (.ok 0, S.change 0 root)
  | .error _ => (.throw, S.change 0 root)

/-- `std_filesystem_symlink`, filesystem.cpp:666-674. -/
def symlink (S : Sys) (root : Node) (pathNew target : Path) : Res Unit × Node :=
  match S.call 0 (create (S.change 0 root) pathNew (.link target)) with
  | .ok root => (.ok (), root)
  | .error _ => (.throw, S.change 0 root)

/-- `std_filesystem_move`, filesystem.cpp:145-153. -/
def move (S : Sys) (root : Node) (pathNew pathOld : Path) : Res Unit × Node :=
  match S.call 0 (rename (S.change 0 root) pathOld pathNew) with
  | .ok root => (.ok (), root)
  | .error _ => (.throw, S.change 0 root)

/-- `struct stat`, filesystem.cpp:75; `device`, `inode` and the number of links are unsigned, the rest is signed. -/
structure Stat where
  dev : Nat
  ino : Nat
  nlink : Nat
  mode : Nat
  size : Int
  blocks : Int
  asec : Int
  ansec : Int
  msec : Int
  mnsec : Int

/-- A field of the properties. -/
inductive Field where
  | int (i : Int)
  | bool (b : Bool)
deriving DecidableEq

/-- The result of an operation on `int64_t`. -/
def int64 (i : Int) : Res Int := if -2 ^ 63 ≤ i ∧ i < 2 ^ 63 then .ok i else .ub

/-- A timestamp, filesystem.cpp:123 and 132 (with `__USE_XOPEN2K8`). -/
def stamp (sec nsec : Int) : Res Int := do
  let a ← int64 (sec * 1000)
  int64 (a + Int.tdiv nsec 1000000)

/-- `std_filesystem_get_properties`, filesystem.cpp:72-142, from what `::lstat()` returns; `none` is `null`. -/
def getProperties (r : Except Errno Stat) : Res (Option (List (String × Field))) :=
  match r with
  | .error .enoent => .ok none
  | .error _ => .throw
  | .ok s => do
    let disk ← int64 (s.blocks * 512)
    let a ← stamp s.asec s.ansec
    let m ← stamp s.msec s.mnsec
    .ok (some [("device", .int (vInteger s.dev)), ("inode", .int (vInteger s.ino)), ("link_count", .int (vInteger s.nlink)),
      ("is_directory", .bool (s.mode &&& 0xF000 = 0x4000)), ("is_symlink", .bool (s.mode &&& 0xF000 = 0xA000)), ("size", .int s.size),
      ("size_on_disk", .int disk), ("time_accessed", .int a), ("time_modified", .int m)])

end Asteria.Dirs
