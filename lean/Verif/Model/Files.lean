import Verif.Model.Basic

/-!
# Reading and writing files

The functions of /repo/asteria/src/library/filesystem.cpp that transfer the contents of files.  The operating system is modelled
by what POSIX says about regular files: any call may fail, and a call that transfers `n` bytes may transfer fewer than that, but
at least one if there is one.
-/

namespace Asteria.Files

/-- What the operating system decides about a call (filesystem.cpp:41, 423, 448, 457, 490, 515, 524, 557, 565, 576, 591, 599,
613, 622, 633, 647, 662): it fails, or it succeeds and, if it is a transfer, moves at most `k` bytes. -/
inductive Ans where
  | fail
  | upto (k : Nat)
deriving DecidableEq

/-- The decisions about all calls, in order. -/
abbrev Sys := Nat → Ans

/-- How many bytes are transferred when `n` are possible: at least one if `n` is not zero (`::read()`, `::pread()` and `::write()`
on regular files). -/
def moved (k n : Nat) : Nat := min (max k 1) n

/-- A file: its contents and its permission bits (`st_mode`, filesystem.cpp:632). -/
structure File where
  data : Bytes
  mode : BitVec 12
deriving DecidableEq

/-- The files: `name` tells which file a path leads to, or would lead to if it was created (several paths may lead to the same
file, because of links); `file` is the file, if it exists; `umask` is that of the process.  Simplified: directories, pipes and
devices are not represented, except that any call may fail; no other process changes a file meanwhile. -/
structure Disk where
  name : Bytes → Nat
  file : Nat → Option File
  umask : BitVec 12

namespace Disk

/-- Replaces a file. -/
def put (d : Disk) (n : Nat) (f : File) : Disk := { d with file := fun k => if k = n then some f else d.file k }

/-- `::write()` on a file that has been opened with `O_APPEND`, filesystem.cpp:41. -/
def append (d : Disk) (n : Nat) (s : Bytes) : Disk :=
  match d.file n with
  | none => d
  | some f => d.put n { f with data := f.data ++ s }

/-- `::ftruncate()`, filesystem.cpp:576: a longer file is cut, a shorter one is filled with zeros. -/
def truncate (d : Disk) (n len : Nat) : Disk :=
  match d.file n with
  | none => d
  | some f => d.put n { f with data := f.data.take len ++ List.replicate (len - f.data.length) 0 }

/-- `::open()` with `O_CREAT`, filesystem.cpp:557, 565, 591, 599 and 622: with `O_EXCL` fails if the file exists, with `O_TRUNC`
discards the contents. -/
def create (d : Disk) (path : Bytes) (trunc excl : Bool) (mode : BitVec 12) : Option Disk :=
  match d.file (d.name path) with
  | none => some (d.put (d.name path) ⟨[], mode &&& ~~~d.umask⟩)
  | some f => if excl then none else some (if trunc then d.put (d.name path) { f with data := [] } else d)

end Disk

/-- `safe_c_str()`, rocket/cow_string.hpp: throws an exception if a path contains a null character. -/
def safe (path : Bytes) : Bool := !path.contains 0

/-- The largest `int64_t`. -/
def int64Max : Int := 2 ^ 63 - 1

/-- The largest `int`, filesystem.cpp:444. -/
def intMax : Int := 2 ^ 31 - 1

/-- The size of the next batch, filesystem.cpp:444 and 511, where `clamp_cast` is rocket/fwd.hpp:452-457. -/
def batch (nbatch : Nat) (rlimit : Int) : Nat := min (nbatch * 2) (if rlimit < 0 then 0 else if intMax < rlimit then intMax.toNat else rlimit.toNat)

/-- The loop of `std_filesystem_read`, filesystem.cpp:439-471.  `seek` tells whether `pread()` at `roffset` is used, rather than
`read()` at the file pointer `fpos`.  Simplified: that the string is extended before a transfer and cut after it is left out, as
is its maximum size. -/
def readLoop (σ : Sys) (c : Bytes) (seek : Bool) : Nat → Nat → Nat → Int → Int → Nat → Bytes → Res Bytes
  | 0, _, _, _, _, _, _ => .ub
  | fuel + 1, i, fpos, roffset, rlimit, nbatch, data =>
    if rlimit ≤ 0 then .ok data
    else
      let nbatch := batch nbatch rlimit
      match σ i with
      | .fail => .throw
      | .upto k =>
        let s := c.drop (if seek then roffset.toNat else fpos)
        let nread := moved k (min nbatch s.length)
        let data := data ++ s.take nread
        if nread = 0 then .ok data
        else if int64Max < roffset + nread then .ub
        else readLoop σ c seek fuel (i + 1) (if seek then fpos else fpos + nread) (roffset + nread) (rlimit - nread) nbatch data

/-- `std_filesystem_read`, filesystem.cpp:417-473. -/
def read (σ : Sys) (d : Disk) (path : Bytes) (offset limit : Option Int) : Res Bytes :=
  if offset.getD 0 < 0 then .throw
  else if !safe path then .throw
  else match σ 0, d.file (d.name path) with
    | .upto _, some f => readLoop σ f.data offset.isSome (f.data.length + 1) 1 0 (offset.getD 0) (limit.getD int64Max) 0x100000 []
    | _, _ => .throw

/-- The loop of `std_filesystem_stream`, filesystem.cpp:506-541.  The callback gets the offset and the data, and may change
the state `S` of the program. -/
def streamLoop (σ : Sys) (c : Bytes) (cb : Int → Bytes → S → Res Unit × S) (seek : Bool) (offset : Int) :
    Nat → Nat → Nat → Int → Int → Nat → S → Res Int × S
  | 0, _, _, _, _, _, s => (.ub, s)
  | fuel + 1, i, fpos, roffset, rlimit, nbatch, s =>
    if rlimit ≤ 0 then (.ok (roffset - offset), s)
    else
      let nbatch := batch nbatch rlimit
      match σ i with
      | .fail => (.throw, s)
      | .upto k =>
        let rest := c.drop (if seek then roffset.toNat else fpos)
        let nread := moved k (min nbatch rest.length)
        if nread = 0 then (.ok (roffset - offset), s)
        else match cb roffset (rest.take nread) s with
          | (.throw, s) => (.throw, s)
          | (.ub, s) => (.ub, s)
          | (.ok _, s) =>
            if int64Max < roffset + nread then (.ub, s)
            else streamLoop σ c cb seek offset fuel (i + 1) (if seek then fpos else fpos + nread) (roffset + nread) (rlimit - nread) nbatch s

/-- `std_filesystem_stream`, filesystem.cpp:475-541.  Simplified: the callback does not change the file. -/
def stream (σ : Sys) (d : Disk) (path : Bytes) (cb : Int → Bytes → S → Res Unit × S) (offset limit : Option Int) (s : S) : Res Int × S :=
  if offset.getD 0 < 0 then (.throw, s)
  else if !safe path then (.throw, s)
  else match σ 0, d.file (d.name path) with
    | .upto _, some f =>
      streamLoop σ f.data cb offset.isSome (offset.getD 0) (f.data.length + 1) 1 0 (offset.getD 0) (limit.getD int64Max) 0x100000 s
    | _, _ => (.throw, s)

/-- `do_write_loop`, filesystem.cpp:34-51, on a file that has been opened with `O_APPEND`.  Also tells the index of the next
call. -/
def writeLoop (σ : Sys) (n : Nat) : Nat → Nat → Bytes → Disk → Res Nat × Disk
  | 0, i, s, d => (if s = [] then .ok i else .ub, d)
  | fuel + 1, i, s, d =>
    if s = [] then (.ok i, d)
    else match σ i with
      | .fail => (.throw, d)
      | .upto k => writeLoop σ n fuel (i + 1) (s.drop (moved k s.length)) (d.append n (s.take (moved k s.length)))

/-- `std_filesystem_write`, filesystem.cpp:543-580. -/
def write (σ : Sys) (d : Disk) (path : Bytes) (offset : Option Int) (data : Bytes) : Res Unit × Disk :=
  if offset.getD 0 < 0 then (.throw, d)
  else if !safe path then (.throw, d)
  else match σ 0, d.create path offset.isNone false 0o666 with
    | .upto _, some d =>
      match offset with
      | none =>
        let r := writeLoop σ (d.name path) data.length 1 data d
        (r.1.map fun _ => (), r.2)
      | some off =>
        match σ 1 with
        | .fail => (.throw, d)
        | .upto _ =>
          let r := writeLoop σ (d.name path) data.length 2 data (d.truncate (d.name path) off.toNat)
          (r.1.map fun _ => (), r.2)
    | _, _ => (.throw, d)

/-- `std_filesystem_append`, filesystem.cpp:582-606. -/
def append (σ : Sys) (d : Disk) (path data : Bytes) (exclusive : Option Bool) : Res Unit × Disk :=
  if !safe path then (.throw, d)
  else match σ 0, d.create path false (exclusive = some true) 0o666 with
    | .upto _, some d =>
      let r := writeLoop σ (d.name path) data.length 1 data d
      (r.1.map fun _ => (), r.2)
    | _, _ => (.throw, d)

/-- The loop of `std_filesystem_copy`, filesystem.cpp:645-659: `fpos` is the file pointer of the old file. -/
def copyLoop (σ : Sys) (old new nbuf : Nat) : Nat → Nat → Nat → Disk → Res Nat × Disk
  | 0, _, _, d => (.ub, d)
  | fuel + 1, i, fpos, d =>
    match σ i with
    | .fail => (.throw, d)
    | .upto k =>
      let s := (((d.file old).map File.data).getD []).drop fpos
      let nread := moved k (min nbuf s.length)
      if nread = 0 then (.ok (i + 1), d)
      else match writeLoop σ new nread (i + 1) (s.take nread) d with
        | (.ok i, d) => copyLoop σ old new nbuf fuel i (fpos + nread) d
        | r => r

/-- `std_filesystem_copy`, filesystem.cpp:608-664.  `blksize` is what `fstat()` says. -/
def copy (σ : Sys) (d : Disk) (blksize : Nat) (pathNew pathOld : Bytes) : Res Unit × Disk :=
  if !safe pathOld then (.throw, d)
  else match σ 0, d.file (d.name pathOld) with
    | .upto _, some _ =>
      let old := d.name pathOld
      if !safe pathNew then (.throw, d)
      else match σ 1, d.create pathNew true false 0o200 with
        | .upto _, some d =>
          let new := d.name pathNew
          match σ 2, d.file old with
          | .upto _, some f =>
            let nbuf := blksize ||| 0x1000
            match copyLoop σ old new nbuf (f.data.length + 1) 3 0 d with
            | (.ok i, d) =>
              match σ i, d.file new with
              | .upto _, some g => (.ok (), d.put new { g with mode := f.mode })
              | _, _ => (.throw, d)
            | (.throw, d) => (.throw, d)
            | (.ub, d) => (.ub, d)
          | _, _ => (.throw, d)
        | _, _ => (.throw, d)
    | _, _ => (.throw, d)

end Asteria.Files
