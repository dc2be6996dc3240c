import Verif.Model.Files

/-!
# What reading and writing files means
-/

namespace Asteria.Files

/-- The bytes of a file from `offset` on, at most `limit` of them. -/
def part (c : Bytes) (offset limit : Option Int) : Bytes :=
  match limit with
  | none => c.drop (offset.getD 0).toNat
  | some n => (c.drop (offset.getD 0).toNat).take n.toNat

/-- A function gets blocks that follow each other, the first one being at offset `off`, until it throws an exception. -/
def deliver (cb : Int → Bytes → S → Res Unit × S) : Int → List Bytes → S → Res Unit × S
  | _, [], s => (.ok (), s)
  | off, b :: bs, s =>
    match cb off b s with
    | (.ok _, s) => deliver cb (off + b.length) bs s
    | (.throw, s) => (.throw, s)
    | (.ub, s) => (.ub, s)

/-- What handing out the bytes `whole`, of which the first is at `off`, has to do: a function gets nonempty blocks that follow each
other.  They make up everything if it returns; if there is an exception, then it is from the function, or a call to the system
has failed. -/
def Streamed (σ : Sys) (cb : Int → Bytes → S → Res Unit × S) (off : Int) (whole : Bytes) (total : Int) (s : S) (r : Res Int × S) : Prop :=
  ∃ blocks : List Bytes, (∀ b ∈ blocks, b ≠ []) ∧ blocks.flatten <+: whole ∧ (deliver cb off blocks s).2 = r.2 ∧
    match r.1 with
    | .ok n => (deliver cb off blocks s).1 = .ok () ∧ blocks.flatten = whole ∧ n = total
    | .throw => (deliver cb off blocks s).1 = .throw ∨ ((deliver cb off blocks s).1 = .ok () ∧ ∃ j, σ j = .fail)
    | .ub => (deliver cb off blocks s).1 = .ub

/-- What is kept of a file when it is written at `offset`: the first `offset` bytes, with zeros for those that don't exist; nothing
if no offset is given. -/
def kept (c : Bytes) : Option Int → Bytes
  | none => []
  | some off => c.take off.toNat ++ List.replicate (off.toNat - c.length) 0

/-- The contents of a file, empty if there is none. -/
def Disk.contents (d : Disk) (path : Bytes) : Bytes := ((d.file (d.name path)).map File.data).getD []

/-- The permission bits of a file, or those which it gets when it is created with `mode`. -/
def Disk.modeOf (d : Disk) (path : Bytes) (mode : BitVec 12) : BitVec 12 := ((d.file (d.name path)).map File.mode).getD (mode &&& ~~~d.umask)

/-- `d'` is `d` with the file that `path` leads to being `f`. -/
structure Changed (d d' : Disk) (path : Bytes) (f : File) : Prop where
  name : d'.name = d.name
  umask : d'.umask = d.umask
  file : d'.file (d.name path) = some f
  other : ∀ k, k ≠ d.name path → d'.file k = d.file k

end Asteria.Files
