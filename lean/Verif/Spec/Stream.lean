import Verif.Model.Stream

/-!
# What a seekable file does

The specification of C146: a file is its contents and a position; nothing of it is taken from the code.
-/

namespace Asteria.Stream.Spec

open Asteria.Stream

variable {α : Type}

/-- A file opened with an access mode. -/
structure File (α : Type) where
  data : List α
  pos : Nat
  mode : Mode

/-- The operations of a stream.  `seek`'s offset is an `int64_t`. -/
inductive Op (α : Type) where
  | seek (off : Int) (dir : Dir)
  | tell
  | getn (n : Nat)
  | getc
  | putn (s : List α)
  | putc (c : α)
  | set (s : List α) (m : Option Mode)
  | clear
  | extract

/-- What an operation returns. -/
inductive Out (α : Type) where
  | num (n : Int)
  | elems (l : List α)
  | elem (c : Option α)
  | done
deriving DecidableEq

/-- Contents after some elements have been written at a position: they take the place of what was there,
what precedes and what follows them is kept, and a gap after the old end is filled with `z`.  Writing
nothing changes nothing. -/
def written (z : α) (data : List α) (pos : Nat) (s : List α) : List α :=
  if s = [] then data
  else (data ++ List.replicate (pos - data.length) z).take pos ++ s ++ data.drop (pos + s.length)

/-- The bits of a mode, /repo/asteria/rocket/tinyfmt_base.hpp:22-25, by their numbers: may it be read? -/
def mayRead (m : Mode) : Bool := m.testBit 0
/-- May it be written? -/
def mayWrite (m : Mode) : Bool := m.testBit 1
/-- Is it written at its end? -/
def mayAppend (m : Mode) : Bool := m.testBit 2

/-- Where a file is written: at its end if it has been opened for appending, and at its position otherwise. -/
def File.at (f : File α) : Nat := if mayAppend f.mode then f.data.length else f.pos

/-- Writing to a file; `none` is an error. -/
def File.write (limit : Nat) (z : α) (f : File α) (s : List α) : Option (File α) :=
  if mayWrite f.mode = true ∧ (s ≠ [] → f.at + s.length ≤ limit) then
    some { f with data := written z f.data f.at s, pos := f.at + s.length }
  else none

/-- Reading from a file; `none` is an error. -/
def File.read (f : File α) (n : Nat) : Option (List α × File α) :=
  if mayRead f.mode then
    some ((f.data.drop f.pos).take n, { f with pos := f.pos + ((f.data.drop f.pos).take n).length })
  else none

/-- Where a seek starts. -/
def File.origin (f : File α) : Dir → Option Int
  | .set => some 0
  | .cur => some f.pos
  | .fin => some f.data.length
  | .other => none

/-- One operation on a file; `none` is an error. -/
def File.step (limit : Nat) (z : α) (f : File α) : Op α → Option (Out α × File α)
  | .seek off dir => (f.origin dir).bind fun o =>
    if 0 ≤ o + off ∧ o + off < 2 ^ 63 then some (.done, { f with pos := (o + off).toNat }) else none
  | .tell => some (.num f.pos, f)
  | .getn n => (f.read n).map fun r => (.elems r.1, r.2)
  | .getc => (f.read 1).map fun r => (.elem r.1.head?, r.2)
  | .putn s => (f.write limit z s).map fun f => (.done, f)
  | .putc c => (f.write limit z [c]).map fun f => (.done, f)
  | .set s m => some (.done, ⟨s, 0, m.getD f.mode⟩)
  | .clear => some (.done, ⟨[], 0, f.mode⟩)
  | .extract => some (.elems f.data, ⟨[], 0, f.mode⟩)

/-- A sequence of operations. -/
def File.steps (limit : Nat) (z : α) (f : File α) : List (Op α) → Option (List (Out α) × File α)
  | [] => some ([], f)
  | op :: ops => (f.step limit z op).bind fun r => (r.2.steps limit z ops).map fun q => (r.1 :: q.1, q.2)

/-- One operation on a stream. -/
def step (limit : Nat) (z : α) (t : Str α) : Op α → Res (Out α × Str α)
  | .seek off dir => (Stream.seek t off dir).map fun t => (.done, t)
  | .tell => .ok (.num (Stream.tell t), t)
  | .getn n => (Stream.getn t n).map fun r => (.elems r.1, r.2)
  | .getc => (Stream.getc t).map fun r => (.elem r.1, r.2)
  | .putn s => (Stream.putn limit z t s).map fun t => (.done, t)
  | .putc c => (Stream.putc limit z t c).map fun t => (.done, t)
  | .set s m => .ok (.done, setString t s m)
  | .clear => .ok (.done, clearString t)
  | .extract => .ok (.elems (extractString t).1, (extractString t).2)

/-- A sequence of operations on a stream. -/
def steps (limit : Nat) (z : α) (t : Str α) : List (Op α) → Res (List (Out α) × Str α)
  | [] => .ok ([], t)
  | op :: ops => (step limit z t op).bind fun r => (steps limit z r.2 ops).map fun q => (r.1 :: q.1, q.2)

/-- A string that is given to a stream is not longer than strings can be. -/
def Op.pre (limit : Nat) : Op α → Prop
  | .set s _ => s.length ≤ limit
  | _ => True

/-- A write that leaves nothing after it: it reaches the end of the file, and if it is empty, it is at the
end. -/
def Reaches (f : File α) (s : List α) : Prop :=
  f.data.length ≤ f.at + s.length ∧ (s = [] → f.at = f.data.length)

/-- An operation that, if it writes, reaches the end of the file. -/
def Op.reaches (f : File α) : Op α → Prop
  | .putn s => Reaches f s
  | .putc c => Reaches f [c]
  | _ => True

/-- Every write of a sequence of operations reaches the end of the file. -/
def AllReach (limit : Nat) (z : α) (f : File α) : List (Op α) → Prop
  | [] => True
  | op :: ops => op.reaches f ∧ ∀ r, f.step limit z op = some r → AllReach limit z r.2 ops

/-- The stream is at the position of the file, and has its contents. -/
structure Same (limit : Nat) (t : Str α) (f : File α) : Prop where
  data : t.str = f.data
  pos : t.off = f.pos
  mode : t.mode = f.mode
  le : f.data.length ≤ limit
  range : f.pos < 2 ^ 63

/-- The outcome of a call on a stream is that of the call on the file: the same is returned and the stream
is left as the file is, or there is an exception where there is an error. -/
def Agrees {β : Type} (limit : Nat) : Option (β × File α) → Res (β × Str α) → Prop
  | some r, x => ∃ t, x = .ok (r.1, t) ∧ Same limit t r.2
  | none, x => x = .throw

/-- The mode strings that `fdopen` takes for a descriptor opened with given flags, as POSIX has it: `r` to
read, `w` and `a` to write, and with `+` both; `b` has no effect. -/
inductive Permits (f : Flags) : Bytes → Prop
  | r (b : Bytes) (hb : b = [] ∨ b = [98]) (h : f.rd = true) : Permits f (114 :: b)
  | w (c : UInt8) (hc : c = 119 ∨ c = 97) (b : Bytes) (hb : b = [] ∨ b = [98]) (h : f.wr = true) :
      Permits f (c :: b)
  | rw (c : UInt8) (hc : c = 114 ∨ c = 119 ∨ c = 97) (b : Bytes) (hb : b = [] ∨ b = [98])
      (h : f.rd = true) (h' : f.wr = true) : Permits f (c :: 43 :: b)

/-- A stream opened with a mode string can be read: it is `r`, or there is a `+`. -/
def reads (s : Bytes) : Bool := s.head? == some 114 || s.contains 43

/-- A stream opened with a mode string can be written: it is not `r`, or there is a `+`. -/
def writes (s : Bytes) : Bool := s.head? != some 114 || s.contains 43

end Asteria.Stream.Spec
