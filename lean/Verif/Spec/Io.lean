import Verif.Model.Io
import Verif.Props.Utf

/-!
# What reading and writing standard streams means
-/

namespace Asteria.Io

open Utf (utf8Encode Scalar)

/-- A text that consists of the given characters. -/
def text : List Nat → Bytes
  | [] => []
  | c :: cs => (utf8Encode c).getD [] ++ text cs

/-- The lines of a text: what is before each line feed, and what is after the last one unless it is empty. -/
def lines : List Nat → List (List Nat)
  | [] => []
  | c :: cs =>
    if c = 10 then [] :: lines cs
    else match lines cs with
      | [] => [[c]]
      | l :: ls => (c :: l) :: ls

/-- No call fails. -/
def Lib.Calm (L : Lib) : Prop := ∀ i, L.fails i = false

/-- No error has occurred on a stream, and it may be used for characters or for bytes. -/
structure Ready (wide : Bool) (s : Stream) : Prop where
  wide : s.wide ≠ some (!wide)
  err : s.err = false

/-- Only reading has happened between two states of a stream. -/
structure Same (s s' : Stream) : Prop where
  regular : s'.regular = s.regular
  data : s'.data = s.data
  locks : s'.locks = s.locks

/-- Only writing has happened between two states of a stream: `bs` has been added. -/
structure Adds (s s' : Stream) (bs : Bytes) : Prop where
  regular : s'.regular = s.regular
  data : s'.data = s.data ++ bs
  locks : s'.locks = s.locks

/-- A call of one of the functions that use a standard stream. -/
inductive Call where
  | getc
  | getln
  | read (limit : Option Int)
  | putc (value : Int)
  | puts (text : Bytes)
  | putln (text : Bytes)
  | write (data : Bytes)

/-- Whether a call is about characters rather than bytes. -/
def Call.wide : Call → Bool
  | .read _ | .write _ => false
  | _ => true

/-- Whether an exception is thrown. -/
def thrown {α : Type} : Res α → Bool
  | .throw => true
  | _ => false

/-- How a call ends: whether it throws an exception, and the stream afterwards. -/
def Call.run (L : Lib) (s : Stream) : Call → Bool × Stream
  | .getc => (thrown (Io.getc L s).1, (Io.getc L s).2)
  | .getln => (thrown (Io.getln L s).1, (Io.getln L s).2)
  | .read limit => (thrown (Io.read L limit s).1, (Io.read L limit s).2)
  | .putc value => (thrown (Io.putc L value s).1, (Io.putc L value s).2)
  | .puts text => (thrown (Io.puts L text s).1, (Io.puts L text s).2)
  | .putln text => (thrown (Io.putln L text s).1, (Io.putln L text s).2)
  | .write data => (thrown (Io.write L data s).1, (Io.write L data s).2)

/-- The stream after several calls. -/
def runs (L : Lib) : List Call → Stream → Stream
  | [], s => s
  | c :: cs, s => runs L cs (c.run L s).2

/-- The results of several calls of `std.io.getln`. -/
def getlns (L : Lib) : Nat → Stream → List (Res (Option Bytes))
  | 0, _ => []
  | n + 1, s => (getln L s).1 :: getlns L n (getln L s).2

/-- Several calls of `std.io.putln`. -/
def putlns (L : Lib) : List Bytes → Stream → Stream
  | [], s => s
  | t :: ts, s => putlns L ts (putln L t s).2

end Asteria.Io
