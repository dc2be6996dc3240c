import Mathlib.Data.Nat.Digits.Defs
import Verif.Model.Backtrace

/-!
# Backtraces: the order of frames, and the message
-/

namespace Asteria.Backtrace

/-- Decimal numerals. -/
def numeral (n : Nat) : Bytes :=
  if n = 0 then [0x30] else (Nat.digits 10 n).reverse.map fun d => UInt8.ofNat (0x30 + d)

/-- Integers. -/
def integer (n : Int) : Bytes := (if n < 0 then [0x2D] else []) ++ numeral n.natAbs

/-- What an exception goes through on its way. -/
inductive Event (V : Type) where
  | catchClause (sloc : Sloc) (val : V)
  | deferStmt (sloc : Sloc)
  | plain (sloc : Sloc) (remarks : Bytes)
  | func (sloc : Sloc) (name : Bytes)
  | tryClause (sloc : Sloc)

/-- The calls that tell a `Runtime_Error` about it. -/
def Event.push {V : Type} (S : Values V) (e : Err V) : Event V → Res (Err V)
  | .catchClause l v => pushCatch S e l v
  | .deferStmt l => pushDefer S e l
  | .plain l r => pushPlain S e l r
  | .func l n => pushFunction S e l n
  | .tryClause l => pushTry S e l

/-- All of them, in order. -/
def pushAll {V : Type} (S : Values V) (e : Err V) : List (Event V) → Res (Err V)
  | [] => .ok e
  | ev :: evs => (ev.push S e).bind fun e => pushAll S e evs

/-- The frame of an event; `value` is what was thrown. -/
def Event.frame {V : Type} (S : Values V) (value : V) : Event V → Frame V
  | .catchClause l v => ⟨.catchClause, l, v⟩
  | .deferStmt l => ⟨.deferStmt, l, value⟩
  | .plain l r => ⟨.plain, l, S.ofString r⟩
  | .func l n => ⟨.func, l, S.ofString n⟩
  | .tryClause l => ⟨.tryClause, l, value⟩

/-- Whether an event ends the handling of the exception which was being handled when this one was thrown. -/
def Event.leaves {V : Type} : Event V → Bool
  | .catchClause .. => true
  | .deferStmt .. => true
  | _ => false

/-- The order of frames: those of the exception that was being handled come after the event which ends its handling. -/
def chain {V : Type} (S : Values V) (value : V) (handled : List (Frame V)) : List (Event V) → List (Frame V)
  | [] => handled
  | ev :: evs =>
    if ev.leaves then ev.frame S value :: (handled ++ evs.map (Event.frame S value))
    else ev.frame S value :: chain S value handled evs

/-- The frames of what is being handled. -/
def handledFrames {V : Type} : Option (Err V) → List (Frame V)
  | some e => e.frames
  | none => []

/-- The names of frames. -/
def title : FrameType → String
  | .native => "native code"
  | .throwStmt => "throw statement"
  | .catchClause => "  catch clause"
  | .plain => "  expression"
  | .func => "  function"
  | .deferStmt => "  defer statement"
  | .assertion => "assertion failure"
  | .tryClause => "  try clause"

/-- Values are printed in full up to 80 bytes. -/
def shortened (t : Bytes) : Bytes :=
  if t.length ≤ 80 then t
  else t.take 60 ++ (" ... (".toUTF8.toList ++ (numeral (t.length - 60) ++ " characters omitted)".toUTF8.toList))

/-- The line of a frame; numbers are aligned on the right. -/
def line {V : Type} (S : Values V) (width k : Nat) (f : Frame V) : Bytes :=
  "\n  ".toUTF8.toList ++ (List.replicate (width - (numeral k).length) 0x20 ++ (numeral k ++ (") ".toUTF8.toList
    ++ ((title f.type).toUTF8.toList ++ (" at '".toUTF8.toList ++ (f.sloc.file ++ (0x3A :: (integer f.sloc.line
    ++ (0x3A :: (integer f.sloc.column ++ ("': ".toUTF8.toList ++ shortened (S.print f.value))))))))))))

/-- The lines of frames, from number `k` on. -/
def lines {V : Type} (S : Values V) (width k : Nat) : List (Frame V) → Bytes
  | [] => []
  | f :: fs => line S width k f ++ lines S width (k + 1) fs

/-- The message. -/
def render {V : Type} (S : Values V) (value : V) (frames : List (Frame V)) : Bytes :=
  "runtime error: ".toUTF8.toList ++ (((S.asString value).getD (S.print value)) ++ ("\n[backtrace frames:".toUTF8.toList
    ++ (lines S (numeral frames.length).length 1 frames ++ "\n  -- end of backtrace frames]".toUTF8.toList)))

/-- Line numbers are `int`s. -/
def Sloc.Fits (l : Sloc) : Prop := -2 ^ 31 ≤ l.line ∧ l.line < 2 ^ 31 ∧ -2 ^ 31 ≤ l.column ∧ l.column < 2 ^ 31

/-- The location in an event. -/
def Event.sloc {V : Type} : Event V → Sloc
  | .catchClause l _ => l
  | .deferStmt l => l
  | .plain l _ => l
  | .func l _ => l
  | .tryClause l => l

/-- What is thrown while `cur` is being handled: an exception that is made then, or while another one of these is being handled, and has
gone through some events. -/
inductive Thrown {V : Type} (S : Values V) : Option (Err V) → Err V → Prop
  | byThrow {cur : Option (Err V)} {value : V} {sloc : Sloc} {e e' : Err V} {evs : List (Event V)} :
    newThrow S cur value sloc = .ok e → pushAll S e evs = .ok e' → Thrown S cur e'
  | byAssert {cur : Option (Err V)} {msg : Bytes} {sloc : Sloc} {e e' : Err V} {evs : List (Event V)} :
    newAssert S cur sloc msg = .ok e → pushAll S e evs = .ok e' → Thrown S cur e'
  | byNative {cur : Option (Err V)} {text : Bytes} {e e' : Err V} {evs : List (Event V)} :
    newFormat S cur text = .ok e → pushAll S e evs = .ok e' → Thrown S cur e'
  | inner {cur : Option (Err V)} {e e' : Err V} : Thrown S cur e → Thrown S (some e) e' → Thrown S cur e'

/-- What scripts see of a frame. -/
def seen {V : Type} (f : Frame V) : List (Bytes × Field V) :=
  [("frame".toUTF8.toList, .str (title f.type).toUTF8.toList), ("file".toUTF8.toList, .str f.sloc.file),
    ("line".toUTF8.toList, .int f.sloc.line), ("column".toUTF8.toList, .int f.sloc.column), ("value".toUTF8.toList, .val f.value)]

end Asteria.Backtrace
