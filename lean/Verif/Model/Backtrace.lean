import Verif.Model.NumText
import Verif.Model.Format

/-!
# Model of `Runtime_Error`: frames and the message

/repo/asteria/runtime/runtime_error.hpp, /repo/asteria/src/runtime/runtime_error.cpp, `describe_frame_type` of
/repo/asteria/src/fwd.cpp, `Source_Location`, and the value of `__backtrace` in /repo/asteria/src/runtime/air_node.cpp.

The type of values is a parameter.
-/

namespace Asteria.Backtrace

open NumText (writeDigits putDI)

/-- The bytes of a literal. -/
def lit (s : String) : Bytes := s.toUTF8.toList

/-- `Frame_Type`, /repo/asteria/fwd.hpp:616-626. -/
inductive FrameType where
  | native
  | throwStmt
  | catchClause
  | plain
  | func
  | deferStmt
  | assertion
  | tryClause
deriving DecidableEq

/-- `describe_frame_type`, fwd.cpp:120-153. -/
def describe : FrameType → Bytes
  | .native => lit "native code"
  | .throwStmt => lit "throw statement"
  | .catchClause => lit "  catch clause"
  | .plain => lit "  expression"
  | .func => lit "  function"
  | .deferStmt => lit "  defer statement"
  | .assertion => lit "assertion failure"
  | .tryClause => lit "  try clause"

/-- `Source_Location`, /repo/asteria/source_location.hpp:11-16. -/
structure Sloc where
  file : Bytes
  line : Int
  column : Int
deriving DecidableEq

/-- The default constructor, source_location.hpp:19-23. -/
def Sloc.unknown : Sloc := ⟨lit "[unknown]", -1, -1⟩

/-- `Source_Location::print_to`, /repo/asteria/src/source_location.cpp:8-15; integers are written by `put_DI`. -/
def Sloc.print (l : Sloc) : Bytes := l.file ++ [0x3A] ++ putDI l.line 1 ++ [0x3A] ++ putDI l.column 1

/-- `Runtime_Error::Frame`, runtime_error.hpp:19-24. -/
structure Frame (V : Type) where
  type : FrameType
  sloc : Sloc
  value : V

/-- `Runtime_Error`, runtime_error.hpp:26-32; `msg` is what is in `m_fmt`.  `m_tempf` is a buffer. -/
structure Err (V : Type) where
  value : V
  frames : List (Frame V)
  ins : Nat
  msg : Bytes

/-- What is used of values: whether they are strings and which (`is_string`, `as_string`), what `<<` writes, and the values that are
made of strings. -/
structure Values (V : Type) where
  asString : V → Option Bytes
  print : V → Bytes
  ofString : Bytes → V

/-- `::std::copy_backward(nump.begin(), nump.end(), sbuf.mut_end() - 1)`, runtime_error.cpp:62: the last bytes before the null
character are overwritten.  To write in front of the buffer is undefined behaviour. -/
def overwrite (sbuf num : Bytes) : Res Bytes :=
  if num.length + 1 ≤ sbuf.length then
    .ok (sbuf.take (sbuf.length - 1 - num.length) ++ num ++ sbuf.drop (sbuf.length - 1))
  else .ub

/-- A string that is passed as a pointer: up to the first null character. -/
def cstr (s : Bytes) : Bytes := s.takeWhile (· ≠ 0)

/-- The value of a frame, runtime_error.cpp:67-77. -/
def clip (t : Bytes) : Res Bytes :=
  if t.length > 80 then
    (Format.formatv ⟨[], [], [], []⟩ (lit " ... ($1 characters omitted)") [writeDigits 10 (t.length - 60) 1]).map fun s =>
      t.take 60 ++ s
  else .ok t

/-- The loop over frames, runtime_error.cpp:57-78: what is appended to `m_fmt`.  (No placeholder looks at the environment of
`formatv`.) -/
def frameLoop {V : Type} (S : Values V) (sbuf : Bytes) (k : Nat) : List (Frame V) → Res Bytes
  | [] => .ok []
  | r :: rs =>
    (overwrite sbuf (writeDigits 10 (k + 1) 1)).bind fun sbuf =>
    (Format.formatv ⟨[], [], [], []⟩ (lit "\n  $1) $2 at '$3': ") [cstr sbuf, describe r.type, r.sloc.print]).bind fun s =>
    (clip (S.print r.value)).bind fun t =>
    (frameLoop S sbuf (k + 1) rs).map fun rest => s ++ t ++ rest

/-- The message, runtime_error.cpp:39-80.  `sbuf` (51-53) has room for 24 characters; more make `static_vector` throw. -/
def message {V : Type} (S : Values V) (value : V) (frames : List (Frame V)) : Res Bytes :=
  let width := (writeDigits 10 frames.length 1).length
  if width + 1 ≤ 24 then
    (frameLoop S (List.replicate width 0x20 ++ [0]) 0 frames).map fun t =>
      lit "runtime error: " ++ (match S.asString value with | some s => s | none => S.print value)
        ++ lit "\n[backtrace frames:" ++ t ++ lit "\n  -- end of backtrace frames]"
  else .throw

/-- `Runtime_Error::do_insert_frame`, runtime_error.cpp:27-80.  `cow_vector::insert` throws if there is no such position. -/
def insertFrame {V : Type} (S : Values V) (e : Err V) (type : FrameType) (sloc : Option Sloc) (val : V) : Res (Err V) :=
  if e.ins ≤ e.frames.length then
    let frames := e.frames.take e.ins ++ ⟨type, sloc.getD Sloc.unknown, val⟩ :: e.frames.drop e.ins
    (message S e.value frames).map fun m => { e with frames := frames, ins := e.ins + 1, msg := m }
  else .throw

/-- The beginning of each constructor with `do_backtrace`, runtime_error.cpp:14-25: `cur` is the `Runtime_Error` that is being
handled, if there is one. -/
def fresh {V : Type} (cur : Option (Err V)) (value : V) : Err V :=
  ⟨value, (match cur with | some n => n.frames | none => []), 0, []⟩

/-- `Runtime_Error(xtc_throw, value, sloc)`, runtime_error.hpp:35-42. -/
def newThrow {V : Type} (S : Values V) (cur : Option (Err V)) (value : V) (sloc : Sloc) : Res (Err V) :=
  let e := fresh cur value
  insertFrame S e .throwStmt (some sloc) e.value

/-- `Runtime_Error(xtc_assert, sloc, msg)`, runtime_error.hpp:44-50. -/
def newAssert {V : Type} (S : Values V) (cur : Option (Err V)) (sloc : Sloc) (msg : Bytes) : Res (Err V) :=
  let e := fresh cur (S.ofString (lit "assertion failure: " ++ msg))
  insertFrame S e .assertion (some sloc) e.value

/-- `Runtime_Error(xtc_format, ...)`, runtime_error.hpp:52-63; `text` is what `format` has written. -/
def newFormat {V : Type} (S : Values V) (cur : Option (Err V)) (text : Bytes) : Res (Err V) :=
  let e := fresh cur (S.ofString text)
  insertFrame S e .native none e.value

/-- `push_frame_catch`, runtime_error.hpp:97-102. -/
def pushCatch {V : Type} (S : Values V) (e : Err V) (sloc : Sloc) (val : V) : Res (Err V) :=
  (insertFrame S e .catchClause (some sloc) val).map fun e => { e with ins := e.frames.length }

/-- `push_frame_defer`, runtime_error.hpp:104-109. -/
def pushDefer {V : Type} (S : Values V) (e : Err V) (sloc : Sloc) : Res (Err V) :=
  (insertFrame S e .deferStmt (some sloc) e.value).map fun e => { e with ins := e.frames.length }

/-- `push_frame_plain`, runtime_error.hpp:111-115. -/
def pushPlain {V : Type} (S : Values V) (e : Err V) (sloc : Sloc) (remarks : Bytes) : Res (Err V) :=
  insertFrame S e .plain (some sloc) (S.ofString remarks)

/-- `push_frame_function`, runtime_error.hpp:117-121. -/
def pushFunction {V : Type} (S : Values V) (e : Err V) (sloc : Sloc) (name : Bytes) : Res (Err V) :=
  insertFrame S e .func (some sloc) (S.ofString name)

/-- `push_frame_try`, runtime_error.hpp:123-127. -/
def pushTry {V : Type} (S : Values V) (e : Err V) (sloc : Sloc) : Res (Err V) :=
  insertFrame S e .tryClause (some sloc) e.value

/-- What is in `__backtrace`, air_node.cpp:1537-1546: strings, integers and values by key.  `try_emplace` keeps what there is. -/
inductive Field (V : Type) where
  | str (s : Bytes)
  | int (n : Int)
  | val (v : V)

/-- `r.try_emplace(key, value)` on the list of members. -/
def emplace {V : Type} (o : List (Bytes × Field V)) (key : Bytes) (x : Field V) : List (Bytes × Field V) :=
  if key ∈ o.map (·.1) then o else o ++ [(key, x)]

/-- An element of `__backtrace`, air_node.cpp:1539-1544. -/
def element {V : Type} (f : Frame V) : List (Bytes × Field V) :=
  let r := emplace [] (lit "frame") (.str (describe f.type))
  let r := emplace r (lit "file") (.str f.sloc.file)
  let r := emplace r (lit "line") (.int f.sloc.line)
  let r := emplace r (lit "column") (.int f.sloc.column)
  emplace r (lit "value") (.val f.value)

/-- The loop that fills `__backtrace`, air_node.cpp:1537-1546; `frame(k)` throws if there is no such frame. -/
def backtraceLoop {V : Type} (e : Err V) (n k : Nat) (acc : List (List (Bytes × Field V))) : Res (List (List (Bytes × Field V))) :=
  match n with
  | 0 => .ok acc
  | n + 1 =>
    match e.frames[k]? with
    | none => .throw
    | some f => backtraceLoop e n (k + 1) (acc ++ [element f])

/-- The value of `__backtrace`. -/
def backtrace {V : Type} (e : Err V) : Res (List (List (Bytes × Field V))) := backtraceLoop e e.frames.length 0 []

/-- What a script does in a deferred expression: it is finished, or it throws; the frames that are pushed meanwhile are part of what is
thrown. -/
abbrev Deferred (V : Type) := Sloc × (Option (Err V) → Res (Option (Err V)))

/-- `do_on_scope_exit_exceptional_slow`, /repo/asteria/src/runtime/executive_context.cpp:134-156: deferred expressions are executed
while `except` is being handled; the last is the first of the list. -/
def scopeExit {V : Type} (S : Values V) (e : Err V) : List (Deferred V) → Res (Err V)
  | [] => .ok e
  | (sloc, run) :: ds =>
    (run (some e)).bind fun r =>
      match r with
      | none => scopeExit S e ds
      | some nested => (pushDefer S nested sloc).bind fun e => scopeExit S e ds

end Asteria.Backtrace
