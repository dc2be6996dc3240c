import Verif.Model.Utf

/-!
# Standard input and output

/repo/asteria/src/library/io.cpp, over streams of the C library as the C and POSIX standards describe them.
-/

namespace Asteria.Io

open Utf (utf8Encode utf8Decode)

/-- What the C library and the system decide about the `i`-th call that they get: whether it fails, how many bytes a failed
transfer has moved, and how many bytes have been read ahead into the buffer of the stream. -/
structure Lib where
  fails : Nat → Bool
  moved : Nat → Nat
  ahead : Nat → Nat

/-- A standard stream (`FILE`, io.cpp:25).  `regular` tells whether it is a regular file, rather than a pipe or a terminal; `data` is all that
it contains, or will ever contain if it is an input, or has got if it is an output; `pos` is how many bytes have been read by the program,
and `ahead` how many more are in the buffer; `wide` is its orientation (`fwide()`), if it has one; `err` and `eof` are its
indicators; `locks` is how often it has been locked; `calls` counts calls.  Simplified: output is not buffered. -/
structure Stream where
  regular : Bool
  data : Bytes
  pos : Nat := 0
  ahead : Nat := 0
  wide : Option Bool := none
  err : Bool := false
  eof : Bool := false
  locks : Nat := 0
  calls : Nat := 0
deriving DecidableEq

/-- What has not been read. -/
def Stream.unread (s : Stream) : Bytes := s.data.drop s.pos

/-- The next character of a text as the C library decodes it (`fgetwc()` in a UTF-8 locale, which repl/main.cpp:190 sets): the code point
and its length.  It has to be encoded as `utf8_encode` does it (C07). -/
def next (s : Bytes) : Option (Nat × Nat) :=
  match utf8Decode s s.length with
  | .ok (some (cp, n)) => if utf8Encode cp = some (s.take n) then some (cp, n) else none
  | _ => none

/-- `::freopen(nullptr, mode_req, fp)`, io.cpp:42: as if the file was opened again by name.  The buffer of an input is lost; a regular file is
read from its beginning, or truncated. -/
def reopen (output : Bool) (s : Stream) : Stream :=
  { s with data := if output && s.regular then [] else s.data, pos := if s.regular then 0 else s.pos + s.ahead, ahead := 0, wide := none, err := false, eof := false }

/-- The constructor of `IOF_Sentry`, io.cpp:29-57: whether it succeeds.  If it throws an exception, the destructor, which
unlocks the stream, does not run. -/
def enter (L : Lib) (output wide : Bool) (s : Stream) : Bool × Stream :=
  let s := { s with locks := s.locks + 1 }
  if s.wide = some (!wide) then
    let i := s.calls
    let s := { s with calls := i + 1 }
    if L.fails i then (false, s)
    else (true, { reopen output s with wide := some wide })
  else
    let s := { s with wide := some wide }
    (!s.err, s)

/-- The destructor of `IOF_Sentry`, io.cpp:59-62. -/
def leave (s : Stream) : Stream := { s with locks := s.locks - 1 }

/-- `IOF_Sentry` around the body of a function. -/
def guarded (L : Lib) (output wide : Bool) (body : Stream → Res α × Stream) (s : Stream) : Res α × Stream :=
  match enter L output wide s with
  | (false, s) => (.throw, s)
  | (true, s) =>
    let r := body s
    (r.1, leave r.2)

/-- `::fgetwc()`, io.cpp:130 and 151. -/
def fgetwc (L : Lib) (s : Stream) : Option Nat × Stream :=
  let i := s.calls
  let s := { s with calls := i + 1 }
  if L.fails i then (none, { s with err := true })
  else if s.unread = [] then (none, { s with eof := true })
  else match next s.unread with
    | none => (none, { s with err := true })
    | some (cp, n) => (some cp, { s with pos := s.pos + n, ahead := min (L.ahead i) (s.unread.drop n).length })

/-- `std_io_getc`, io.cpp:124-140. -/
def getc (L : Lib) : Stream → Res (Option Nat) × Stream := guarded L false true fun s =>
  match fgetwc L s with
  | (none, s) => if s.err then (.throw, s) else (.ok none, s)
  | (some cp, s) => (.ok (some cp), s)

/-- The loop of `std_io_getln`, io.cpp:150-164: the string, and whether a line feed has been found. -/
def getlnLoop (L : Lib) : Nat → Bytes → Stream → Res (Bytes × Bool) × Stream
  | 0, _, s => (.ub, s)
  | fuel + 1, u8str, s =>
    match fgetwc L s with
    | (none, s) => if s.err then (.throw, s) else (.ok (u8str, false), s)
    | (some cp, s) =>
      if cp = 10 then (.ok (u8str, true), s)
      else match utf8Encode cp with
        | none => (.throw, s)
        | some bs => getlnLoop L fuel (u8str ++ bs) s

/-- `std_io_getln`, io.cpp:142-170. -/
def getln (L : Lib) : Stream → Res (Option Bytes) × Stream := guarded L false true fun s =>
  match getlnLoop L (s.unread.length + 1) [] s with
  | (.ok (u8str, lf), s) => (.ok (if !lf && u8str = [] then none else some u8str), s)
  | (.throw, s) => (.throw, s)
  | (.ub, s) => (.ub, s)

/-- `::fread()`, io.cpp:263: the bytes; fewer than `n` only if an indicator is set. -/
def fread (L : Lib) (n : Nat) (s : Stream) : Bytes × Stream :=
  let i := s.calls
  let s := { s with calls := i + 1 }
  let k := if L.fails i then min (L.moved i) n else n
  let bs := s.unread.take k
  let t := { s with pos := s.pos + bs.length, ahead := min (L.ahead i) (s.unread.drop k).length }
  (bs, { t with err := s.err || L.fails i, eof := s.eof || (!L.fails i && bs.length != n) })

/-- The loop of `std_io_read`, io.cpp:256-274: the data and the last `nbatch`. -/
def readLoop (L : Lib) (ntotal : Nat) : Nat → Bytes → Stream → Res (Bytes × Nat) × Stream
  | 0, _, s => (.ub, s)
  | fuel + 1, data, s =>
    if ntotal < data.length then (.ub, s)
    else
      let nbatch := min (ntotal - data.length) (data.length / 2 + 127)
      if nbatch = 0 then (.ok (data, nbatch), s)
      else
        let r := fread L nbatch s
        if r.1.length ≠ nbatch ∧ r.2.err = true then (.throw, r.2)
        else if r.1.length ≠ nbatch then (.ok (data ++ r.1, nbatch), r.2)
        else readLoop L ntotal fuel (data ++ r.1) r.2

/-- `clamp_cast<size_t>(limit.value_or(INT_MAX), 0, INT_MAX)`, io.cpp:251. -/
def total (limit : Option Int) : Nat :=
  let l := limit.getD (2 ^ 31 - 1)
  if l < 0 then 0 else if 2 ^ 31 - 1 < l then 2 ^ 31 - 1 else l.toNat

/-- `std_io_read`, io.cpp:248-280. -/
def read (L : Lib) (limit : Option Int) : Stream → Res (Option Bytes) × Stream := guarded L false false fun s =>
  match readLoop L (total limit) (s.unread.length + 1) [] s with
  | (.ok (data, nbatch), s) => (.ok (if (nbatch != 0 || s.eof) && data = [] then none else some data), s)
  | (.throw, s) => (.throw, s)
  | (.ub, s) => (.ub, s)

/-- `::fputwc()`, io.cpp:86, 189 and 213: whether it succeeds.  The encoding of the C library is that of `utf8_encode` (C07). -/
def fputwc (L : Lib) (cp : Nat) (s : Stream) : Bool × Stream :=
  let i := s.calls
  let s := { s with calls := i + 1 }
  if L.fails i then (false, { s with err := true })
  else match utf8Encode cp with
    | none => (false, { s with err := true })
    | some bs => (true, { s with data := s.data ++ bs })

/-- `do_write_utf8_common`, io.cpp:72-97: the number of code points. -/
def writeUtf8 (L : Lib) : Nat → Bytes → Nat → Stream → Res Nat × Stream
  | 0, _, _, s => (.ub, s)
  | fuel + 1, text, ncps, s =>
    if text = [] then (.ok ncps, s)
    else match utf8Decode text text.length with
      | .ok (some (cp, n)) =>
        match fputwc L cp s with
        | (false, s) => (.throw, s)
        | (true, s) => writeUtf8 L fuel (text.drop n) (ncps + 1) s
      | .ok none => (.throw, s)
      | .throw => (.throw, s)
      | .ub => (.ub, s)

/-- `std_io_putc` of an integer, io.cpp:171-194. -/
def putc (L : Lib) (value : Int) : Stream → Res Nat × Stream := guarded L true true fun s =>
  if value < 0 ∨ 0x10FFFF < value then (.throw, s)
  else match utf8Encode value.toNat with
    | none => (.throw, s)
    | some _ =>
      match fputwc L value.toNat s with
      | (false, s) => (.throw, s)
      | (true, s) => (.ok 1, s)

/-- `std_io_putc` of a string, io.cpp:196-204; also `std_io_putf`, io.cpp:222-230, with the text that the formatting makes (`Format`). -/
def puts (L : Lib) (text : Bytes) : Stream → Res Nat × Stream := guarded L true true fun s => writeUtf8 L (text.length + 1) text 0 s

/-- `std_io_putln`, io.cpp:206-220; also `std_io_putfln`, io.cpp:232-246. -/
def putln (L : Lib) (text : Bytes) : Stream → Res Nat × Stream := guarded L true true fun s =>
  match writeUtf8 L (text.length + 1) text 0 s with
  | (.ok ncps, s) =>
    match fputwc L 10 s with
    | (false, s) => (.throw, s)
    | (true, s) => (.ok (ncps + 1), s)
  | r => r

/-- `std_io_write`, io.cpp:281-290, with `::fwrite()`. -/
def write (L : Lib) (data : Bytes) : Stream → Res Unit × Stream := guarded L true false fun s =>
  let i := s.calls
  let s := { s with calls := i + 1 }
  if L.fails i ∧ data ≠ [] then (.throw, { s with err := true, data := s.data ++ data.take (min (L.moved i) (data.length - 1)) })
  else (.ok (), { s with data := s.data ++ data })

end Asteria.Io
